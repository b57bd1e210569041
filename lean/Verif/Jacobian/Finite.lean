import Verif.Jacobian.Props
import Mathlib.Data.ENat.Basic

/-!
C106: the finiteness checks of Jacobians (`JacobianContainer::isFinite`, `utils::isFinite`, `checkJacobiansFinite`). Numbers are a semiring with a
predicate `fin`; a sum is only finite if its terms are (`FinAdd`), as for floating point numbers. The examples use `ℕ∞`.
-/
namespace Verif.Jacobian
open Verif.MatrixStack Verif.Jacobian.Spec

variable {R : Type} [Semiring R]

/-! ### Model -/

/-- `allFinite()` of Eigen: true if all coefficients are. Called at JacobianContainerSparseImpl.hpp:135-141. -/
def allFinite (fin : R → Bool) (M : DMat R) : Bool := (List.range M.rows).all fun i => (List.range M.cols).all fun j => fin (M.e i j)

/-- `isFinite(dv)` of the sparse container, JacobianContainerSparseImpl.hpp:135-141. -/
def sparseFinite (fin : R → Bool) (env : Env R) (jc : JC R (SMap R)) (dv : Nat) : Res Bool := do
  let J ← sparseJacobian env jc dv
  .ok (allFinite fin J)

/-- `isFinite(dv)` of the dense container, JacobianContainerDenseImpl.hpp:22-27. -/
def denseFinite (fin : R → Bool) (env : Env R) (jc : JC R (DMat R)) (dv : Nat) : Res Bool := do
  let J ← denseJacobian env jc dv
  .ok (allFinite fin J)

/-- `utils::isFinite(jc, expr)`, ExpressionUtils.hpp:17-26; the list is the set that `expr.getDesignVariables` fills. -/
def exprFinite (env : Env R) (check : Nat → Res Bool) : List Nat → Res Bool
  | [] => .ok true
  | d :: ds =>
    if env.active d then do
      let b ← check d
      if b then exprFinite env check ds else .ok false
    else exprFinite env check ds

/-- The loop of `checkJacobiansFinite`, implementation/ErrorTerm.hpp:196-199 and ErrorTermDs.cpp:163-170. -/
def checkAll (fin : R → Bool) (m : SMap R) : Res Unit := if m.all fun p => allFinite fin p.2 then .ok () else .exc

/-- `ErrorTermFs::checkJacobiansFinite`, implementation/ErrorTerm.hpp:192-200; `os` are the calls `evaluateJacobians` makes. -/
def checkFs (fin : R → Bool) (debug : Bool) (align : Nat) (env : Env R) (n k : Nat) (os : List (Op R)) : Res Unit := do
  let jc ← Res.run (step debug align env sparseAddJ) (newSparse n k) os
  checkAll fin jc.store

/-- What can be done with an `ErrorTermDs`: evaluate its Jacobians into a container it is given (ErrorTermDs.cpp:78-91), `clearJacobians` (ErrorTermDs.cpp:92-95),
`resizeJacobianContainer` (lines 195-198). -/
inductive DsOp (R : Type) where
  | evaluate (os : List (Op R))
  | clear
  | resize (n : Nat)

/-- The member `_jacobians` (ErrorTermDs.hpp:73) under these calls. `evaluateJacobians` writes to the container it is given, not to the member. -/
def dsStep (k : Nat) (jc : JC R (SMap R)) : DsOp R → JC R (SMap R)
  | .evaluate _ => jc
  | .clear => { jc with store := [] }
  | .resize n => newSparse n k

/-- `ErrorTermDs::checkJacobiansFinite` (ErrorTermDs.cpp:162-171) after a history of calls. -/
def checkDs (fin : R → Bool) (n k : Nat) (os : List (DsOp R)) : Res Unit := checkAll fin (os.foldl (dsStep k) (newSparse n k)).store

/-! ### Theorems -/

omit [Semiring R] in
theorem allFinite_iff (fin : R → Bool) (M : DMat R) : allFinite fin M = true ↔ ∀ i j, i < M.rows → j < M.cols → fin (M.e i j) = true := by
  simp only [allFinite, List.all_eq_true, List.mem_range]
  exact ⟨fun h i j hi hj => h i hi j hj, fun h i hi j hj => h i j hi hj⟩

omit [Semiring R] in
theorem allFinite_total (fin : R → Bool) {J : DMat R} {n m : Nat} {g : Nat → Nat → R} (h1 : J.rows = n) (h2 : J.cols = m)
    (h : ∀ i j, i < n → j < m → J.e i j = g i j) : allFinite fin J = true ↔ ∀ i j, i < n → j < m → fin (g i j) = true := by
  rw [allFinite_iff, h1, h2]
  exact ⟨fun a i j hi hj => by rw [← h i j hi hj]; exact a i j hi hj, fun a i j hi hj => by rw [h i j hi hj]; exact a i j hi hj⟩

omit [Semiring R] in
theorem exprFinite_true (env : Env R) (check : Nat → Res Bool) (ds : List Nat) :
    exprFinite env check ds = .ok true ↔ ∀ d ∈ ds, env.active d = true → check d = .ok true := by
  induction ds with
  | nil => simp [exprFinite]
  | cons d ds ih =>
    unfold exprFinite
    by_cases ha : env.active d = true
    · cases hc : check d with
      | ok b => cases b <;> simp [ha, hc, ih]
      | exc => simp [ha, hc]
      | ub => simp [ha, hc]
    · simp [ha, ih]

omit [Semiring R] in
theorem exprFinite_total (env : Env R) (check : Nat → Res Bool) (ds : List Nat) (h : ∀ d ∈ ds, env.active d = true → ∃ b, check d = .ok b) :
    ∃ b, exprFinite env check ds = .ok b := by
  induction ds with
  | nil => exact ⟨true, rfl⟩
  | cons d ds ih =>
    obtain ⟨b, hb⟩ := ih fun d hd => h d (List.mem_cons_of_mem _ hd)
    unfold exprFinite
    by_cases ha : env.active d = true
    · obtain ⟨c, hc⟩ := h d List.mem_cons_self ha
      cases c <;> simp [ha, hc, hb]
    · simp [ha, hb]

/-- **C106, sparse container** (partial). After every legal history, `utils::isFinite(jc, expr)` is true exactly if each active variable of the expression
has a Jacobian whose coefficients are all finite, and returns (instead of throwing) if each of them has a Jacobian. Missing: active variables without a
Jacobian, see the counterexample. -/
theorem C106_sparse_partial (fin : R → Bool) (debug : Bool) (env : Env R) (henv : EnvOk env) (align n k : Nat) (ha : 0 < align) (hn : n < 2 ^ 16)
    (os : List (Op R)) (fs : List (DMat R)) (ev : List (Event R)) (hr : Run env align n ([], []) os (fs, ev)) (dvs : List Nat) :
    ∃ jc : JC R (SMap R), Res.run (step debug align env sparseAddJ) (newSparse n k) os = .ok jc ∧
      (exprFinite env (sparseFinite fin env jc) dvs = .ok true ↔
        ∀ d ∈ dvs, env.active d = true → d ∈ ev.map Prod.fst ∧ ∀ i j, i < n → j < env.dim d → fin (total ev d i j) = true) ∧
      ((∀ d ∈ dvs, env.active d = true → d ∈ ev.map Prod.fst) → ∃ b, exprFinite env (sparseFinite fin env jc) dvs = .ok b) := by
  obtain ⟨jc, e, h1, h2, -⟩ := C04_sparse_accumulates debug env henv align n k ha hn os fs ev hr
  refine ⟨jc, e, ?_, ?_⟩
  · rw [exprFinite_true]
    refine forall_congr' fun d => forall_congr' fun hd => forall_congr' fun hact => ?_
    by_cases hm : d ∈ ev.map Prod.fst
    · obtain ⟨J, ej, r, c, v⟩ := h1 d hact hm
      rw [← allFinite_total fin r c v]
      simp only [sparseFinite, ej, Res.bind_ok, Res.ok.injEq]
      exact ⟨fun h => ⟨hm, h⟩, fun h => h.2⟩
    · have := h2 d hact hm
      simp only [sparseFinite, this]
      exact ⟨fun h => (by cases h), fun h => absurd h.1 hm⟩
  · intro h
    refine exprFinite_total env _ dvs fun d hd hact => ?_
    obtain ⟨J, ej, -⟩ := h1 d hact (h d hd hact)
    exact ⟨allFinite fin J, by simp [sparseFinite, ej]⟩

/-- **C106, dense container.** `utils::isFinite(jc, expr)` never throws and is true exactly if all coefficients of the totals of the active variables of the
expression are finite. -/
theorem C106_dense (fin : R → Bool) (debug : Bool) (env : Env R) (henv : EnvOk env) (align n nCols : Nat) (hcol : ColumnsOk env nCols) (ha : 0 < align)
    (hn : n < 2 ^ 16) (os : List (Op R)) (fs : List (DMat R)) (ev : List (Event R)) (hr : Run env align n ([], []) os (fs, ev)) (dvs : List Nat) :
    ∃ (jc : JC R (DMat R)) (b : Bool), Res.run (step debug align env denseAddJ) (newDense n nCols) os = .ok jc ∧
      exprFinite env (denseFinite fin env jc) dvs = .ok b ∧
      (b = true ↔ ∀ d ∈ dvs, env.active d = true → ∀ i j, i < n → j < env.dim d → fin (total ev d i j) = true) := by
  obtain ⟨jc, e, -, -, h1, -⟩ := C06_dense_agrees debug env henv align n nCols hcol ha hn os fs ev hr
  obtain ⟨b, hb⟩ := exprFinite_total env (denseFinite fin env jc) dvs fun d hd hact => by
    obtain ⟨J, ej, -⟩ := h1 d hact
    exact ⟨allFinite fin J, by simp [denseFinite, ej]⟩
  refine ⟨jc, b, e, hb, ?_⟩
  have := exprFinite_true env (denseFinite fin env jc) dvs
  rw [hb] at this
  simp only [Res.ok.injEq] at this
  rw [this]
  refine forall_congr' fun d => forall_congr' fun hd => forall_congr' fun hact => ?_
  obtain ⟨J, ej, r, c, v⟩ := h1 d hact
  rw [← allFinite_total fin r c v]
  simp [denseFinite, ej]

/-- A sum is only finite if its terms are. -/
structure FinAdd (fin : R → Bool) : Prop where
  left : ∀ a b, fin (a + b) = true → fin a = true
  right : ∀ a b, fin (a + b) = true → fin b = true

theorem total_finite {fin : R → Bool} (h : FinAdd fin) {ev : List (Event R)} {d i j : Nat} (ht : fin (total ev d i j) = true) :
    ∀ v ∈ ev, v.1 = d → fin (v.2 i j) = true := by
  induction ev with
  | nil => simp
  | cons w ev ih =>
    have hs : total (w :: ev) d i j = (if w.1 = d then w.2 i j else 0) + total ev d i j := by
      by_cases hw : w.1 = d <;> simp [total, hw]
    rw [hs] at ht
    intro v hv hd
    rcases List.mem_cons.1 hv with rfl | hv
    · have := h.left _ _ ht
      rwa [if_pos hd] at this
    · exact ih (h.right _ _ ht) v hv hd

/-- **C106, no hidden contribution.** If the check of the expression returns true, every single contribution to a Jacobian of its active variables was
finite: no infinity or not-a-number is lost in the accumulation. -/
theorem C106_contributions (fin : R → Bool) (hfin : FinAdd fin) (debug : Bool) (env : Env R) (henv : EnvOk env) (align n k : Nat) (ha : 0 < align)
    (hn : n < 2 ^ 16) (os : List (Op R)) (fs : List (DMat R)) (ev : List (Event R)) (hr : Run env align n ([], []) os (fs, ev)) (dvs : List Nat)
    (jc : JC R (SMap R)) (hjc : Res.run (step debug align env sparseAddJ) (newSparse n k) os = .ok jc)
    (hcheck : exprFinite env (sparseFinite fin env jc) dvs = .ok true) :
    ∀ v ∈ ev, v.1 ∈ dvs → ∀ i j, i < n → j < env.dim v.1 → fin (v.2 i j) = true := by
  obtain ⟨jc', e, h, -⟩ := C106_sparse_partial fin debug env henv align n k ha hn os fs ev hr dvs
  rw [hjc] at e
  cases e
  intro v hv hd i j hi hj
  have hact : env.active v.1 = true := by
    obtain ⟨-, -, -, -, h⟩ := C04_sparse_accumulates debug env henv align n k ha hn os fs ev hr
    exact h v.1 (List.mem_map.2 ⟨v, hv, rfl⟩)
  exact total_finite hfin ((h.1 hcheck v.1 hd hact).2 i j hi hj) v hv rfl

/-- **C106, `ErrorTermFs::checkJacobiansFinite`.** It throws exactly if one of the Jacobians that `evaluateJacobians` leaves in a container has a
coefficient that is not finite. -/
theorem C106_checkFs (fin : R → Bool) (debug : Bool) (env : Env R) (henv : EnvOk env) (align n k : Nat) (ha : 0 < align) (hn : n < 2 ^ 16)
    (os : List (Op R)) (fs : List (DMat R)) (ev : List (Event R)) (hr : Run env align n ([], []) os (fs, ev)) :
    (checkFs fin debug align env n k os = .ok () ↔ ∀ d ∈ ev.map Prod.fst, ∀ i j, i < n → j < env.dim d → fin (total ev d i j) = true) ∧
    (checkFs fin debug align env n k os = .exc ↔ ∃ d ∈ ev.map Prod.fst, ∃ i j, i < n ∧ j < env.dim d ∧ fin (total ev d i j) = false) := by
  obtain ⟨jc, e, inv⟩ := run_inv ha henv (sparse_implements henv n debug) (newSparse_inv env align n k hn) hr
  have hrep := inv.rep
  have key : (jc.store.all fun p => allFinite fin p.2) = true ↔ ∀ d ∈ ev.map Prod.fst, ∀ i j, i < n → j < env.dim d → fin (total ev d i j) = true := by
    rw [List.all_eq_true]
    constructor
    · intro h d hd
      obtain ⟨p, hp, rfl⟩ := List.mem_map.1 ((hrep.keys d).2 hd)
      exact (allFinite_total fin (hrep.shape p hp).1 (hrep.shape p hp).2 fun i j hi hj => hrep.val p hp i j hi hj).1 (h p hp)
    · intro h p hp
      exact (allFinite_total fin (hrep.shape p hp).1 (hrep.shape p hp).2 fun i j hi hj => hrep.val p hp i j hi hj).2
        (h p.1 ((hrep.keys p.1).1 (List.mem_map.2 ⟨p, hp, rfl⟩)))
  have hrun : checkFs fin debug align env n k os = checkAll fin jc.store := by simp [checkFs, e]
  rw [hrun, checkAll]
  by_cases hall : (jc.store.all fun p => allFinite fin p.2) = true
  · rw [if_pos hall]
    refine ⟨⟨fun _ => key.1 hall, fun _ => rfl⟩, ⟨fun h => (by cases h), fun ⟨d, hd, i, j, hi, hj, h⟩ => ?_⟩⟩
    rw [key.1 hall d hd i j hi hj] at h
    cases h
  · rw [if_neg hall]
    refine ⟨⟨fun h => (by cases h), fun h => absurd (key.2 h) hall⟩, ⟨fun _ => ?_, fun _ => rfl⟩⟩
    rw [key] at hall
    push Not at hall
    obtain ⟨d, hd, i, j, hi, hj, h⟩ := hall
    exact ⟨d, hd, i, j, hi, hj, by simpa using h⟩

/-- **C106, counterexample.** `ErrorTermDs::checkJacobiansFinite` never throws, whatever Jacobians the term evaluates: it looks at a container that nothing
fills. -/
theorem C106_checkDs_counterexample (fin : R → Bool) (n k : Nat) (os : List (DsOp R)) : checkDs fin n k os = .ok () := by
  have : ∀ jc : JC R (SMap R), jc.store = [] → (os.foldl (dsStep k) jc).store = [] := by
    induction os with
    | nil => exact fun _ h => h
    | cons o os ih =>
      intro jc h
      refine ih _ ?_
      cases o <;> first | exact h | rfl
  simp [checkDs, checkAll, this (newSparse n k) rfl]

/-! ### Concrete instances of the hypotheses, counterexample -/

/-- The variables of `demoEnv` with numbers that may be infinite. -/
def infEnv : Env ℕ∞ := ⟨demoEnv.blockIndex, demoEnv.columnBase, demoEnv.dim, demoEnv.active, fun _ => 1⟩

theorem infEnv_ok : EnvOk infEnv := ⟨demoEnv_ok.nonneg, demoEnv_ok.inj⟩

theorem infEnv_columns : ColumnsOk infEnv 3 := ⟨demoEnv_columns.nonneg, demoEnv_columns.fits, demoEnv_columns.disjoint⟩

/-- Finite numbers of `ℕ∞`. -/
noncomputable def finite (a : ℕ∞) : Bool := by
  classical exact decide (a ≠ ⊤)

theorem finite_add : FinAdd finite :=
  ⟨fun a b h => by simp only [finite, decide_eq_true_eq] at h ⊢; rintro rfl; simp at h,
    fun a b h => by simp only [finite, decide_eq_true_eq] at h ⊢; rintro rfl; simp at h⟩

/-- One contribution to variable 0; variable 1 is active and receives none. -/
theorem inf_run (v : ℕ∞) : Run infEnv 2 1 ([], []) [.add 0 ⟨1, 1, fun _ _ => v⟩] ([], [(0, contribution [] ⟨1, 1, fun _ _ => v⟩)]) :=
  .cons rfl (by simp [MatrixStack.Spec.Fits]) (.nil _)

/-- **C106, counterexample.** An active variable of the expression without a Jacobian: the check of the sparse container throws, although all Jacobians are
finite and the check of the dense container returns true. -/
theorem C106_missing_counterexample (debug : Bool) : ∃ (os : List (Op ℕ∞)) (ev : List (Event ℕ∞)) (js : JC ℕ∞ (SMap ℕ∞)) (jd : JC ℕ∞ (DMat ℕ∞)),
    Run infEnv 2 1 ([], []) os ([], ev) ∧ Res.run (step debug 2 infEnv sparseAddJ) (newSparse 1 4) os = .ok js ∧
    Res.run (step debug 2 infEnv denseAddJ) (newDense 1 3) os = .ok jd ∧
    exprFinite infEnv (sparseFinite finite infEnv js) [0, 1] = .exc ∧ exprFinite infEnv (denseFinite finite infEnv jd) [0, 1] = .ok true := by
  have hr := inf_run 7
  obtain ⟨js, e1, h1, h2, -⟩ := C04_sparse_accumulates debug infEnv infEnv_ok 2 1 4 (by norm_num) (by norm_num) _ _ _ hr
  obtain ⟨jd, b, e2, h3, h4⟩ := C106_dense finite debug infEnv infEnv_ok 2 1 3 infEnv_columns (by norm_num) (by norm_num) _ _ _ hr [0, 1]
  refine ⟨_, _, js, jd, hr, e1, e2, ?_, ?_⟩
  · obtain ⟨J, ej, r, c, v⟩ := h1 0 (by decide) (by simp)
    have hf : allFinite finite J = true := (allFinite_total finite r c v).2 (by
      intro i j hi hj
      have : contribution [] (⟨1, 1, fun _ _ => (7 : ℕ∞)⟩ : DMat ℕ∞) i j = 7 := contribution_nil rfl hi
      simp only [total, List.filter_cons, List.filter_nil, decide_true, if_true, List.map_cons, List.map_nil, List.sum_cons, List.sum_nil, this]
      simp [finite])
    have hn := h2 1 (by decide) (by simp)
    have a0 : infEnv.active 0 = true := by decide
    have a1 : infEnv.active 1 = true := by decide
    simp [exprFinite, a0, a1, sparseFinite, ej, hf, hn]
  · rw [h3]
    congr 1
    rw [h4]
    intro d hd _ i j hi hj
    by_cases h0 : d = 0
    · subst h0
      have : contribution [] (⟨1, 1, fun _ _ => (7 : ℕ∞)⟩ : DMat ℕ∞) i j = 7 := contribution_nil rfl hi
      simp only [total, List.filter_cons, List.filter_nil, decide_true, if_true, List.map_cons, List.map_nil, List.sum_cons, List.sum_nil, this]
      simp [finite]
    · rw [total_eq_zero (by simpa using h0)]
      simp [finite]

example := C106_sparse_partial finite true infEnv infEnv_ok 2 1 4 (by norm_num) (by norm_num) _ _ _ (inf_run ⊤) [0]
example := C106_dense finite true infEnv infEnv_ok 2 1 3 infEnv_columns (by norm_num) (by norm_num) _ _ _ (inf_run ⊤) [0, 1]
example := C106_checkFs finite true infEnv infEnv_ok 2 1 4 (by norm_num) (by norm_num) _ _ _ (inf_run ⊤)
example := C106_contributions finite finite_add true infEnv infEnv_ok 2 1 4 (by norm_num) (by norm_num) _ _ _ (inf_run 7) [0]
example : checkFs finite true 2 infEnv 1 4 [.add 0 ⟨1, 1, fun _ _ => (⊤ : ℕ∞)⟩] = .exc := by
  rw [(C106_checkFs finite true infEnv infEnv_ok 2 1 4 (by norm_num) (by norm_num) _ _ _ (inf_run ⊤)).2]
  refine ⟨0, by simp, 0, 0, by norm_num, by decide, ?_⟩
  have : contribution [] (⟨1, 1, fun _ _ => (⊤ : ℕ∞)⟩ : DMat ℕ∞) 0 0 = ⊤ := contribution_nil rfl (by norm_num)
  simp only [total, List.filter_cons, List.filter_nil, decide_true, if_true, List.map_cons, List.map_nil, List.sum_cons, List.sum_nil, this]
  simp [finite]

end Verif.Jacobian
