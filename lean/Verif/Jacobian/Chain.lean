import Verif.Jacobian.Props

/-!
C05, continued: `applyChainRule` and `addLargeLhs` of the sparse container.
-/
namespace Verif.Jacobian
open Verif.MatrixStack Verif.MatrixStack.Spec Verif.Jacobian.Spec

variable {R : Type} [Semiring R]

/-- `addLargeLhs(rhs, applyChainRule)`, JacobianContainerSparseImpl.hpp:320-326: every entry of the right-hand container is
added by the ordinary `add`. A chain-rule matrix whose columns do not fit is undefined behaviour (an Eigen assertion in
debug builds). -/
def addLargeLhs (debug : Bool) (env : Env R) (lhs : JC R (SMap R)) (rhs : SMap R) (CR : Option (DMat R)) :
    Res (JC R (SMap R)) :=
  if (match CR with | some C => rhs.any fun p => C.cols != p.2.rows | none => false) then .ub
  else addTo debug env sparseAddJ (rhs.map fun p => (p.1, chained CR p.2)) lhs

omit [Semiring R] in
theorem look_map (env : Env R) (m : SMap R) (f : DMat R → DMat R) (b : Int) :
    look env (m.map fun p => (p.1, f p.2)) b = (look env m b).map fun p => (p.1, f p.2) := by
  unfold look
  induction m with
  | nil => rfl
  | cons p m ih =>
    simp only [List.map_cons, List.find?_cons]
    split <;> simp_all

/-- **C05** (`applyChainRule`). On every container built by a legal history, a matrix whose columns fit is accepted; the
container then has the rows of the matrix, the same design variables, and each Jacobian is the matrix times the sum of the
contributions. A matrix that does not fit is rejected. -/
theorem C05_applyChainRule (debug : Bool) (env : Env R) (henv : EnvOk env) (align n k : Nat)
    (ha : 0 < align) (hn : n < 2 ^ 16) (os : List (Op R)) (fs : List (DMat R)) (ev : List (Event R))
    (hr : Run env align n ([], []) os (fs, ev)) (C : DMat R) :
    ∃ jc, Res.run (step debug align env sparseAddJ) (newSparse n k) os = .ok jc ∧
      (C.cols ≠ n → applyChainRule jc C = .exc) ∧
      (C.cols = n → ∃ jc', applyChainRule jc C = .ok jc' ∧ jc'.rows = C.rows ∧ jc'.stack = jc.stack ∧ WellFormed env jc' ∧
        ∀ dv, env.active dv = true →
          (dv ∉ ev.map Prod.fst → sparseJacobian env jc' dv = .exc) ∧
          (dv ∈ ev.map Prod.fst → ∃ J, sparseJacobian env jc' dv = .ok J ∧ J.rows = C.rows ∧ J.cols = env.dim dv ∧
            ∀ i j, j < env.dim dv → J.e i j = ∑ t ∈ Finset.range C.cols, C.e i t * total ev dv t j)) := by
  obtain ⟨jc, e, hw, hrows⟩ := C05_reachable_wellFormed debug env henv align n k ha hn os fs ev hr
  obtain ⟨jc2, e2, h4, h5, _⟩ := C04_sparse_accumulates debug env henv align n k ha hn os fs ev hr
  obtain rfl : jc2 = jc := by rw [e] at e2; cases e2; rfl
  refine ⟨jc2, e, fun h => by simp [applyChainRule, hrows, h], fun h => ?_⟩
  refine ⟨{ jc2 with rows := C.rows, store := jc2.store.map fun p => (p.1, chained (some C) p.2) },
    by simp [applyChainRule, hrows, h], rfl, rfl, ⟨?_, ?_, ?_⟩, fun dv hact => ⟨fun hm => ?_, fun hm => ?_⟩⟩
  · rw [List.pairwise_map]; exact hw.sorted
  · intro p hp
    obtain ⟨q, hq, rfl⟩ := List.mem_map.1 hp
    exact hw.active q hq
  · intro p hp
    obtain ⟨q, hq, rfl⟩ := List.mem_map.1 hp
    exact ⟨rfl, (hw.shape q hq).2⟩
  · have h0 := h5 dv hact hm
    simp only [sparseJacobian, find_eq_look] at h0 ⊢
    rw [look_map]
    cases hl : look env jc2.store (env.blockIndex dv) with
    | none => rfl
    | some q => rw [hl] at h0; cases h0
  · obtain ⟨J, h1, h2, h3, h6⟩ := h4 dv hact hm
    simp only [sparseJacobian, find_eq_look] at h1 ⊢
    rw [look_map]
    cases hl : look env jc2.store (env.blockIndex dv) with
    | none => rw [hl] at h1; cases h1
    | some q =>
      rw [hl] at h1
      cases h1
      refine ⟨_, rfl, rfl, h3, fun i j hj => ?_⟩
      simp only [chained]
      exact Finset.sum_congr rfl fun t ht => by
        rw [h6 t j (h ▸ Finset.mem_range.1 ht) hj]

/-- **C05, limit** (`applyChainRule`). The row count of the chain is not changed: after a matrix with another number of
rows, the first `apply` of a conformable matrix throws in debug builds and is undefined behaviour in release builds. -/
theorem C05_applyChainRule_counterexample :
    ∃ (C m : DMat Int) (jc : JC Int (SMap Int)), applyChainRule (newSparse 2 4) C = .ok jc ∧ jc.rows = m.rows ∧
      applyM true 2 jc m = .exc ∧ applyM false 2 jc m = .ub := by
  refine ⟨⟨3, 2, fun _ _ => 1⟩, ⟨3, 1, fun _ _ => 1⟩, ⟨3, new 2 4 9, []⟩, rfl, rfl, ?_, ?_⟩ <;>
  simp [applyM, new, pushM]

theorem total_keys (env : Env R) (m : SMap R) (hs : Sorted env m) (f : DMat R → Nat → Nat → R) (p : Nat × DMat R) (hp : p ∈ m)
    (i j : Nat) : total (m.map fun p => (p.1, f p.2)) p.1 i j = f p.2 i j := by
  induction m with
  | nil => cases hp
  | cons q m ih =>
    have hs' := List.pairwise_cons.1 hs
    have hne : ∀ x ∈ m, env.blockIndex q.1 < env.blockIndex x.1 := hs'.1
    rcases List.mem_cons.1 hp with rfl | h
    · have : (m.map fun p => (p.1, f p.2)).filter (fun x => decide (x.1 = p.1)) = [] := by
        rw [List.filter_eq_nil_iff]
        intro x hx
        obtain ⟨y, hy, rfl⟩ := List.mem_map.1 hx
        have := hne y hy
        simp only [decide_eq_true_eq]
        intro h
        rw [h] at this
        omega
      simp [total, this]
    · have hq : q.1 ≠ p.1 := fun h' => by
        have := hne p h
        rw [h'] at this
        omega
      have := ih hs'.2 h
      simpa [total, hq] using this

/-- **C05** (`addLargeLhs`). For every container built by a legal history whose chain is empty, and every well-formed
right-hand container of the same row count, optionally through a square chain-rule matrix, `add(rhs)` and `addLargeLhs(rhs)`
both return normally, with the same design variables and the same Jacobians. -/
theorem C05_addLargeLhs_agrees (debug : Bool) (env : Env R) (henv : EnvOk env) (align n k : Nat)
    (ha : 0 < align) (hn : n < 2 ^ 16) (os : List (Op R)) (ev : List (Event R))
    (hr : Run env align n ([], []) os ([], ev)) (rhs : JC R (SMap R)) (hrw : WellFormed env rhs) (hrows : rhs.rows = n)
    (CR : Option (DMat R)) (hC : ∀ C, CR = some C → C.cols = n ∧ C.rows = n) :
    ∃ lhs a b, Res.run (step debug align env sparseAddJ) (newSparse n k) os = .ok lhs ∧
      mergeAdd env lhs rhs CR = .ok a ∧ addLargeLhs debug env lhs rhs.store CR = .ok b ∧
      ∀ dv, env.active dv = true →
        (sparseJacobian env a dv = .exc ∧ sparseJacobian env b dv = .exc) ∨
        ∃ A B, sparseJacobian env a dv = .ok A ∧ sparseJacobian env b dv = .ok B ∧ A.rows = n ∧ B.rows = n ∧
          A.cols = env.dim dv ∧ B.cols = env.dim dv ∧ ∀ i j, i < n → j < env.dim dv → A.e i j = B.e i j := by
  obtain ⟨lhs, e, hw, hlr⟩ := C05_reachable_wellFormed debug env henv align n k ha hn os [] ev hr
  obtain ⟨lhs2, e2, h4, h5, _⟩ := C04_sparse_accumulates debug env henv align n k ha hn os [] ev hr
  obtain rfl : lhs2 = lhs := by rw [e] at e2; cases e2; rfl
  obtain ⟨lhs3, e3, hinv⟩ := run_inv ha henv (sparse_implements henv n debug) (newSparse_inv env align n k hn) hr
  obtain rfl : lhs3 = lhs2 := by rw [e] at e3; cases e3; rfl
  obtain ⟨a, ea, ha1, _, haw, hav⟩ := C05_merge_is_keywise_sum env henv lhs3 rhs hw hrw (hlr.trans hrows.symm) CR
    (fun C h => by rw [hrows]; exact hC C h)
  have hsh : ∀ q ∈ rhs.store, (chained CR q.2).rows = n ∧ (chained CR q.2).cols = env.dim q.1 := by
    intro q hq
    obtain ⟨s1, s2⟩ := hrw.shape q hq
    cases CR with
    | none => exact ⟨s1.trans hrows, s2⟩
    | some C => exact ⟨(hC C rfl).2, s2⟩
  obtain ⟨b, eb, ib⟩ := addTo_inv debug env henv align n (rhs.store.map fun p => (p.1, chained CR p.2))
    (fun p hp => by
      obtain ⟨q, hq, rfl⟩ := List.mem_map.1 hp
      exact hrw.active q hq) []
    (fun p hp => by
      obtain ⟨q, hq, rfl⟩ := List.mem_map.1 hp
      exact hsh q hq) ev lhs3 hinv
  have hub : (match CR with | some C => rhs.store.any fun p => C.cols != p.2.rows | none => false) = false := by
    cases CR with
    | none => rfl
    | some C =>
      simp only [List.any_eq_false, bne_iff_ne, ne_eq, not_not]
      intro p hp
      rw [(hC C rfl).1, (hrw.shape p hp).1, hrows]
  refine ⟨lhs3, a, b, e, ea, ?_, fun dv hact => ?_⟩
  · unfold addLargeLhs
    simp only [hub]
    exact eb
  have hrep := ib.rep
  -- what the second container holds
  have hb : (dv ∈ ev.map Prod.fst ∨ dv ∈ rhs.store.map Prod.fst) → ∃ B, sparseJacobian env b dv = .ok B ∧ B.rows = n ∧
      B.cols = env.dim dv ∧ ∀ i j, i < n → j < env.dim dv → B.e i j = total ev dv i j +
        total (rhs.store.map fun p => (p.1, contribution [] (chained CR p.2))) dv i j := by
    intro hmem
    have hm : dv ∈ b.store.map Prod.fst := by
      rw [hrep.keys]
      simp only [List.map_append, List.map_map, List.mem_append]
      rcases hmem with h | h
      · exact .inl h
      · exact .inr (by simpa using h)
    obtain ⟨p, hp, hk⟩ := List.mem_map.1 hm
    subst hk
    have hl := look_mem hrep.sorted hp
    refine ⟨p.2, by simp [sparseJacobian, find_eq_look, hl], (hrep.shape p hp).1, (hrep.shape p hp).2, ?_⟩
    intro i j hi hj
    rw [hrep.val p hp i j hi hj, total_append_list, List.map_map]
    rfl
  have hkeyr : ∀ {q : Nat × DMat R}, look env rhs.store (env.blockIndex dv) = some q → q ∈ rhs.store ∧ q.1 = dv := by
    intro q hq
    have hm := List.mem_of_find?_eq_some hq
    have hbi := List.find?_some hq
    simp only [beq_iff_eq] at hbi
    exact ⟨hm, henv.inj _ _ (hrw.active q hm) hact hbi⟩
  have hval := hav dv hact
  by_cases hL : dv ∈ ev.map Prod.fst
  · obtain ⟨J, j1, j2, j3, j4⟩ := h4 dv hact hL
    obtain ⟨B, b1, b2, b3, b4⟩ := hb (.inl hL)
    right
    rw [j1] at hval
    cases hq : look env rhs.store (env.blockIndex dv) with
    | none =>
      have hx : sparseJacobian env rhs dv = .exc := by simp [sparseJacobian, find_eq_look, hq]
      rw [hx] at hval
      refine ⟨J, B, hval, b1, j2, b2, j3, b3, fun i j hi hj => ?_⟩
      rw [j4 i j hi hj, b4 i j hi hj]
      refine (add_zero _).symm.trans (congrArg _ (total_eq_zero ?_ i j).symm)
      intro hm
      rw [List.map_map] at hm
      obtain ⟨q, hq', hqe⟩ := List.mem_map.1 hm
      have := look_mem hrw.sorted hq'
      simp only [Function.comp] at hqe
      rw [hqe, hq] at this
      cases this
    | some q =>
      obtain ⟨hm, rfl⟩ := hkeyr hq
      have hx : sparseJacobian env rhs q.1 = .ok q.2 := by simp [sparseJacobian, find_eq_look, hq]
      rw [hx] at hval
      refine ⟨_, B, hval, b1, j2, b2, j3, b3, fun i j hi hj => ?_⟩
      rw [b4 i j hi hj, total_keys env rhs.store hrw.sorted (fun M => contribution [] (chained CR M)) q hm,
        contribution_nil (hsh q hm).1 hi]
      simp only [addMat, j4 i j hi hj]
  · have hx0 := h5 dv hact hL
    rw [hx0] at hval
    cases hq : look env rhs.store (env.blockIndex dv) with
    | none =>
      left
      have hx : sparseJacobian env rhs dv = .exc := by simp [sparseJacobian, find_eq_look, hq]
      rw [hx] at hval
      refine ⟨hval, ?_⟩
      simp only [sparseJacobian, find_eq_look]
      cases hlb : look env b.store (env.blockIndex dv) with
      | none => rfl
      | some p =>
        exfalso
        have hm := List.mem_of_find?_eq_some hlb
        have hbi := List.find?_some hlb
        simp only [beq_iff_eq] at hbi
        have hpd := henv.inj _ _ (hrep.active p hm) hact hbi
        have hk : dv ∈ b.store.map Prod.fst := List.mem_map.2 ⟨p, hm, hpd⟩
        rw [hrep.keys, List.map_append, List.mem_append] at hk
        rcases hk with hk | hk
        · exact hL hk
        · rw [List.map_map, List.map_map] at hk
          obtain ⟨y, hy, hye⟩ := List.mem_map.1 hk
          have := look_mem hrw.sorted hy
          simp only [Function.comp] at hye
          rw [hye, hq] at this
          cases this
    | some q =>
      obtain ⟨hm, rfl⟩ := hkeyr hq
      right
      have hx : sparseJacobian env rhs q.1 = .ok q.2 := by simp [sparseJacobian, find_eq_look, hq]
      rw [hx] at hval
      obtain ⟨B, b1, b2, b3, b4⟩ := hb (.inr (List.mem_map.2 ⟨q, hm, rfl⟩))
      refine ⟨_, B, hval, b1, (hsh q hm).1, b2, (hsh q hm).2, b3, fun i j hi hj => ?_⟩
      rw [b4 i j hi hj, total_eq_zero hL, zero_add,
        total_keys env rhs.store hrw.sorted (fun M => contribution [] (chained CR M)) q hm, contribution_nil (hsh q hm).1 hi]

/-- **C05, limit** (live chain). While a scope is open, `add(rhs)` ignores the chain and `addLargeLhs(rhs)` applies it. -/
theorem C05_live_chain_counterexample :
    ∃ (lhs rhs a b : JC Int (SMap Int)), applyS true 2 (newSparse 1 4) 5 = .ok lhs ∧ WellFormed demoEnv rhs ∧ rhs.rows = lhs.rows ∧
      mergeAdd demoEnv lhs rhs none = .ok a ∧ addLargeLhs true demoEnv lhs rhs.store none = .ok b ∧
      (∃ A B, sparseJacobian demoEnv a 0 = .ok A ∧ sparseJacobian demoEnv b 0 = .ok B ∧ A.e 0 0 = 1 ∧ B.e 0 0 = 5) := by
  refine ⟨_, ⟨1, new 1 4 9, [(0, ⟨1, 1, fun _ _ => 1⟩)]⟩, _, _, rfl, ⟨?_, ?_, ?_⟩, rfl, rfl, rfl, _, _, rfl, rfl, rfl, ?_⟩
  · simp
  · simp [demoEnv]
  · simp [demoEnv]
  · rfl

/-- **C05, limit** (chain-rule matrix that is not square). `add(rhs, C)` only checks the columns of `C`: the container then
holds a Jacobian with another number of rows than it reports. -/
theorem C05_nonsquare_chain_counterexample :
    ∃ (rhs jc : JC Int (SMap Int)) (C J : DMat Int), WellFormed demoEnv rhs ∧ C.cols = rhs.rows ∧
      mergeAdd demoEnv (newSparse 2 4) rhs (some C) = .ok jc ∧ jc.rows = 2 ∧ sparseJacobian demoEnv jc 0 = .ok J ∧ J.rows = 3 := by
  refine ⟨⟨2, new 2 4 9, [(0, ⟨2, 1, fun _ _ => 1⟩)]⟩, _, ⟨3, 2, fun _ _ => 1⟩, _, ⟨?_, ?_, ?_⟩, rfl, rfl, rfl, rfl, rfl⟩ <;>
  simp [demoEnv]

/-- **C05, limit** (chain-rule matrix that does not fit). `add(rhs, C)` throws, `addLargeLhs(rhs, C)` multiplies matrices that do not fit. -/
theorem C05_unfit_chain_counterexample (debug : Bool) (env : Env R) (lhs rhs : JC R (SMap R)) (C : DMat R) (hrhs : WellFormed env rhs) (hne : rhs.store ≠ []) (hC : C.cols ≠ rhs.rows) :
    mergeAdd env lhs rhs (some C) = .exc ∧ addLargeLhs debug env lhs rhs.store (some C) = .ub := by
  refine ⟨?_, ?_⟩
  · by_cases h : lhs.rows ≠ rhs.rows
    · simp only [mergeAdd, if_pos h]
    · simp [mergeAdd, if_neg h, hC]
  · obtain ⟨p, l, hl⟩ := List.exists_cons_of_ne_nil hne
    have hp : C.cols ≠ p.2.rows := by
      rw [(hrhs.shape p (by rw [hl]; exact List.mem_cons_self)).1]
      exact hC
    simp [addLargeLhs, hl, hp]

example : WellFormed demoEnv (⟨1, new 1 4 9, [(0, ⟨1, 1, fun _ _ => 1⟩)]⟩ : JC Int (SMap Int)) ∧ (⟨2, 2, fun _ _ => 1⟩ : DMat Int).cols ≠ 1 := by
  refine ⟨⟨?_, ?_, ?_⟩, by decide⟩ <;> simp [demoEnv]

/-- The history of `demoOps` ends with an empty chain; a square chain-rule matrix and a right-hand container with a common
variable meet the hypotheses. -/
example : ∃ (ev : List (Event Int)) (rhs : JC Int (SMap Int)) (C : DMat Int), Run demoEnv 2 2 ([], []) demoOps ([], ev) ∧
    WellFormed demoEnv rhs ∧ rhs.rows = 2 ∧ C.cols = 2 ∧ C.rows = 2 ∧ ev.map Prod.fst = [0, 0, 1] ∧ rhs.store.length = 1 := by
  refine ⟨_, ⟨2, new 2 4 9, [(0, ⟨2, 1, fun _ _ => 7⟩)]⟩, ⟨2, 2, fun i j => i + j⟩,
    .cons rfl (by simp [Fits, footprint, roundUp]) (.cons rfl (by simp [Fits, footprint, roundUp])
    (.cons rfl (by simp [Fits, footprint, roundUp, scalarMat, MatrixStack.Spec.cols])
    (.cons rfl (by simp [Fits, footprint, roundUp, scalarMat, MatrixStack.Spec.cols])
    (.cons rfl (by simp [Fits, footprint, roundUp, scalarMat, MatrixStack.Spec.cols])
    (.cons rfl (by simp [Fits, footprint, roundUp])
    (.cons rfl (by simp [Fits])
    (.cons rfl (by simp [Fits]) (.nil _)))))))), ⟨?_, ?_, ?_⟩, rfl, rfl, rfl, rfl, rfl⟩ <;>
  simp [demoEnv]

end Verif.Jacobian
