import Verif.Jacobian.Merge

/-!
Property theorems C04, C05, C06 for the Jacobian containers.
-/
namespace Verif.Jacobian
open Verif.MatrixStack Verif.MatrixStack.Spec Spec

variable {R : Type} [Semiring R]

theorem newSparse_inv (env : Env R) (align n k : Nat) (hn : n < 2 ^ 16) :
    JInv env align n (SRep env n) (newSparse n k) ([], []) :=
  ⟨rfl, Nat.mod_eq_of_lt hn, new_inv align n k 9, srep_nil env n⟩

theorem newDense_inv (env : Env R) (align n c : Nat) (hn : n < 2 ^ 16) :
    JInv env align n (DRep env n c) (newDense n c) ([], []) :=
  ⟨rfl, Nat.mod_eq_of_lt hn, new_inv align n 100 9,
    ⟨rfl, rfl, by intros; simp [newDense, total], by intros; rfl⟩⟩

/-- **C04.** For every history of legal calls on a sparse container (nested `apply` scopes with matrices
or scalars, `add` with or without a matrix, in any interleaving): every call returns normally, and
afterwards `Jacobian(dv)` is, for each active design variable that received a contribution, the
`n × dim` matrix whose coefficients are the sum over its contributions of (product of the chain live at
that call)·(matrix passed); a variable without contributions, in particular an inactive one, has no
entry and the query throws. -/
theorem C04_sparse_accumulates (debug : Bool) (env : Env R) (henv : EnvOk env) (align n k : Nat)
    (ha : 0 < align) (hn : n < 2 ^ 16) (os : List (Op R)) (fs : List (DMat R)) (ev : List (Event R))
    (hr : Run env align n ([], []) os (fs, ev)) :
    ∃ jc, Res.run (step debug align env sparseAddJ) (newSparse n k) os = .ok jc ∧
      (∀ dv, env.active dv = true → dv ∈ ev.map Prod.fst →
        ∃ J, sparseJacobian env jc dv = .ok J ∧ J.rows = n ∧ J.cols = env.dim dv ∧
          ∀ i j, i < n → j < env.dim dv → J.e i j = total ev dv i j) ∧
      (∀ dv, env.active dv = true → dv ∉ ev.map Prod.fst → sparseJacobian env jc dv = .exc) ∧
      (∀ dv ∈ ev.map Prod.fst, env.active dv = true) := by
  obtain ⟨jc, e, i⟩ := run_inv ha henv (sparse_implements henv n debug) (newSparse_inv env align n k hn) hr
  have hrep := i.rep
  refine ⟨jc, e, ?_, ?_, ?_⟩
  · intro dv hact hmem
    obtain ⟨p, hp, hk⟩ := List.mem_map.1 ((hrep.keys dv).2 hmem)
    subst hk
    have hl := look_mem hrep.sorted hp
    refine ⟨p.2, by simp [sparseJacobian, find_eq_look, hl], (hrep.shape p hp).1, (hrep.shape p hp).2, ?_⟩
    exact fun i j hi hj => hrep.val p hp i j hi hj
  · intro dv hact hmem
    unfold sparseJacobian
    cases hf : SMap.find env jc.store dv with
    | none => rfl
    | some q =>
      exfalso
      have h1 := List.mem_of_find?_eq_some hf
      have h2 : env.blockIndex q.1 = env.blockIndex dv := by simpa using List.find?_some hf
      have h3 := henv.inj q.1 dv (hrep.active q h1) hact h2
      exact hmem ((hrep.keys dv).1 (List.mem_map.2 ⟨q, h1, h3⟩))
  · intro dv hmem
    obtain ⟨p, hp, hk⟩ := List.mem_map.1 ((hrep.keys dv).2 hmem)
    subst hk
    exact hrep.active p hp

/-- **C06** (dense). The same histories on a dense container with suitable columns: every call returns
normally, `Jacobian(dv)` is the same sum for every active design variable (zero when there was no
contribution), and columns owned by no active variable are zero. -/
theorem C06_dense_agrees (debug : Bool) (env : Env R) (henv : EnvOk env) (align n nCols : Nat)
    (hcol : ColumnsOk env nCols)
    (ha : 0 < align) (hn : n < 2 ^ 16) (os : List (Op R)) (fs : List (DMat R)) (ev : List (Event R))
    (hr : Run env align n ([], []) os (fs, ev)) :
    ∃ jc, Res.run (step debug align env denseAddJ) (newDense n nCols) os = .ok jc ∧
      jc.store.rows = n ∧ jc.store.cols = nCols ∧
      (∀ dv, env.active dv = true →
        ∃ J, denseJacobian env jc dv = .ok J ∧ J.rows = n ∧ J.cols = env.dim dv ∧
          ∀ i j, i < n → j < env.dim dv → J.e i j = total ev dv i j) ∧
      (∀ i c, (∀ d, env.active d = true → ¬ ((env.columnBase d).toNat ≤ c ∧
        c < (env.columnBase d).toNat + env.dim d)) → jc.store.e i c = 0) := by
  obtain ⟨jc, e, i⟩ := run_inv ha henv (dense_implements n nCols hcol debug)
    (newDense_inv env align n nCols hn) hr
  have hrep := i.rep
  refine ⟨jc, e, hrep.rows, hrep.cols, ?_, hrep.gaps⟩
  intro dv hact
  have h1 := hcol.nonneg dv hact
  have h2 := hcol.fits dv hact
  refine ⟨⟨jc.store.rows, env.dim dv, fun i j => jc.store.e i ((env.columnBase dv).toNat + j)⟩,
    by unfold denseJacobian; rw [if_pos ⟨h1, by rw [hrep.cols]; exact h2⟩], hrep.rows, rfl, ?_⟩
  intro i j hi hj
  exact hrep.val dv hact i j hi hj

/-- **C06** (sparse = dense). The two kinds of container report the same Jacobian, coefficient for
coefficient, for every variable with a contribution, and the dense one reports zero for an active
variable the sparse one has no entry for. -/
theorem C06_sparse_dense_equal (debug : Bool) (env : Env R) (henv : EnvOk env) (align n k nCols : Nat)
    (hcol : ColumnsOk env nCols)
    (ha : 0 < align) (hn : n < 2 ^ 16) (os : List (Op R)) (fs : List (DMat R)) (ev : List (Event R))
    (hr : Run env align n ([], []) os (fs, ev)) :
    ∃ js jd, Res.run (step debug align env sparseAddJ) (newSparse n k) os = .ok js ∧
      Res.run (step debug align env denseAddJ) (newDense n nCols) os = .ok jd ∧
      ∀ dv, env.active dv = true → ∃ D, denseJacobian env jd dv = .ok D ∧
        ((∃ S, sparseJacobian env js dv = .ok S ∧ S.rows = D.rows ∧ S.cols = D.cols ∧
            ∀ i j, i < n → j < env.dim dv → S.e i j = D.e i j) ∨
         (sparseJacobian env js dv = .exc ∧ ∀ i j, i < n → j < env.dim dv → D.e i j = 0)) := by
  obtain ⟨js, es, hs1, hs2, -⟩ := C04_sparse_accumulates debug env henv align n k ha hn os fs ev hr
  obtain ⟨jd, ed, -, -, hd, -⟩ := C06_dense_agrees debug env henv align n nCols hcol ha hn os fs ev hr
  refine ⟨js, jd, es, ed, fun dv hact => ?_⟩
  obtain ⟨D, e, r, c, v⟩ := hd dv hact
  refine ⟨D, e, ?_⟩
  by_cases hm : dv ∈ ev.map Prod.fst
  · obtain ⟨S, e', r', c', v'⟩ := hs1 dv hact hm
    exact .inl ⟨S, e', by rw [r, r'], by rw [c, c'], fun i j hi hj => by rw [v i j hi hj, v' i j hi hj]⟩
  · exact .inr ⟨hs2 dv hact hm, fun i j hi hj => by rw [v i j hi hj, total_eq_zero hm]⟩

/-- **C06** (prescaling wrapper). A wrapper that multiplies by `F` from the left, put around a sparse
container that already holds contributions `ev0` and whose own chain is `fs0`, for every history of
legal calls on the wrapper (whose row count is the column count of `F`): every call returns normally,
and afterwards the wrapped container holds, for each active variable, what it held before plus
(its own chain product)·F·(the sum the wrapper's calls describe). -/
theorem C06_prescale_agrees (debug : Bool) (env : Env R) (henv : EnvOk env) (align n n0 : Nat)
    (ha : 0 < align) (F : DMat R) (k : Nat) (hn0 : n0 < 2 ^ 16)
    (os0 : List (Op R)) (fs0 : List (DMat R)) (ev0 : List (Event R))
    (hr0 : Run env align n0 ([], []) os0 (fs0, ev0))
    (hFc : F.cols = n) (hFr : F.rows = cols n0 fs0)
    (hn : n < 2 ^ 16) (os : List (Op R)) (fs : List (DMat R)) (ev : List (Event R))
    (hr : Run env align n ([], []) os (fs, ev)) :
    ∃ inner jc, Res.run (step debug align env sparseAddJ) (newSparse n0 k) os0 = .ok inner ∧
      Res.run (prescaleStep debug align env F sparseAddJ)
        (⟨n, new n 100 9, inner⟩ : JC R (JC R (SMap R))) os = .ok jc ∧
      ∀ dv, env.active dv = true → (dv ∈ ev0.map Prod.fst ∨ dv ∈ ev.map Prod.fst) →
        ∃ J, sparseJacobian env jc.store dv = .ok J ∧ J.rows = n0 ∧ J.cols = env.dim dv ∧
          ∀ i j, i < n0 → j < env.dim dv → J.e i j = total ev0 dv i j +
            ∑ t ∈ Finset.range F.rows, prod fs0 i t *
              ∑ u ∈ Finset.range F.cols, F.e t u * total ev dv u j := by
  obtain ⟨inner, e0, hinner⟩ := run_inv ha henv (sparse_implements henv n0 debug)
    (newSparse_inv env align n0 k hn0) hr0
  have h0 : PInv env align n n0 F fs0 ev0 (SRep env n0)
      (⟨n, new n 100 9, inner⟩ : JC R (JC R (SMap R))) ([], []) :=
    ⟨rfl, Nat.mod_eq_of_lt hn, new_inv align n 100 9, by simpa using hinner⟩
  obtain ⟨jc, e, i⟩ := run_of_step (P := PInv env align n n0 F fs0 ev0 (SRep env n0))
    (prescaleStep_inv ha henv (sparse_implements henv n0 debug) hFc hFr) h0 hr
  refine ⟨inner, jc, e0, e, ?_⟩
  intro dv hact hmem
  have hrep := i.inner.rep
  have hm : dv ∈ jc.store.store.map Prod.fst := by
    rw [hrep.keys]
    simp only [List.map_append, List.map_map, List.mem_append]
    rcases hmem with h | h
    · exact .inl h
    · exact .inr (by simpa using h)
  obtain ⟨p, hp, hk⟩ := List.mem_map.1 hm
  subst hk
  have hl := look_mem hrep.sorted hp
  refine ⟨p.2, by simp [sparseJacobian, find_eq_look, hl], (hrep.shape p hp).1, (hrep.shape p hp).2, ?_⟩
  intro i j hi hj
  rw [hrep.val p hp i j hi hj, total_append_list, total_scaled]
  rfl

/-- What a container of `n` rows looks like between calls: entries sorted by block index, for active
variables only, each of size `n × dim`. -/
structure WellFormed (env : Env R) (jc : JC R (SMap R)) : Prop where
  sorted : jc.store.Pairwise fun p q => env.blockIndex p.1 < env.blockIndex q.1
  active : ∀ p ∈ jc.store, env.active p.1 = true
  shape : ∀ p ∈ jc.store, p.2.rows = jc.rows ∧ p.2.cols = env.dim p.1

/-- Every container produced by a legal history is well-formed, so the hypotheses of the merge theorem
are reachable. -/
theorem C05_reachable_wellFormed (debug : Bool) (env : Env R) (henv : EnvOk env) (align n k : Nat)
    (ha : 0 < align) (hn : n < 2 ^ 16) (os : List (Op R)) (fs : List (DMat R)) (ev : List (Event R))
    (hr : Run env align n ([], []) os (fs, ev)) :
    ∃ jc, Res.run (step debug align env sparseAddJ) (newSparse n k) os = .ok jc ∧ WellFormed env jc ∧
      jc.rows = n := by
  obtain ⟨jc, e, i⟩ := run_inv ha henv (sparse_implements henv n debug) (newSparse_inv env align n k hn) hr
  refine ⟨jc, e, ⟨i.rep.sorted, i.rep.active, ?_⟩, i.rows⟩
  rw [i.rows]; exact i.rep.shape

/-- **C05.** Merging a sparse container into another of the same row count, optionally through a square
chain-rule matrix, returns normally and yields the key-wise sum: for each design variable, the left
Jacobian if only the left has one, the (chained) right one if only the right has one, the sum if both
do, no entry if neither does. The result is again well-formed. -/
theorem C05_merge_is_keywise_sum (env : Env R) (henv : EnvOk env) (lhs rhs : JC R (SMap R))
    (hl : WellFormed env lhs) (hr : WellFormed env rhs) (hrows : lhs.rows = rhs.rows)
    (CR : Option (DMat R)) (hC : ∀ C, CR = some C → C.cols = rhs.rows ∧ C.rows = rhs.rows) :
    ∃ jc, mergeAdd env lhs rhs CR = .ok jc ∧ jc.rows = lhs.rows ∧ jc.stack = lhs.stack ∧
      WellFormed env jc ∧
      ∀ dv, env.active dv = true →
        sparseJacobian env jc dv =
          match sparseJacobian env lhs dv, sparseJacobian env rhs dv with
          | .ok A, .ok B => .ok (addMat A (chained CR B))
          | .ok A, _ => .ok A
          | _, .ok B => .ok (chained CR B)
          | _, _ => .exc := by
  have hch : ∀ q ∈ rhs.store, (chained CR q.2).rows = lhs.rows ∧ (chained CR q.2).cols = env.dim q.1 := by
    intro q hq
    obtain ⟨s1, s2⟩ := hr.shape q hq
    cases CR with
    | none => exact ⟨by rw [hrows]; exact s1, s2⟩
    | some C => exact ⟨by rw [hrows]; exact (hC C rfl).2, s2⟩
  obtain ⟨jc, e, h1, h2, h3, h4⟩ := mergeAdd_spec (CR := CR) hl.sorted hr.sorted hrows
    (fun C h => (hC C h).1) (by
      intro p hp q hq hb
      have := henv.inj p.1 q.1 (hl.active p hp) (hr.active q hq) hb
      rw [(hch q hq).1, (hch q hq).2, (hl.shape p hp).1, (hl.shape p hp).2, this]
      exact ⟨rfl, rfl⟩)
  have hmem : ∀ p ∈ jc.store, env.active p.1 = true ∧ p.2.rows = lhs.rows ∧ p.2.cols = env.dim p.1 := by
    intro p hp
    have := look_mem h3 hp
    rw [h4] at this
    cases ea : look env lhs.store (env.blockIndex p.1) with
    | none =>
      cases eb : look env rhs.store (env.blockIndex p.1) with
      | none => simp [ea, eb, combine] at this
      | some b =>
        obtain ⟨k, B⟩ := b
        simp only [ea, eb, combine, Option.some.injEq] at this
        subst this
        have hm := List.mem_of_find?_eq_some eb
        exact ⟨hr.active (k, B) hm, hch (k, B) hm⟩
    | some a =>
      obtain ⟨k, A⟩ := a
      have hm := List.mem_of_find?_eq_some ea
      cases eb : look env rhs.store (env.blockIndex p.1) with
      | none =>
        simp only [ea, eb, combine, Option.some.injEq] at this
        subst this
        exact ⟨hl.active _ hm, hl.shape _ hm⟩
      | some b =>
        obtain ⟨k', B⟩ := b
        simp only [ea, eb, combine, Option.some.injEq] at this
        subst this
        exact ⟨hl.active (k, A) hm, (hl.shape (k, A) hm).1, (hl.shape (k, A) hm).2⟩
  refine ⟨jc, e, h1, h2, ⟨h3, fun p hp => (hmem p hp).1, fun p hp => by rw [h1]; exact (hmem p hp).2⟩, ?_⟩
  intro dv hact
  simp only [sparseJacobian, find_eq_look, h4]
  cases ea : look env lhs.store (env.blockIndex dv) with
  | none =>
    cases eb : look env rhs.store (env.blockIndex dv) with
    | none => rfl
    | some b => rfl
  | some a =>
    cases eb : look env rhs.store (env.blockIndex dv) with
    | none => rfl
    | some b => rfl

theorem addTo_inv (debug : Bool) (env : Env R) (henv : EnvOk env) (align n : Nat)
    (src : SMap R) (hact : ∀ p ∈ src, env.active p.1 = true)
    (fs : List (DMat R)) (hsh : ∀ p ∈ src, p.2.rows = cols n fs ∧ p.2.cols = env.dim p.1)
    (ev : List (Event R)) (dst : JC R (SMap R))
    (hdst : JInv env align n (SRep env n) dst (fs, ev)) :
    ∃ jc, addTo debug env sparseAddJ src dst = .ok jc ∧
      JInv env align n (SRep env n) jc
        (fs, ev ++ src.map fun p => (p.1, contribution fs p.2)) := by
  unfold addTo
  induction src generalizing dst ev with
  | nil => exact ⟨dst, rfl, by simpa using hdst⟩
  | cons p ps ih =>
    obtain ⟨jc1, e1, i1⟩ := add_inv henv (sparse_implements henv n debug) hdst
      (dv := p.1) (J := p.2) (by rw [(hsh p (by simp)).1]) (hsh p (by simp)).2
    have hr1 : record env ev p.1 (contribution fs p.2) = ev ++ [(p.1, contribution fs p.2)] := by
      simp [record, hact p (by simp)]
    simp only at i1
    rw [hr1] at i1
    obtain ⟨jc2, e2, i2⟩ := ih (fun q hq => hact q (by simp [hq]))
      (fun q hq => hsh q (by simp [hq])) _ jc1 i1
    refine ⟨jc2, by simp [e1, e2], ?_⟩
    simpa using i2

/-- **C05** (`addTo`). Adding all entries of a well-formed sparse container to another sparse container
that was built by a legal history: returns normally, and each active variable present in either now has
the old sum plus the sum of (target's live chain product)·(source entry). -/
theorem C05_addTo_accumulates (debug : Bool) (env : Env R) (henv : EnvOk env) (align n k : Nat)
    (ha : 0 < align) (hn : n < 2 ^ 16)
    (src : JC R (SMap R)) (hsrc : WellFormed env src)
    (os : List (Op R)) (fs : List (DMat R)) (ev : List (Event R))
    (hr : Run env align n ([], []) os (fs, ev)) (hrows : src.rows = cols n fs) :
    ∃ dst jc, Res.run (step debug align env sparseAddJ) (newSparse n k) os = .ok dst ∧
      addTo debug env sparseAddJ src.store dst = .ok jc ∧
      ∀ dv, env.active dv = true → (dv ∈ ev.map Prod.fst ∨ dv ∈ src.store.map Prod.fst) →
        ∃ J, sparseJacobian env jc dv = .ok J ∧ J.rows = n ∧ J.cols = env.dim dv ∧
          ∀ i j, i < n → j < env.dim dv → J.e i j = total ev dv i j +
            total (src.store.map fun p => (p.1, contribution fs p.2)) dv i j := by
  obtain ⟨dst, e, i⟩ := run_inv ha henv (sparse_implements henv n debug) (newSparse_inv env align n k hn) hr
  obtain ⟨jc, e', i'⟩ := addTo_inv debug env henv align n src.store hsrc.active fs
    (fun p hp => ⟨by rw [(hsrc.shape p hp).1, hrows], (hsrc.shape p hp).2⟩) ev dst i
  refine ⟨dst, jc, e, e', fun dv hact hmem => ?_⟩
  have hrep := i'.rep
  have hm : dv ∈ jc.store.map Prod.fst := by
    rw [hrep.keys]
    simp only [List.map_append, List.map_map, List.mem_append]
    rcases hmem with h | h
    · exact .inl h
    · exact .inr (by simpa using h)
  obtain ⟨p, hp, hk⟩ := List.mem_map.1 hm
  subst hk
  have hl := look_mem hrep.sorted hp
  refine ⟨p.2, by simp [sparseJacobian, find_eq_look, hl], (hrep.shape p hp).1, (hrep.shape p hp).2, ?_⟩
  intro i j hi hj
  rw [hrep.val p hp i j hi hj, total_append_list]

/-- **C67, negation.** `reset(rows)` changes the row count but not that of the chain: after a reset to a
different row count the first `apply` of a conformable matrix throws in debug builds and is undefined
behaviour in release builds. So a reset container does not behave like a new one of that row count. -/
theorem C67_reset_breaks_chain_counterexample :
    ∃ (jc : JC Int (SMap Int)) (m : DMat Int), jc = reset (newSparse 2 4) 3 ∧ jc.rows = m.rows ∧
      applyM true 2 jc m = .exc ∧ applyM false 2 jc m = .ub := by
  refine ⟨reset (newSparse 2 4) 3, ⟨3, 1, fun _ _ => 1⟩, rfl, rfl, ?_, ?_⟩ <;>
  simp [applyM, reset, newSparse, new, pushM]

/-- After any history that ends with an empty chain, `reset` to the container's own row count gives a
container on which C04 holds for every further history, with no memory of the earlier one. (Missing:
a reset to a different row count, see the counterexample above.) -/
theorem C67_reset_same_rows_partial (debug : Bool) (env : Env R) (henv : EnvOk env) (align n k : Nat)
    (ha : 0 < align) (hn : n < 2 ^ 16) (os os' : List (Op R)) (fs : List (DMat R))
    (ev ev' : List (Event R)) (hr : Run env align n ([], []) os ([], ev))
    (hr' : Run env align n ([], []) os' (fs, ev')) :
    ∃ jc jc', Res.run (step debug align env sparseAddJ) (newSparse n k) os = .ok jc ∧
      Res.run (step debug align env sparseAddJ) (reset jc n) os' = .ok jc' ∧
      ∀ dv, env.active dv = true → dv ∈ ev'.map Prod.fst →
        ∃ J, sparseJacobian env jc' dv = .ok J ∧ J.rows = n ∧ J.cols = env.dim dv ∧
          ∀ i j, i < n → j < env.dim dv → J.e i j = total ev' dv i j := by
  obtain ⟨jc, e, i⟩ := run_inv ha henv (sparse_implements henv n debug) (newSparse_inv env align n k hn) hr
  have i0 : JInv env align n (SRep env n) (reset jc n) ([], []) :=
    ⟨rfl, i.srows, i.inv, srep_nil env n⟩
  obtain ⟨jc', e', i'⟩ := run_inv ha henv (sparse_implements henv n debug) i0 hr'
  have hrep := i'.rep
  refine ⟨jc, jc', e, e', fun dv hact hmem => ?_⟩
  obtain ⟨p, hp, hk⟩ := List.mem_map.1 ((hrep.keys dv).2 hmem)
  subst hk
  have hl := look_mem hrep.sorted hp
  refine ⟨p.2, by simp [sparseJacobian, find_eq_look, hl], (hrep.shape p hp).1, (hrep.shape p hp).2, ?_⟩
  exact fun i j hi hj => hrep.val p hp i j hi hj

/-! ### Concrete instances of the hypotheses -/

/-- Three variables; 0 and 1 active with block indices 1 and 0, variable 2 inactive. -/
def demoEnv : Env Int where
  blockIndex d := if d = 0 then 1 else if d = 1 then 0 else -1
  columnBase d := if d = 0 then 2 else if d = 1 then 0 else -1
  dim d := if d = 0 then 1 else 2
  active d := d == 0 || d == 1
  scaling _ := 1

theorem demoEnv_ok : EnvOk demoEnv where
  nonneg := by
    intro d h
    have : d = 0 ∨ d = 1 := by simpa [demoEnv] using h
    rcases this with rfl | rfl <;> decide
  inj := by
    intro d d' h h'
    have h1 : d = 0 ∨ d = 1 := by simpa [demoEnv] using h
    have h2 : d' = 0 ∨ d' = 1 := by simpa [demoEnv] using h'
    rcases h1 with rfl | rfl <;> rcases h2 with rfl | rfl <;> decide

theorem demoEnv_columns : ColumnsOk demoEnv 3 where
  nonneg := by
    intro d h
    have : d = 0 ∨ d = 1 := by simpa [demoEnv] using h
    rcases this with rfl | rfl <;> decide
  fits := by
    intro d h
    have : d = 0 ∨ d = 1 := by simpa [demoEnv] using h
    rcases this with rfl | rfl <;> decide
  disjoint := by
    intro d d' h h'
    have h1 : d = 0 ∨ d = 1 := by simpa [demoEnv] using h
    have h2 : d' = 0 ∨ d' = 1 := by simpa [demoEnv] using h'
    rcases h1 with rfl | rfl <;> rcases h2 with rfl | rfl <;> decide

/-- Two nested scopes, contributions to an active variable inside and outside of the scope, an identity
contribution and a contribution to an inactive variable. -/
def demoOps : List (Op Int) :=
  [.applyM ⟨2, 3, fun i j => (i : Int) + j⟩, .add 0 ⟨3, 1, fun i _ => i⟩, .applyS 5,
   .add 0 ⟨3, 1, fun _ _ => 1⟩, .add 2 ⟨3, 2, fun _ _ => 1⟩, .endScope, .endScope, .addId 1]

example : ∃ ev, Run demoEnv 2 2 ([], []) demoOps ([], ev) ∧ ev.map Prod.fst = [0, 0, 1] := by
  refine ⟨_, .cons rfl (by simp [Fits, footprint, roundUp]) (.cons rfl (by simp [Fits, footprint, roundUp])
    (.cons rfl (by simp [Fits, footprint, roundUp, scalarMat, MatrixStack.Spec.cols])
    (.cons rfl (by simp [Fits, footprint, roundUp, scalarMat, MatrixStack.Spec.cols])
    (.cons rfl (by simp [Fits, footprint, roundUp, scalarMat, MatrixStack.Spec.cols])
    (.cons rfl (by simp [Fits, footprint, roundUp])
    (.cons rfl (by simp [Fits])
    (.cons rfl (by simp [Fits]) (.nil _)))))))), ?_⟩
  rfl

/-- Indices and columns of the three variables meet the hypotheses of C04, C05 and C06. -/
example : EnvOk demoEnv ∧ ColumnsOk demoEnv 3 := ⟨demoEnv_ok, demoEnv_columns⟩

/-- Two well-formed containers with one common and two separate variables. -/
example : ∃ l r : JC Int (SMap Int), WellFormed demoEnv l ∧ WellFormed demoEnv r ∧ l.rows = r.rows ∧
    l.store.length = 2 ∧ r.store.length = 1 := by
  refine ⟨⟨2, new 2 4 9, [(1, ⟨2, 2, fun _ _ => 1⟩), (0, ⟨2, 1, fun _ _ => 2⟩)]⟩,
    ⟨2, new 2 4 9, [(0, ⟨2, 1, fun _ _ => 7⟩)]⟩, ⟨?_, ?_, ?_⟩, ⟨?_, ?_, ?_⟩, rfl, rfl, rfl⟩ <;>
  simp [demoEnv]

end Verif.Jacobian
