import Verif.Hessian.Lemmas
import Mathlib.Algebra.BigOperators.Group.Finset.Sigma

/-! Property theorems C07 (assembly of the normal equations). -/
namespace Verif.Hessian
open Verif.MatrixStack (DMat)
open Verif.Jacobian Verif.Jacobian.Spec Verif.SBM

variable {R : Type} [CommRing R]

/-- What `initMatrixStructure` establishes for the list of active design variables (LinearSystemSolver
and `BlockCholeskyLinearSystemSolver.cpp:36-57`; `OptimizerProblemManagerBase`): the `i`-th one has
block index `i`, and active variables are in the list. -/
structure Indexed (env : Env R) (dvs : List Nat) : Prop where
  block : ∀ i, i < dvs.length → env.blockIndex (dvs.getD i 0) = i
  mem : ∀ d, env.active d = true → ∃ i, i < dvs.length ∧ dvs.getD i 0 = d

theorem Indexed.envOk {env : Env R} {dvs : List Nat} (h : Indexed env dvs) : EnvOk env where
  nonneg d hd := by
    obtain ⟨i, hi, rfl⟩ := h.mem d hd
    rw [h.block i hi]; omega
  inj d d' hd hd' he := by
    obtain ⟨i, hi, rfl⟩ := h.mem d hd
    obtain ⟨i', hi', rfl⟩ := h.mem d' hd'
    rw [h.block i hi, h.block i' hi'] at he
    have : i = i' := by omega
    rw [this]

/-- The weight of a term: (square root of the M-estimator weight)² times the inverse covariance
`getInvR() = sqrtInvR·sqrtInvRᵀ` (ET:137-140). -/
def weight (t : Term R) (v v' : Nat) : R :=
  t.sqrtWeight * t.sqrtWeight * ∑ u ∈ Finset.range t.sqrtInvR.cols, t.sqrtInvR.e v u * t.sqrtInvR.e v' u

/-- Coefficient `(v,a)` of the scaled Jacobian of a term with respect to a variable, given the
contributions the term made. -/
def scaledJ (env : Env R) (ev : List (Event R)) (d v a : Nat) : R := env.scaling d * total ev d v a

/-- `Jᵀ W J` for two variables. -/
def JtWJ (env : Env R) (t : Term R) (ev : List (Event R)) (d d' a b : Nat) : R :=
  ∑ v ∈ Finset.range t.dim, ∑ v' ∈ Finset.range t.dim,
    scaledJ env ev d v a * weight t v v' * scaledJ env ev d' v' b

/-- `Jᵀ W e` for a variable. -/
def JtWe (env : Env R) (t : Term R) (ev : List (Event R)) (d a : Nat) : R :=
  ∑ v ∈ Finset.range t.dim, ∑ v' ∈ Finset.range t.dim,
    scaledJ env ev d v a * weight t v v' * t.error v'

/-- A term whose `evaluateJacobians` makes legal calls that amount to the contributions `ev`. -/
structure Legal (env : Env R) (align : Nat) (t : Term R) (ev : List (Event R)) : Prop where
  dim : t.dim < 2 ^ 16
  srows : t.sqrtInvR.rows = t.dim
  run : ∃ fs, Run env align t.dim ([], []) t.calls (fs, ev)

theorem sum_unique {S : Type} [AddCommMonoid S] {env : Env R} {m : SMap R} (hs : Sorted env m)
    {p : Nat × DMat R} (hp : p ∈ m) (f : Nat × DMat R → S) :
    (m.map fun q => if env.blockIndex q.1 = env.blockIndex p.1 then f q else 0).sum = f p := by
  induction m with
  | nil => simp at hp
  | cons q m ih =>
    have hs' := List.pairwise_cons.1 hs
    rw [List.map_cons, List.sum_cons]
    rcases List.mem_cons.1 hp with rfl | hp
    · rw [if_pos rfl, List.sum_eq_zero, add_zero]
      intro x hx
      obtain ⟨q', hq', rfl⟩ := List.mem_map.1 hx
      have := hs'.1 q' hq'
      rw [if_neg (by omega)]
    · have := hs'.1 p hp
      rw [if_neg (by omega), zero_add]
      exact ih hs'.2 hp

theorem X_weight {env : Env R} {dvs : List Nat} (hix : Indexed env dvs) {n : Nat} {m : SMap R}
    {ev : List (Event R)} (hm : SRep env n m ev) (S : DMat R) (hS : S.rows = n) {r : Nat}
    (hr : r < dvs.length) (u a : Nat) (ha : a < env.dim (dvs.getD r 0)) :
    X env (m.map fun p => (p.1, weightJ (env.scaling p.1) S p.2)) r u a =
      ∑ v ∈ Finset.range n, S.e v u * scaledJ env ev (dvs.getD r 0) v a := by
  have hbi : ∀ p ∈ m, (bi env p.1 = r ↔ p.1 = dvs.getD r 0) := by
    intro p hp
    constructor
    · intro h
      obtain ⟨i, hi, he⟩ := hix.mem p.1 (hm.active p hp)
      have hb := hix.block i hi
      have : (env.blockIndex p.1).toNat = r := h
      rw [← he] at this ⊢
      rw [hb] at this
      simp at this
      rw [this]
    · intro h
      show (env.blockIndex p.1).toNat = r
      rw [h, hix.block r hr]; simp
  unfold X
  rw [List.map_map]
  by_cases hk : dvs.getD r 0 ∈ m.map Prod.fst
  · obtain ⟨p, hp, he⟩ := List.mem_map.1 hk
    have hcongr : (m.map ((fun q : Nat × DMat R => if bi env q.1 = r then q.2.e u a else 0) ∘
        fun p => (p.1, weightJ (env.scaling p.1) S p.2))) =
        m.map fun q => if env.blockIndex q.1 = env.blockIndex p.1 then
          (weightJ (env.scaling q.1) S q.2).e u a else 0 := by
      apply List.map_congr_left
      intro q hq
      simp only [Function.comp]
      have : (bi env q.1 = r) ↔ env.blockIndex q.1 = env.blockIndex p.1 := by
        rw [hbi q hq, ← he]
        exact ⟨fun h => by rw [h],
          fun h => hix.envOk.inj _ _ (hm.active q hq) (hm.active p hp) h⟩
      by_cases h : bi env q.1 = r
      · rw [if_pos h, if_pos (this.1 h)]
      · rw [if_neg h, if_neg (fun h' => h (this.2 h'))]
    rw [hcongr, sum_unique hm.sorted hp (fun q => (weightJ (env.scaling q.1) S q.2).e u a)]
    simp only [weightJ, hS]
    refine Finset.sum_congr rfl fun v hv => ?_
    rw [← he] at ha ⊢
    rw [hm.val p hp v a (Finset.mem_range.1 hv) ha, scaledJ]
    ring
  · rw [List.sum_eq_zero]
    · symm
      apply Finset.sum_eq_zero
      intro v _
      rw [scaledJ, total_eq_zero (fun h => hk ((hm.keys _).2 h)), mul_zero, mul_zero]
    · intro x hx
      obtain ⟨q, hq, rfl⟩ := List.mem_map.1 hx
      simp only [Function.comp]
      rw [if_neg]
      intro h
      exact hk (List.mem_map.2 ⟨q, hq, (hbi q hq).1 h⟩)

theorem buildHessian_spec (debug : Bool) (align : Nat) (ha : 0 < align) (env : Env R) (dvs : List Nat)
    (hix : Indexed env dvs) (t : Term R) (ev : List (Event R)) (ht : Legal env align t ev) (s : Sys R)
    (hs : SysOk (dvLayout env dvs) s) :
    ∃ s', buildHessian debug align env t s = .ok s' ∧ SysOk (dvLayout env dvs) s' ∧
      (∀ r c a b, r < dvs.length → c < dvs.length → a < env.dim (dvs.getD r 0) →
        b < env.dim (dvs.getD c 0) → s'.H.at r c a b = s.H.at r c a b +
          if r ≤ c then JtWJ env t ev (dvs.getD r 0) (dvs.getD c 0) a b else 0) ∧
      (∀ r a, r < dvs.length → a < env.dim (dvs.getD r 0) →
        s'.rhs ((dvLayout env dvs).base r + a) = s.rhs ((dvLayout env dvs).base r + a) -
          JtWe env t ev (dvs.getD r 0) a) := by
  obtain ⟨fs, hrun⟩ := ht.run
  have henv := hix.envOk
  obtain ⟨jc, e, i⟩ := run_inv ha henv (sparse_implements henv t.dim debug)
    (newSparse_inv env align t.dim 100 ht.dim) hrun
  have hm := i.rep
  simp only at hm
  let S := smulMat t.sqrtWeight t.sqrtInvR
  have hSr : S.rows = t.dim := ht.srows
  let m' := jc.store.map fun p => (p.1, weightJ (env.scaling p.1) S p.2)
  have hmem : ∀ q ∈ m', ∃ p ∈ jc.store, q = (p.1, weightJ (env.scaling p.1) S p.2) := by
    intro q hq; obtain ⟨p, hp, rfl⟩ := List.mem_map.1 hq; exact ⟨p, hp, rfl⟩
  have hloc : ∀ p ∈ jc.store, ∃ k, k < dvs.length ∧ dvs.getD k 0 = p.1 ∧ bi env p.1 = k := by
    intro p hp
    obtain ⟨k, hk, he⟩ := hix.mem p.1 (hm.active p hp)
    refine ⟨k, hk, he, ?_⟩
    show (env.blockIndex p.1).toNat = k
    rw [← he, hix.block k hk]; simp
  obtain ⟨s', e', hs', hA, hB⟩ := hess_spec debug env
    (fun u => ∑ v ∈ Finset.range S.rows, S.e v u * t.error v) S.cols (dvLayout env dvs) m' s hs
    (List.Pairwise.map _ (fun _ _ h => h) hm.sorted)
    (by intro q hq; obtain ⟨p, hp, rfl⟩ := hmem q hq; exact henv.nonneg _ (hm.active p hp))
    (by intro q hq; obtain ⟨p, hp, rfl⟩ := hmem q hq
        obtain ⟨k, hk, _, hb⟩ := hloc p hp
        simp only [hb]; exact hk)
    (by intro q hq; obtain ⟨p, hp, rfl⟩ := hmem q hq; rfl)
    (by intro q hq; obtain ⟨p, hp, rfl⟩ := hmem q hq
        obtain ⟨k, hk, he, hb⟩ := hloc p hp
        simp only [hb, dvLayout_size, he]
        exact (hm.shape p hp).2)
  have hval : ∀ r, r < dvs.length → ∀ u a, a < env.dim (dvs.getD r 0) → X env m' r u a =
      ∑ v ∈ Finset.range t.dim, S.e v u * scaledJ env ev (dvs.getD r 0) v a :=
    fun r hr u a ha => X_weight hix hm S hSr hr u a ha
  have hW : ∀ v v', ∑ u ∈ Finset.range S.cols, S.e v u * S.e v' u = weight t v v' := by
    intro v v'
    rw [weight, Finset.mul_sum]
    refine Finset.sum_congr rfl fun u _ => ?_
    simp only [S, smulMat]; ring
  refine ⟨s', ?_, hs', ?_, ?_⟩
  · unfold buildHessian
    rw [e, Res.bind_ok]
    unfold evaluateHessian
    rw [if_neg (by rw [i.rows]; simp only [ne_eq, not_true_eq_false, false_or, not_not]; exact hSr.symm), if_neg]
    · exact e'
    · simp only [List.any_eq_true, bne_iff_ne, not_exists, not_and, not_not]
      intro p hp
      rw [(hm.shape p hp).1]; exact hSr.symm
  · intro r c a b hr hc ha hb
    rw [hA r c a b]
    by_cases hrc : r ≤ c
    · simp only [if_pos hrc]
      congr 1
      unfold JtWJ
      have : ∀ u, X env m' r u a * X env m' c u b =
          ∑ v ∈ Finset.range t.dim, ∑ v' ∈ Finset.range t.dim,
            scaledJ env ev (dvs.getD r 0) v a * (S.e v u * S.e v' u) * scaledJ env ev (dvs.getD c 0) v' b := by
        intro u
        rw [hval r hr u a ha, hval c hc u b hb, Finset.sum_mul_sum]
        refine Finset.sum_congr rfl fun v _ => Finset.sum_congr rfl fun v' _ => ?_
        ring
      simp only [this]
      rw [Finset.sum_comm]
      refine Finset.sum_congr rfl fun v _ => ?_
      rw [Finset.sum_comm]
      refine Finset.sum_congr rfl fun v' _ => ?_
      rw [← hW v v', Finset.mul_sum, Finset.sum_mul]
    · simp only [if_neg hrc]
  · intro r a hr ha
    rw [hB r a (by simpa [dvLayout] using hr) (by rw [dvLayout_size]; exact ha)]
    congr 1
    unfold JtWe
    have : ∀ u, X env m' r u a * (∑ v ∈ Finset.range S.rows, S.e v u * t.error v) =
        ∑ v ∈ Finset.range t.dim, ∑ v' ∈ Finset.range t.dim,
          scaledJ env ev (dvs.getD r 0) v a * (S.e v u * S.e v' u) * t.error v' := by
      intro u
      rw [hval r hr u a ha, hSr, Finset.sum_mul_sum]
      refine Finset.sum_congr rfl fun v _ => Finset.sum_congr rfl fun v' _ => ?_
      ring
    simp only [this]
    rw [Finset.sum_comm]
    refine Finset.sum_congr rfl fun v _ => ?_
    rw [Finset.sum_comm]
    refine Finset.sum_congr rfl fun v' _ => ?_
    rw [← hW v v', Finset.mul_sum, Finset.sum_mul]

theorem run_terms (debug : Bool) (align : Nat) (ha : 0 < align) (env : Env R) (dvs : List Nat)
    (hix : Indexed env dvs) (ts : List (Term R × List (Event R)))
    (ht : ∀ p ∈ ts, Legal env align p.1 p.2) (s : Sys R) (hs : SysOk (dvLayout env dvs) s) :
    ∃ s', Res.run (fun s t => buildHessian debug align env t s) s (ts.map Prod.fst) = .ok s' ∧
      SysOk (dvLayout env dvs) s' ∧
      (∀ r c a b, r < dvs.length → c < dvs.length → a < env.dim (dvs.getD r 0) →
        b < env.dim (dvs.getD c 0) → s'.H.at r c a b = s.H.at r c a b +
          if r ≤ c then (ts.map fun p => JtWJ env p.1 p.2 (dvs.getD r 0) (dvs.getD c 0) a b).sum else 0) ∧
      (∀ r a, r < dvs.length → a < env.dim (dvs.getD r 0) →
        s'.rhs ((dvLayout env dvs).base r + a) = s.rhs ((dvLayout env dvs).base r + a) -
          (ts.map fun p => JtWe env p.1 p.2 (dvs.getD r 0) a).sum) := by
  induction ts generalizing s with
  | nil => exact ⟨s, rfl, hs, by simp, by simp⟩
  | cons p ts ih =>
    obtain ⟨s1, e1, h1, hA1, hB1⟩ := buildHessian_spec debug align ha env dvs hix p.1 p.2
      (ht p (by simp)) s hs
    obtain ⟨s2, e2, h2, hA2, hB2⟩ := ih (fun q hq => ht q (by simp [hq])) s1 h1
    refine ⟨s2, by simp only [List.map_cons, Res.run_cons, e1, Res.bind_ok, e2], h2, ?_, ?_⟩
    · intro r c a b hr hc ha' hb
      rw [hA2 r c a b hr hc ha' hb, hA1 r c a b hr hc ha' hb]
      by_cases h : r ≤ c
      · simp only [if_pos h, List.map_cons, List.sum_cons]; ring
      · simp only [if_neg h]; ring
    · intro r a hr ha'
      rw [hB2 r a hr ha', hB1 r a hr ha', List.map_cons, List.sum_cons]
      ring

/-- **C07.** For every problem whose active variables are indexed and whose error terms evaluate their
Jacobians by legal calls: building the system from any previous system returns normally, and the
assembled matrix has in the block of variables `r ≤ c` the sum over all terms of `J_rᵀ W J_c` (with the
scaled Jacobians and `W` = M-estimator weight × inverse covariance), zero below the block diagonal, and
the right-hand side is minus the sum over all terms of `J_rᵀ W e`. Nothing of the previous content
remains. -/
theorem C07_normal_equations (debug : Bool) (align : Nat) (ha : 0 < align) (env : Env R)
    (dvs : List Nat) (hix : Indexed env dvs) (ts : List (Term R × List (Event R)))
    (ht : ∀ p ∈ ts, Legal env align p.1 p.2) (s : Sys R) (hs : SysOk (dvLayout env dvs) s) :
    ∃ s', buildSystem debug align env (ts.map Prod.fst) s = .ok s' ∧ SysOk (dvLayout env dvs) s' ∧
      ∀ r a, r < dvs.length → a < env.dim (dvs.getD r 0) →
        s'.rhs ((dvLayout env dvs).base r + a) =
          - (ts.map fun p => JtWe env p.1 p.2 (dvs.getD r 0) a).sum ∧
        ∀ c b, c < dvs.length → b < env.dim (dvs.getD c 0) →
          s'.H.toDense.e ((dvLayout env dvs).base r + a) ((dvLayout env dvs).base c + b) =
            if r ≤ c then (ts.map fun p => JtWJ env p.1 p.2 (dvs.getD r 0) (dvs.getD c 0) a b).sum
            else 0 := by
  obtain ⟨hc, hz⟩ := clear_ok hs (fun _ => 0)
  obtain ⟨s', e, h', hA, hB⟩ := run_terms debug align ha env dvs hix ts ht _ hc
  refine ⟨s', e, h', ?_⟩
  intro r a hr har
  refine ⟨by rw [hB r a hr har]; simp, ?_⟩
  intro c b hcn hb
  have := toDense_at h'.wf (r := r) (c := c) (a := a) (b := b) (by rw [h'.rl]; exact hr)
    (by rw [h'.cl]; exact hcn) (by rw [h'.rl, dvLayout_size]; exact har)
    (by rw [h'.cl, dvLayout_size]; exact hb)
  rw [h'.rl, h'.cl] at this
  rw [this, hA r c a b hr hcn har hb, hz, zero_add]

/-- **C07** (order). Listing the same error terms in another order, or starting from another previous
system, gives the same matrix and right-hand side. -/
theorem C07_order_independent (debug : Bool) (align : Nat) (ha : 0 < align) (env : Env R)
    (dvs : List Nat) (hix : Indexed env dvs) (ts ts' : List (Term R × List (Event R)))
    (hp : ts.Perm ts') (ht : ∀ p ∈ ts, Legal env align p.1 p.2) (s₁ s₂ : Sys R)
    (hs₁ : SysOk (dvLayout env dvs) s₁) (hs₂ : SysOk (dvLayout env dvs) s₂) :
    ∃ t₁ t₂, buildSystem debug align env (ts.map Prod.fst) s₁ = .ok t₁ ∧
      buildSystem debug align env (ts'.map Prod.fst) s₂ = .ok t₂ ∧
      ∀ i, i < (dvLayout env dvs).total → t₁.rhs i = t₂.rhs i ∧
        ∀ j, j < (dvLayout env dvs).total → t₁.H.toDense.e i j = t₂.H.toDense.e i j := by
  obtain ⟨t₁, e₁, _, h₁⟩ := C07_normal_equations debug align ha env dvs hix ts ht s₁ hs₁
  obtain ⟨t₂, e₂, _, h₂⟩ := C07_normal_equations debug align ha env dvs hix ts'
    (fun p hp' => ht p (hp.mem_iff.2 hp')) s₂ hs₂
  refine ⟨t₁, t₂, e₁, e₂, ?_⟩
  intro i hi
  obtain ⟨r, hr, a, har, rfl⟩ := Layout.locate (dvLayout_mono env dvs) hi
  rw [dvLayout_size] at har
  refine ⟨?_, ?_⟩
  · rw [(h₁ r a hr har).1, (h₂ r a hr har).1, (hp.map _).sum_eq]
  · intro j hj
    obtain ⟨c, hc, b, hb, rfl⟩ := Layout.locate (dvLayout_mono env dvs) hj
    rw [dvLayout_size] at hb
    rw [(h₁ r a hr har).2 c b hc hb, (h₂ r a hr har).2 c b hc hb, (hp.map _).sum_eq]

/-- **C07, sizes.** A weight with another number of rows than the term has errors: debug builds throw, release builds go on with a product of matrices that do not fit. -/
theorem C07_weight_rows_counterexample (debug : Bool) (align : Nat) (env : Env R) (t : Term R) (ts : List (Term R)) (s : Sys R) {jc : JC R (SMap R)}
    (hc : Res.run (Jacobian.step debug align env sparseAddJ) (newSparse t.dim 100) t.calls = .ok jc) (hw : t.sqrtInvR.rows ≠ t.dim) :
    buildSystem debug align env (t :: ts) s = if debug then .exc else .ub := by
  have h : t.dim ≠ jc.rows ∨ t.dim ≠ (smulMat t.sqrtWeight t.sqrtInvR).rows := .inr fun h => hw h.symm
  cases debug <;> simp only [buildSystem, Res.run, buildHessian, hc, Res.bind_ok, evaluateHessian, if_pos h] <;> rfl

/-! ### A concrete instance -/

/-- A term of dimension 2 whose Jacobians with respect to both variables of `demoEnv` are non-zero and
whose weight is not the identity. -/
def demoTerm : Term Int :=
  ⟨2, [.add 0 ⟨2, 1, fun i _ => i + 1⟩, .addId 1, .add 0 ⟨2, 1, fun _ _ => 1⟩], fun i => i,
    ⟨2, 2, fun i j => if i ≤ j then 1 else 0⟩, 3⟩

theorem demo_indexed : Indexed demoEnv [1, 0] where
  block i hi := by
    have : i = 0 ∨ i = 1 := by simp at hi; omega
    rcases this with rfl | rfl <;> decide
  mem d h := by
    have : d = 0 ∨ d = 1 := by simpa [demoEnv] using h
    rcases this with rfl | rfl
    · exact ⟨1, by decide, rfl⟩
    · exact ⟨0, by decide, rfl⟩

example : ∃ ev, Legal demoEnv 2 demoTerm ev ∧ ev.map Prod.fst = [0, 1, 0] := by
  refine ⟨_, ⟨by decide, rfl, [], .cons rfl (by simp [MatrixStack.Spec.Fits])
    (.cons rfl (by simp [MatrixStack.Spec.Fits]) (.cons rfl (by simp [MatrixStack.Spec.Fits]) (.nil _)))⟩, rfl⟩

example : ∃ jc, Res.run (Jacobian.step true 2 demoEnv sparseAddJ) (newSparse 2 100) demoTerm.calls = .ok jc ∧ (⟨3, 2, fun _ _ => 1⟩ : DMat Int).rows ≠ demoTerm.dim :=
  ⟨_, rfl, by decide⟩

/-- As `demoEnv`, with another active design variable which has no block index. -/
def strayEnv : Env Int := { demoEnv with active := fun _ => true }

/-- **C07, block indices.** An active design variable which does not belong to the problem next to one which does: debug builds throw, release builds go on with block -1. -/
theorem C07_stray_counterexample (debug : Bool) :
    buildSystem debug 2 strayEnv [⟨2, [.add 0 ⟨2, 1, fun i _ => i + 1⟩, .add 2 ⟨2, 2, fun i _ => i + 1⟩], fun i => i, ⟨2, 2, fun i j => if i ≤ j then 1 else 0⟩, 3⟩]
      ⟨new (dvLayout demoEnv [1, 0]) (dvLayout demoEnv [1, 0]), fun _ => 7, 3⟩ = if debug then .exc else .ub := by
  cases debug <;> rfl

example : EnvOk demoEnv ∧ Indexed demoEnv [1, 0] := ⟨demoEnv_ok, demo_indexed⟩

example : SysOk (dvLayout demoEnv [1, 0])
    (⟨new (dvLayout demoEnv [1, 0]) (dvLayout demoEnv [1, 0]), fun _ => 7, 3⟩ : Sys Int) :=
  ⟨new_WF _ _ (dvLayout_mono _ _) (dvLayout_mono _ _) _, rfl, rfl, rfl, by
    simp [Layout.total, dvLayout, Finset.sum_range_succ, demoEnv]⟩

end Verif.Hessian
