import Verif.Solver.Props
import Mathlib.Algebra.BigOperators.Intervals
import Mathlib.Tactic.IntervalCases

/-!
C102: the linear solvers are interchangeable. C103: the step does not depend on the order of error terms and design variables.
-/
namespace Verif.Solver
open Verif.MatrixStack (DMat)
open Verif.SBM

variable {K : Type} [Field K] [LinearOrder K] [IsStrictOrderedRing K]

/-- No direction is left free: a step that changes no residual and is not damped is zero. -/
def Full (m n : Nat) (J : Nat → Nat → K) (d : Nat → K) : Prop :=
  ∀ z : Nat → K, (∀ i, i < m → ∑ j ∈ Finset.range n, J i j * z j = 0) → (∀ j, j < n → d j * z j = 0) → ∀ j, j < n → z j = 0

/-- `x` minimises `|J x - e|² + |diag(d) x|²`. -/
def Min (m n : Nat) (J : Nat → Nat → K) (e d x : Nat → K) : Prop := ∀ y, cost m n J e d x ≤ cost m n J e d y

theorem cost_mid (m n : Nat) (J : Nat → Nat → K) (e d x y : Nat → K) :
    4 * cost m n J e d (fun j => (x j + y j) / 2) + cost m n J (fun _ => 0) d (fun j => x j - y j) = 2 * cost m n J e d x + 2 * cost m n J e d y := by
  have hr : ∀ i, ∑ j ∈ Finset.range n, J i j * ((x j + y j) / 2) = (∑ j ∈ Finset.range n, J i j * x j + ∑ j ∈ Finset.range n, J i j * y j) / 2 := by
    intro i
    rw [← Finset.sum_add_distrib, div_eq_mul_inv, Finset.sum_mul]
    exact Finset.sum_congr rfl fun j _ => by ring
  have hs : ∀ i, ∑ j ∈ Finset.range n, J i j * (x j - y j) = ∑ j ∈ Finset.range n, J i j * x j - ∑ j ∈ Finset.range n, J i j * y j := by
    intro i
    rw [← Finset.sum_sub_distrib]
    exact Finset.sum_congr rfl fun j _ => by ring
  unfold cost
  simp only [hr, hs]
  have h1 : 4 * ∑ i ∈ Finset.range m, ((∑ j ∈ Finset.range n, J i j * x j + ∑ j ∈ Finset.range n, J i j * y j) / 2 - e i) ^ 2 +
      ∑ i ∈ Finset.range m, (∑ j ∈ Finset.range n, J i j * x j - ∑ j ∈ Finset.range n, J i j * y j - 0) ^ 2 =
      2 * ∑ i ∈ Finset.range m, (∑ j ∈ Finset.range n, J i j * x j - e i) ^ 2 + 2 * ∑ i ∈ Finset.range m, (∑ j ∈ Finset.range n, J i j * y j - e i) ^ 2 := by
    rw [Finset.mul_sum, Finset.mul_sum, Finset.mul_sum, ← Finset.sum_add_distrib, ← Finset.sum_add_distrib]
    exact Finset.sum_congr rfl fun i _ => by ring
  have h2 : 4 * ∑ j ∈ Finset.range n, (d j * ((x j + y j) / 2)) ^ 2 + ∑ j ∈ Finset.range n, (d j * (x j - y j)) ^ 2 =
      2 * ∑ j ∈ Finset.range n, (d j * x j) ^ 2 + 2 * ∑ j ∈ Finset.range n, (d j * y j) ^ 2 := by
    simp only [Finset.mul_sum, ← Finset.sum_add_distrib]
    exact Finset.sum_congr rfl fun i _ => by ring
  linear_combination h1 + h2

/-- The minimiser is unique. -/
theorem min_unique {m n : Nat} {J : Nat → Nat → K} {e d x y : Nat → K} (hf : Full m n J d) (hx : Min m n J e d x) (hy : Min m n J e d y) : ∀ j, j < n → x j = y j := by
  have h1 := cost_mid m n J e d x y
  have h2 := hx fun j => (x j + y j) / 2
  have h3 := hy fun j => (x j + y j) / 2
  have h0 : cost m n J (fun _ => 0) d (fun j => x j - y j) ≤ 0 := by linarith
  have hA : 0 ≤ ∑ i ∈ Finset.range m, (∑ j ∈ Finset.range n, J i j * (x j - y j) - 0) ^ 2 := Finset.sum_nonneg fun _ _ => sq_nonneg _
  have hB : 0 ≤ ∑ j ∈ Finset.range n, (d j * (x j - y j)) ^ 2 := Finset.sum_nonneg fun _ _ => sq_nonneg _
  unfold cost at h0
  have hA0 : ∑ i ∈ Finset.range m, (∑ j ∈ Finset.range n, J i j * (x j - y j) - 0) ^ 2 = 0 := le_antisymm (by linarith) hA
  have hB0 : ∑ j ∈ Finset.range n, (d j * (x j - y j)) ^ 2 = 0 := le_antisymm (by linarith) hB
  intro j hj
  refine sub_eq_zero.1 (hf (fun j => x j - y j) ?_ ?_ j hj)
  · intro i hi
    have := (Finset.sum_eq_zero_iff_of_nonneg (fun _ _ => sq_nonneg _)).1 hA0 i (Finset.mem_range.2 hi)
    simpa using this
  · intro i hi
    have := (Finset.sum_eq_zero_iff_of_nonneg (fun _ _ => sq_nonneg _)).1 hB0 i (Finset.mem_range.2 hi)
    simpa using this

omit [LinearOrder K] [IsStrictOrderedRing K] in
theorem cost_congr {m n : Nat} {J J' : Nat → Nat → K} {e e' d d' x x' : Nat → K} (hJ : ∀ i j, i < m → j < n → J i j = J' i j) (he : ∀ i, i < m → e i = e' i)
    (hd : ∀ j, j < n → d j = d' j) (hx : ∀ j, j < n → x j = x' j) : cost m n J e d x = cost m n J' e' d' x' := by
  unfold cost
  congr 1
  · refine Finset.sum_congr rfl fun i hi => ?_
    have hi := Finset.mem_range.1 hi
    have : ∑ j ∈ Finset.range n, J i j * x j = ∑ j ∈ Finset.range n, J' i j * x' j :=
      Finset.sum_congr rfl fun j hj => by rw [hJ i j hi (Finset.mem_range.1 hj), hx j (Finset.mem_range.1 hj)]
    rw [this, he i hi]
  · exact Finset.sum_congr rfl fun j hj => by rw [hd j (Finset.mem_range.1 hj), hx j (Finset.mem_range.1 hj)]

omit [IsStrictOrderedRing K] in
theorem Min.congr {m n : Nat} {J J' : Nat → Nat → K} {e e' d d' x : Nat → K} (hJ : ∀ i j, i < m → j < n → J i j = J' i j) (he : ∀ i, i < m → e i = e' i)
    (hd : ∀ j, j < n → d j = d' j) (h : Min m n J e d x) : Min m n J' e' d' x := by
  intro y
  rw [← cost_congr hJ he hd (fun _ _ => rfl), ← cost_congr hJ he hd (fun _ _ => rfl)]
  exact h y

/-- The linear problem a block solver holds after it was built (C07), with its conditioner. -/
structure BlkHas (s : Blk K) (m n : Nat) (J : Nat → Nat → K) (e d : Nat → K) : Prop where
  ok : BlkOk s
  size : s.H.rl.total = n
  sys : Holds s m J e fun _ => 0
  cond : ∀ j, j < n → d j = if s.useCond then s.cond j else 0

/-- The linear problem a sparse solver holds, with its conditioner: the stored matrix is the transposed Jacobian (C16). -/
structure SpsHas (s : Sps K) (m n : Nat) (J : Nat → Nat → K) (e d : Nat → K) : Prop where
  ok : SpsOk s
  rows : s.A.rows = n
  cols : s.A.cols = m
  len : s.e.length = m
  jac : ∀ i j, i < m → j < n → CCS.read (CCM.arrays s.A) j i = J i j
  err : ∀ i, i < m → s.e.getD i 0 = e i
  cond : ∀ j, j < n → d j = if s.useCond then s.cond.getD j 0 else 0

/-- The linear problem the dense solver holds, with its conditioner. -/
structure DqrHas (s : Dqr K) (m n : Nat) (J : Nat → Nat → K) (e d : Nat → K) : Prop where
  rows : s.J.length = m
  cols : s.cond.length = n
  shape : ∀ r ∈ s.J, r.length = n
  len : s.e.length = m
  jac : ∀ i j, i < m → j < n → entry s.J i j = J i j
  err : ∀ i, i < m → s.e.getD i 0 = e i
  cond : ∀ j, j < n → d j = if s.useCond then s.cond.getD j 0 else 0

theorem blk_min {debug : Bool} {lib : SBM K → (Nat → K) → Option (Nat → K)} (hlib : SolvesUpper lib) {s s' : Blk K} {m n : Nat} {J : Nat → Nat → K} {e d x : Nat → K}
    (h : BlkHas s m n J e d) (hx : s.solve debug lib = .ok (s', some x)) : Min m n J e d x := by
  obtain ⟨hok, rfl, hs, hd⟩ := h
  by_cases hu : s.useCond = true
  · refine Min.congr (fun _ _ _ _ => rfl) (fun _ _ => rfl) (fun j hj => ?_) (C46_block_partial debug lib hlib s hok hu m J e hs s' x hx).1
    rw [hd j hj, if_pos hu]
  · refine Min.congr (d := fun _ => 0) (fun _ _ _ _ => rfl) (fun _ _ => rfl) (fun j hj => ?_) ?_
    · rw [hd j hj, if_neg hu]
    · apply normal_min
      intro k hk
      unfold Blk.solve at hx
      rw [if_neg hu] at hx
      have hl : lib s.H s.rhs = some x := (Prod.mk.inj (Res.ok.inj hx)).2
      have hsol := hlib s.H s.rhs x hok.sq hl k hk
      rw [hs.rhs k hk] at hsol
      rw [← hsol]
      simp only [mul_zero, zero_mul, add_zero]
      refine Finset.sum_congr rfl fun j hj => ?_
      have hj := Finset.mem_range.1 hj
      by_cases hkj : k ≤ j
      · rw [if_pos hkj, hs.upper k j hkj hj]; simp
      · rw [if_neg hkj, hs.upper j k (by omega) hk]
        simp only [ite_self, add_zero]
        congr 1
        exact Finset.sum_congr rfl fun i _ => mul_comm _ _

theorem sps_min {lib : SpsLib K} (hlib : SolvesAAt lib) (hana : ∀ B, lib.analyze B = true) {s s1 s2 : Sps K} {m n : Nat} {J : Nat → Nat → K} {e d : Nat → K} {x : List K}
    (h : SpsHas s m n J e d) (hb : s.buildRhs = .ok s1) (hx : s1.solveSystem lib = .ok (.ret s2 (some x))) : Min m n J e d fun j => x.getD j 0 := by
  obtain ⟨hok, rfl, rfl, hl, hJ, he, hd⟩ := h
  obtain ⟨s1', hb', dx, hdx, hmin⟩ := C46_sparse_cholesky lib hlib hana s hok hl
  rw [hb] at hb'
  cases hb'
  rw [hx] at hdx
  cases hdx
  exact Min.congr hJ he (fun j hj => (hd j hj).symm) (hmin x rfl)

theorem dqr_min {lib : List (List K) → List K → List K} {s : Dqr K} {m n : Nat} {J : Nat → Nat → K} {e d : Nat → K} (hlib : LeastSquares n lib)
    (h : DqrHas s m n J e d) (jrows : Nat) : Min m n J e d fun j => (s.solve lib jrows).2.getD j 0 := by
  obtain ⟨rfl, rfl, hs, hl, hJ, he, hd⟩ := h
  by_cases hu : s.useCond = true
  · exact Min.congr hJ he (fun j hj => by rw [hd j hj, if_pos hu]) (C46_dense_partial lib s hlib jrows hs hl hu)
  · have h1 : (s.solve lib jrows).2 = lib s.J s.e := by unfold Dqr.solve; rw [if_neg hu]
    rw [h1]
    refine Min.congr (d := fun _ => 0) hJ he (fun j hj => by rw [hd j hj, if_neg hu]) ?_
    exact hlib s.J s.e hs hl

/-- `x` is a step returned by one of the four solvers for the linear problem `J`, `e` with conditioner `d`: block Cholesky directly after the system was built, sparse
Cholesky after building the right-hand side, dense QR, and sparse QR (which ignores conditioners) without conditioner and without dropping columns. The libraries
behind them are arbitrary as long as they meet their contracts. -/
inductive Returned (m n : Nat) (J : Nat → Nat → K) (e d : Nat → K) : (Nat → K) → Prop
  | block (debug : Bool) (lib : SBM K → (Nat → K) → Option (Nat → K)) (hlib : SolvesUpper lib) (s s' : Blk K) (hs : BlkHas s m n J e d) (x : Nat → K)
      (hx : s.solve debug lib = .ok (s', some x)) : Returned m n J e d x
  | sparse (lib : SpsLib K) (hlib : SolvesAAt lib) (hana : ∀ B, lib.analyze B = true) (s s1 s2 : Sps K) (hs : SpsHas s m n J e d) (h1 : s.buildRhs = .ok s1) (x : List K)
      (hx : s1.solveSystem lib = .ok (.ret s2 (some x))) : Returned m n J e d fun j => x.getD j 0
  | dense (lib : List (List K) → List K → List K) (hlib : LeastSquares n lib) (s : Dqr K) (hs : DqrHas s m n J e d) (jrows : Nat) :
      Returned m n J e d fun j => (s.solve lib jrows).2.getD j 0
  | qr (fac : (Nat → Nat → K) → (Nat → K) → Option (Nat → K)) (hfac : FacLS m n fac) (norm : Option (Nat → K)) (tol : K) (htol : 0 < tol)
      (hn : ∀ nc, norm = some nc → ∀ j, j < n → tol ≤ nc j) (hd : ∀ j, j < n → d j = 0) (x : Nat → K) (hx : qrSolve fac J e norm tol = .ok (some x)) : Returned m n J e d x

theorem Returned.min {m n : Nat} {J : Nat → Nat → K} {e d x : Nat → K} (h : Returned m n J e d x) : Min m n J e d x := by
  cases h with
  | block debug lib hlib s s' hs _ hx => exact blk_min hlib hs hx
  | sparse lib hlib hana s s1 s2 hs h1 x hx => exact sps_min hlib hana hs h1 hx
  | dense lib hlib s hs jrows => exact dqr_min hlib hs jrows
  | qr fac hfac norm tol htol hn hd _ hx =>
    refine Min.congr (d := fun _ => 0) (fun _ _ _ _ => rfl) (fun _ _ => rfl) (fun j hj => (hd j hj).symm) fun w => ?_
    exact C46_sparse_qr_partial m n fac hfac J e norm tol htol x hx w fun nc hnc j hj hlt => absurd hlt (not_lt.2 (hn nc hnc j hj))

/-- **C102, interchangeable solvers** (partial: sparse QR only without conditioner and block Cholesky only directly after the system was built, see C46). Any two of the
solvers, with any libraries that meet their contracts, return the same step for the same linear problem and conditioner, provided no direction is left free. -/
theorem C102_same_step_partial (m n : Nat) (J : Nat → Nat → K) (e d : Nat → K) (hf : Full m n J d) (x y : Nat → K) (hx : Returned m n J e d x) (hy : Returned m n J e d y) :
    ∀ j, j < n → x j = y j :=
  min_unique hf hx.min hy.min

/-- With damping in every coordinate no direction is left free, whatever the Jacobian. -/
theorem full_of_damped {m n : Nat} {J : Nat → Nat → K} {d : Nat → K} (hd : ∀ j, j < n → d j ≠ 0) : Full m n J d :=
  fun _ _ h j hj => (mul_eq_zero.1 (h j hj)).resolve_left (hd j hj)

/-! A problem with one variable and conditioner 2, held by three solvers. -/

def sps1 : Sps ℚ := ⟨⟨1, 1, [1], [0], [0, 1], false, false⟩, [1], [0], [2], true, false⟩

theorem sps1_wf : CCM.WF sps1.A := by
  refine ⟨rfl, rfl, ?_, rfl, rfl, ?_, ?_⟩
  · intro j hj
    have : j = 0 := by simp [sps1] at hj; omega
    subst this; decide
  · intro k hk
    have : k = 0 := by simp [sps1, CCM.arrays] at hk; omega
    subst this; decide
  · intro j hj k h1 h2
    have : j = 0 := by simp [sps1] at hj; omega
    subst this
    simp [sps1, CCM.arrays] at h2

theorem sps1_has : SpsHas sps1 1 1 (fun _ _ => 1) (fun _ => 1) fun _ => 2 := by
  refine ⟨⟨sps1_wf, rfl, rfl⟩, rfl, rfl, rfl, ?_, ?_, ?_⟩
  · intro i j hi hj
    have h1 : i = 0 := by omega
    have h2 : j = 0 := by omega
    subst h1; subst h2; decide +kernel
  · intro i hi
    have h1 : i = 0 := by omega
    subst h1; rfl
  · intro i hi
    have h1 : i = 0 := by omega
    subst h1; rfl

theorem single_has : BlkHas (single 1 2) 1 1 (fun _ _ => 1) (fun _ => 1) fun _ => 2 := ⟨single_ok 1 2, rfl, single_holds 2, fun _ _ => rfl⟩

theorem dqr1_has : DqrHas (⟨[[1]], [1], [2], true⟩ : Dqr ℚ) 1 1 (fun _ _ => 1) (fun _ => 1) fun _ => 2 := by
  refine ⟨rfl, rfl, by simp, rfl, ?_, ?_, ?_⟩
  · intro i j hi hj
    have h1 : i = 0 := by omega
    have h2 : j = 0 := by omega
    subst h1; subst h2; rfl
  · intro i hi
    have h1 : i = 0 := by omega
    subst h1; rfl
  · intro i hi
    have h1 : i = 0 := by omega
    subst h1; rfl

/-- Sparse Cholesky and dense QR, with libraries for one variable, return the same step. -/
example (s1 s2 : Sps ℚ) (x : List ℚ) (h1 : sps1.buildRhs = .ok s1) (hx : s1.solveSystem spsLib1 = .ok (.ret s2 (some x))) :=
  C102_same_step_partial 1 1 (fun _ _ => (1 : ℚ)) (fun _ => 1) (fun _ => 2) (full_of_damped fun _ _ => by norm_num) _ _
    (.sparse spsLib1 spsLib1_spec (fun _ => rfl) sps1 s1 s2 sps1_has h1 x hx) (.dense ls1 ls1_spec _ dqr1_has 1)

/-- The block solver returns a step for this problem, and dense QR the same. -/
example : ∃ s' x, (single 1 2).solve false lib1 = .ok (s', some x) ∧ x 0 = (Dqr.solve ls1 1 ⟨[[1]], [1], [2], true⟩).2.getD 0 0 := by
  obtain ⟨s1, s2, x, y, h1, -⟩ := C46_block_second_solve_counterexample
  exact ⟨s1, x, h1, C102_same_step_partial 1 1 (fun _ _ => (1 : ℚ)) (fun _ => 1) (fun _ => 2) (full_of_damped fun _ _ => by norm_num) _ _
    (.block false lib1 lib1_solves (single 1 2) s1 single_has x h1) (.dense ls1 ls1_spec _ dqr1_has 1) 0 (by omega)⟩

/-- A least-squares library for `J = (1 1)`, `e = 1` that returns `(1 - t, t)`. -/
def facFree (t : ℚ) (J : Nat → Nat → ℚ) (e : Nat → ℚ) : Option (Nat → ℚ) :=
  if J 0 0 = 1 ∧ J 0 1 = 1 ∧ e 0 = 1 then some fun j => if j = 0 then 1 - t else t else none

theorem facFree_spec (t : ℚ) : FacLS 1 2 (facFree t) := by
  intro J e x hx y
  unfold facFree at hx
  split_ifs at hx with h
  cases hx
  have : cost 1 2 J e (fun _ => 0) (fun j => if j = 0 then 1 - t else t) = 0 := by
    simp [cost, Finset.sum_range_succ, h.1, h.2.1, h.2.2]
  rw [this]
  exact cost_nonneg ..

/-- **C102 needs the condition.** If a direction is left free, two libraries that both meet the contract of sparse QR return different steps: with `J = (1 1)` and `e = 1` the
steps (1, 0) and (0, 1) both leave no residual. -/
theorem C102_free_direction_counterexample : ∃ x y : Nat → ℚ, Returned 1 2 (fun _ _ => 1) (fun _ => 1) (fun _ => 0) x ∧ Returned 1 2 (fun _ _ => 1) (fun _ => 1) (fun _ => 0) y ∧ x 0 ≠ y 0 := by
  refine ⟨_, _, .qr (facFree 0) (facFree_spec 0) none 1 one_pos (by simp) (fun _ _ => rfl) (fun j => if j = 0 then 1 - 0 else 0) ?_,
    .qr (facFree 1) (facFree_spec 1) none 1 one_pos (by simp) (fun _ _ => rfl) (fun j => if j = 0 then 1 - 1 else 1) ?_, by norm_num⟩ <;>
    simp [qrSolve, facFree]

/-! ### Order -/

theorem min_normal {m n : Nat} {J : Nat → Nat → K} {e d x : Nat → K} (h : Min m n J e d x) : Normal m n J e d x := by
  intro k hk
  let r : Nat → K := fun i => ∑ j ∈ Finset.range n, J i j * x j - e i
  let g := ∑ i ∈ Finset.range m, r i * J i k + d k * d k * x k
  let q := ∑ i ∈ Finset.range m, J i k ^ 2 + d k ^ 2
  have hq : 0 ≤ q := add_nonneg (Finset.sum_nonneg fun _ _ => sq_nonneg _) (sq_nonneg _)
  have key : ∀ t : K, 0 ≤ 2 * t * g + t ^ 2 * q := by
    intro t
    have h1 := h fun j => x j + if j = k then t else 0
    have e1 : ∀ i, ∑ j ∈ Finset.range n, J i j * (x j + if j = k then t else 0) - e i = r i + t * J i k := by
      intro i
      have : ∑ j ∈ Finset.range n, J i j * (x j + if j = k then t else 0) = ∑ j ∈ Finset.range n, J i j * x j + ∑ j ∈ Finset.range n, if j = k then t * J i k else 0 := by
        rw [← Finset.sum_add_distrib]
        refine Finset.sum_congr rfl fun j _ => ?_
        split_ifs with hjk
        · subst hjk; ring
        · ring
      rw [this, Finset.sum_ite_eq', if_pos (Finset.mem_range.2 hk)]
      ring
    have e2 : ∑ j ∈ Finset.range n, (d j * (x j + if j = k then t else 0)) ^ 2 = ∑ j ∈ Finset.range n, (d j * x j) ^ 2 + (2 * t * (d k * d k * x k) + t ^ 2 * d k ^ 2) := by
      have : ∀ j ∈ Finset.range n, (d j * (x j + if j = k then t else 0)) ^ 2 = (d j * x j) ^ 2 + if j = k then 2 * t * (d k * d k * x k) + t ^ 2 * d k ^ 2 else 0 := by
        intro j _
        split_ifs with hjk
        · subst hjk; ring
        · ring
      rw [Finset.sum_congr rfl this, Finset.sum_add_distrib, Finset.sum_ite_eq', if_pos (Finset.mem_range.2 hk)]
    have e3 : ∑ i ∈ Finset.range m, (r i + t * J i k) ^ 2 = ∑ i ∈ Finset.range m, r i ^ 2 + (2 * t * ∑ i ∈ Finset.range m, r i * J i k + t ^ 2 * ∑ i ∈ Finset.range m, J i k ^ 2) := by
      rw [Finset.mul_sum, Finset.mul_sum, ← Finset.sum_add_distrib, ← Finset.sum_add_distrib]
      exact Finset.sum_congr rfl fun i _ => by ring
    unfold cost at h1
    simp only [e1] at h1
    rw [e2, e3] at h1
    show 0 ≤ 2 * t * (∑ i ∈ Finset.range m, r i * J i k + d k * d k * x k) + t ^ 2 * (∑ i ∈ Finset.range m, J i k ^ 2 + d k ^ 2)
    linarith
  have hg : g = 0 := by
    by_contra hne
    have h1 := key (-g / (q + 1))
    have hp : 0 < q + 1 := by linarith
    have h2 : 2 * (-g / (q + 1)) * g + (-g / (q + 1)) ^ 2 * q = -(g ^ 2 * (q + 2) / (q + 1) ^ 2) := by field_simp; ring
    rw [h2] at h1
    have h3 : 0 < g ^ 2 * (q + 2) / (q + 1) ^ 2 := by positivity
    linarith
  have h5 : ∑ i ∈ Finset.range m, r i * J i k = ∑ j ∈ Finset.range n, (∑ i ∈ Finset.range m, J i k * J i j) * x j - ∑ i ∈ Finset.range m, J i k * e i := by
    rw [gram, ← Finset.sum_sub_distrib]
    exact Finset.sum_congr rfl fun i _ => by simp only [r]; ring
  have h6 : ∑ i ∈ Finset.range m, r i * J i k + d k * d k * x k = 0 := hg
  rw [h5] at h6
  linear_combination h6

/-- `x` solves the equations `(JᵀJ + diag(w)) x = Jᵀe`. -/
def Eqs (m n : Nat) (J : Nat → Nat → K) (e w x : Nat → K) : Prop :=
  ∀ k, k < n → ∑ j ∈ Finset.range n, (∑ i ∈ Finset.range m, J i k * J i j) * x j + w k * x k = ∑ i ∈ Finset.range m, J i k * e i

/-- These equations have at most one solution. -/
def Regular (m n : Nat) (J : Nat → Nat → K) (w : Nat → K) : Prop := ∀ z, Eqs m n J (fun _ => 0) w z → ∀ j, j < n → z j = 0

/-- A step returned by one of the four solvers in any state: `w` is what the solver adds to the diagonal, the squared conditioner (nothing for sparse QR) plus, for block
Cholesky, the drift `t` that earlier solves have left (C45). -/
inductive Answer (m n : Nat) (J : Nat → Nat → K) (e : Nat → K) : (Nat → K) → (Nat → K) → Prop
  | block (debug : Bool) (lib : SBM K → (Nat → K) → Option (Nat → K)) (hlib : SolvesUpper lib) (s s' : Blk K) (hs : BlkOk s) (hn : s.H.rl.total = n) (t : Nat → K)
      (ht : Holds s m J e t) (hu : s.useCond = true) (x : Nat → K) (hx : s.solve debug lib = .ok (s', some x)) : Answer m n J e (fun j => t j + s.cond j * s.cond j) x
  | other (d x : Nat → K) (h : Returned m n J e d x) : Answer m n J e (fun j => d j * d j) x

theorem Answer.eqs {m n : Nat} {J : Nat → Nat → K} {e w x : Nat → K} (h : Answer m n J e w x) : Eqs m n J e w x := by
  cases h with
  | block debug lib hlib s s' hs hn t ht hu x hx =>
    subst hn
    exact fun k hk => block_normal debug lib hlib s hs hu m J e t ht s' x hx k hk
  | other d x h => exact min_normal h.min

theorem eqs_unique {m n : Nat} {J : Nat → Nat → K} {e w x y : Nat → K} (hf : Regular m n J w) (hx : Eqs m n J e w x) (hy : Eqs m n J e w y) : ∀ j, j < n → x j = y j := by
  intro j hj
  refine sub_eq_zero.1 (hf (fun j => x j - y j) ?_ j hj)
  intro k hk
  have h1 := hx k hk
  have h2 := hy k hk
  have h3 : ∑ j ∈ Finset.range n, (∑ i ∈ Finset.range m, J i k * J i j) * (x j - y j) =
      ∑ j ∈ Finset.range n, (∑ i ∈ Finset.range m, J i k * J i j) * x j - ∑ j ∈ Finset.range n, (∑ i ∈ Finset.range m, J i k * J i j) * y j := by
    rw [← Finset.sum_sub_distrib]
    exact Finset.sum_congr rfl fun j _ => by ring
  rw [h3]
  simp only [mul_zero, Finset.sum_const_zero]
  linear_combination h1 - h2

/-- **C103, order.** If the error terms of a problem are renumbered by `σ` and the coordinates of the design variables by `τ`, each coordinate receives the same step as before,
whichever solvers are used for the two orders and whatever they solved before. -/
theorem C103_order (m n : Nat) (J J' : Nat → Nat → K) (e e' w w' : Nat → K) (σ τ : Equiv.Perm ℕ) (hσ : ∀ i, i < m ↔ σ i < m) (hτ : ∀ j, j < n ↔ τ j < n)
    (hJ : ∀ i j, i < m → j < n → J' i j = J (σ i) (τ j)) (he : ∀ i, i < m → e' i = e (σ i)) (hw : ∀ j, j < n → w' j = w (τ j)) (hf : Regular m n J w)
    (x x' : Nat → K) (hx : Answer m n J e w x) (hx' : Answer m n J' e' w' x') : ∀ j, j < n → x' j = x (τ j) := by
  have h1 : Eqs m n J e w fun j => x' (τ.symm j) := by
    intro k hk
    obtain ⟨k, rfl⟩ := τ.surjective k
    have hk := (hτ k).2 hk
    have h2 := hx'.eqs k hk
    have inner : ∀ j, j < n → ∑ i ∈ Finset.range m, J' i k * J' i j = ∑ i ∈ Finset.range m, J i (τ k) * J i (τ j) := fun j hj =>
      Finset.sum_equiv σ (fun i => by simpa using hσ i) fun i hi => by
        rw [hJ i k (Finset.mem_range.1 hi) hk, hJ i j (Finset.mem_range.1 hi) hj]
    have outer : ∑ j ∈ Finset.range n, (∑ i ∈ Finset.range m, J' i k * J' i j) * x' j = ∑ j ∈ Finset.range n, (∑ i ∈ Finset.range m, J i (τ k) * J i j) * x' (τ.symm j) :=
      Finset.sum_equiv τ (fun j => by simpa using hτ j) fun j hj => by
        rw [inner j (Finset.mem_range.1 hj), Equiv.symm_apply_apply]
    have right : ∑ i ∈ Finset.range m, J' i k * e' i = ∑ i ∈ Finset.range m, J i (τ k) * e i :=
      Finset.sum_equiv σ (fun i => by simpa using hσ i) fun i hi => by
        rw [hJ i k (Finset.mem_range.1 hi) hk, he i (Finset.mem_range.1 hi)]
    rw [outer, right, hw k hk] at h2
    simpa using h2
  intro j hj
  have := eqs_unique hf h1 hx.eqs (τ j) ((hτ j).1 hj)
  simpa using this

/-- A library for two variables with a diagonal Jacobian. -/
def facDiag (J : Nat → Nat → ℚ) (e : Nat → ℚ) : Option (Nat → ℚ) :=
  if J 0 1 = 0 ∧ J 1 0 = 0 ∧ J 0 0 ≠ 0 ∧ J 1 1 ≠ 0 then some fun j => e j / J j j else none

theorem facDiag_spec : FacLS 2 2 facDiag := by
  intro J e x hx y
  unfold facDiag at hx
  split_ifs at hx with h
  cases hx
  have : cost 2 2 J e (fun _ => 0) (fun j => e j / J j j) = 0 := by
    simp [cost, Finset.sum_range_succ, h.1, h.2.1, mul_div_cancel₀ _ h.2.2.1, mul_div_cancel₀ _ h.2.2.2]
  rw [this]
  exact cost_nonneg ..

/-- Two variables and two error terms, exchanged. -/
example : ∀ j, j < 2 → (fun j => (if j = 0 then (2 : ℚ) else 3) / if j = 0 then 2 else 1) j = (fun j => (if j = 0 then 3 else 2) / if j = 0 then 1 else 2) (Equiv.swap 0 1 j) := by
  refine C103_order 2 2 (fun i j => if i = j then (if j = 0 then 1 else 2) else 0) (fun i j => if i = j then (if j = 0 then 2 else 1) else 0)
    (fun i => if i = 0 then 3 else 2) (fun i => if i = 0 then 2 else 3) (fun _ => 0 * 0) (fun _ => 0 * 0) (Equiv.swap 0 1) (Equiv.swap 0 1) ?_ ?_ ?_ ?_ (fun _ _ => rfl) ?_ _ _
    (.other (fun _ => 0) _ (.qr facDiag facDiag_spec none 1 one_pos (by simp) (fun _ _ => rfl) (fun j => (if j = 0 then 3 else 2) / if j = 0 then 1 else 2) (by simp [qrSolve, facDiag])))
    (.other (fun _ => 0) _ (.qr facDiag facDiag_spec none 1 one_pos (by simp) (fun _ _ => rfl) (fun j => (if j = 0 then 2 else 3) / if j = 0 then 2 else 1) (by simp [qrSolve, facDiag])))
  · intro i; by_cases h0 : i = 0
    · subst h0; simp
    · by_cases h1 : i = 1
      · subst h1; simp
      · rw [Equiv.swap_apply_of_ne_of_ne h0 h1]
  · intro i; by_cases h0 : i = 0
    · subst h0; simp
    · by_cases h1 : i = 1
      · subst h1; simp
      · rw [Equiv.swap_apply_of_ne_of_ne h0 h1]
  · intro i j hi hj
    interval_cases i <;> interval_cases j <;> simp
  · intro i hi
    interval_cases i <;> simp
  · intro z hz j hj
    have h0 := hz 0 (by omega)
    have h1 := hz 1 (by omega)
    simp [Finset.sum_range_succ] at h0 h1
    interval_cases j
    · exact h0
    · exact h1

end Verif.Solver
