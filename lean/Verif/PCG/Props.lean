import Verif.PCG.Solve
import Mathlib.Tactic.IntervalCases
import Mathlib.Tactic.NormNum
import Mathlib.Tactic.FinCases

/-!
Property theorems C82 and C83 for the conjugate gradient solver.
-/
namespace Verif.PCG
open Verif.MatrixStack (DMat)
open Verif.SBM (SBM Layout WF)

set_option linter.unusedSectionVars false

variable {K : Type} [Field K] [LinearOrder K] [IsStrictOrderedRing K]

/-! ### C82: what a solve returns -/

theorem size_seq {inv : DMat K → DMat K} {A : SBM K} {S : Nat → Nat → K} (h : Describes A S)
    (hi : InvOk inv A) (hp : PosDef A.cl.total S) (b v : Nat → K) (m : Nat)
    (hv : res A.cl.total v = (Abs.seq (sys h hi hp) (res _ b) m).r) :
    Size A.cl S v (Abs.seq (sys h hi hp) (res _ b) m).dn := by
  refine ⟨apply A.cl.total (pinv inv A) v, fun i hlt => blockDiag_pinv h hi v hlt, ?_⟩
  rw [Abs.seq_dn, ← hv]
  show bil _ _ (op _ _ _) = _
  rw [op_res, bil_res]
  rfl

theorem resid_seq {inv : DMat K → DMat K} {A : SBM K} {S : Nat → Nat → K} (h : Describes A S)
    (hi : InvOk inv A) (hp : PosDef A.cl.total S) (b x : Nat → K) (m : Nat)
    (hx : res A.cl.total x = (Abs.seq (sys h hi hp) (res _ b) m).x) :
    res A.cl.total (resid A.cl.total S b x) = (Abs.seq (sys h hi hp) (res _ b) m).r := by
  rw [Abs.residual, ← hx]
  show _ = _ - op _ _ _
  rw [op_res]
  rfl

theorem dn_le_threshold {inv : DMat K → DMat K} {A : SBM K} {S : Nat → Nat → K} (h : Describes A S)
    (hi : InvOk inv A) (hp : PosDef A.cl.total S) {s : St K} (ht : 0 ≤ s.tol) (b : Nat → K) (m : Nat)
    (hbud : A.cl.total ≤ budget s A.cl.total) (h1 : m ≤ budget s A.cl.total)
    (h2 : m < budget s A.cl.total → (Abs.seq (sys h hi hp) (res _ b) m).dn ≤
        threshold s (Abs.seq (sys h hi hp) (res _ b) 0).dn)
    (h3 : ∀ i, i < m → threshold s (Abs.seq (sys h hi hp) (res _ b) 0).dn <
        (Abs.seq (sys h hi hp) (res _ b) i).dn) :
    (Abs.seq (sys h hi hp) (res _ b) m).dn ≤ threshold s (Abs.seq (sys h hi hp) (res _ b) 0).dn := by
  have hdn0 : 0 ≤ (Abs.seq (sys h hi hp) (res _ b) 0).dn := by
    by_cases hb : (Abs.seq (sys h hi hp) (res _ b) 0).r = 0
    · rw [Abs.seq_dn, hb]; simp
    · exact (Abs.dn_pos hb).le
  have hth := threshold_nonneg ht hdn0
  rcases Nat.lt_or_eq_of_le h1 with hlt | he
  · exact h2 hlt
  · obtain ⟨k, hk, hr, _⟩ := Abs.terminates (S := sys h hi hp) (res _ b)
    simp only [Module.finrank_fintype_fun_eq_card, Fintype.card_fin] at hk
    have hdnk : (Abs.seq (sys h hi hp) (res _ b) k).dn = 0 := by rw [Abs.seq_dn, hr]; simp
    rcases Nat.lt_or_eq_of_le (show k ≤ m by omega) with hlt | rfl
    · have := h3 k hlt
      rw [hdnk] at this
      exact absurd hth (not_le.2 this)
    · rw [hdnk]; exact hth

/-- **C82** (partial: the promised accuracy; missing: failure is never reported, see the counterexample). For every symmetric positive definite system described by its
block upper triangle, every right-hand side, every tolerance that is not negative and every iteration
limit that is the default or at least the number of unknowns, a solve on a solver that was not used
since it was built or restarted divides by zero nowhere, touches no memory outside its vectors, and
returns an `x` whose residual, measured with the inverse of the block diagonal, is at most the tolerance
times that of the right-hand side. -/
theorem C82_accuracy_partial (debug : Bool) {inv : DMat K → DMat K} {A : SBM K} {S : Nat → Nat → K}
    (h : Describes A S) (hi : InvOk inv A) (hp : PosDef A.cl.total S) {hh : Heap K} {id gen : Nat}
    (hid : hh id = some ⟨gen, A⟩) {s : St K} (hs1 : s.indices = []) (hs2 : s.sparse = [])
    (hr : s.residual ≤ 0) (ht : 0 ≤ s.tol) (hm : s.maxIter < 0 ∨ (A.cl.total : Int) ≤ s.maxIter)
    (b : Nat → K) :
    ∃ s' x e0 e, solve debug inv hh s id b = .ok (some (s', x)) ∧ Size A.cl S b e0 ∧
      Size A.cl S (resid A.cl.total S b x) e ∧ e ≤ s.tol * e0 := by
  obtain ⟨m, x, e, hx, h1, h2, h3⟩ := solve_spec debug h hi hp hid (Or.inl ⟨hs1, hs2⟩) ht b
  have hbud : A.cl.total ≤ budget s A.cl.total := by
    unfold budget
    split
    · exact le_refl _
    · omega
  refine ⟨_, x, _, _, e, size_seq h hi hp b b 0 rfl,
    size_seq h hi hp b _ m (resid_seq h hi hp b x m hx), ?_⟩
  have := dn_le_threshold h hi hp ht b m hbud h1 h2 h3
  unfold threshold at this
  rwa [if_neg (fun hc => absurd hc.2.1 (not_lt.2 hr))] at this

theorem Size_pos {A : SBM K} {S : Nat → Nat → K} (h : Describes A S) (hp : PosDef A.cl.total S)
    {v : Nat → K} {e : K} (hs : Size A.cl S v e) : (∃ i, i < A.cl.total ∧ v i ≠ 0) → 0 < e := by
  rintro ⟨i, hlt, hv⟩
  obtain ⟨z, hz, rfl⟩ := hs
  have hpd := blockDiag_posDef h.wf.cmono hp
  have : ∑ i ∈ Finset.range A.cl.total, v i * z i =
      ∑ i ∈ Finset.range A.cl.total, z i * apply A.cl.total (blockDiag A.cl S) z i := by
    refine Finset.sum_congr rfl fun j hj => ?_
    rw [hz j (by simpa using hj), mul_comm]
  rw [this]
  apply hpd
  by_contra hc
  push Not at hc
  apply hv
  rw [← hz i hlt]
  unfold apply
  apply Finset.sum_eq_zero
  intro j hj
  rw [hc j (by simpa using hj), mul_zero]

/-- **C82** (exactness). With tolerance zero the result solves the system exactly. -/
theorem C82_exact (debug : Bool) {inv : DMat K → DMat K} {A : SBM K} {S : Nat → Nat → K}
    (h : Describes A S) (hi : InvOk inv A) (hp : PosDef A.cl.total S) {hh : Heap K} {id gen : Nat}
    (hid : hh id = some ⟨gen, A⟩) {s : St K} (hs1 : s.indices = []) (hs2 : s.sparse = [])
    (hr : s.residual ≤ 0) (ht : s.tol = 0) (hm : s.maxIter < 0 ∨ (A.cl.total : Int) ≤ s.maxIter)
    (b : Nat → K) :
    ∃ s' x, solve debug inv hh s id b = .ok (some (s', x)) ∧
      ∀ i, i < A.cl.total → ∑ j ∈ Finset.range A.cl.total, S i j * x j = b i := by
  obtain ⟨s', x, e0, e, e1, _, h2, h3⟩ :=
    C82_accuracy_partial debug h hi hp hid hs1 hs2 hr ht.symm.le hm b
  refine ⟨s', x, e1, fun i hlt => ?_⟩
  rw [ht, zero_mul] at h3
  by_contra hne
  refine absurd (Size_pos h hp h2 ⟨i, hlt, ?_⟩) (not_lt.2 h3)
  intro h0
  apply hne
  unfold resid apply at h0
  rw [sub_eq_zero] at h0
  exact h0.symm

theorem dot_seq {inv : DMat K → DMat K} {A : SBM K} {S : Nat → Nat → K} (h : Describes A S)
    (hi : InvOk inv A) (hp : PosDef A.cl.total S) (b x : Nat → K) :
    energy A.cl.total S b x = Abs.energy (sys h hi hp) (res _ b) (res _ x) := by
  unfold energy Abs.energy
  show _ = bil _ _ (op _ _ _) / 2 - bil _ _ _
  rw [op_res, bil_res, bil_res]
  rfl

theorem seq_ne {inv : DMat K → DMat K} {A : SBM K} {S : Nat → Nat → K} (h : Describes A S)
    (hi : InvOk inv A) (hp : PosDef A.cl.total S) {s : St K} (ht : 0 ≤ s.tol) (b : Nat → K) (i : Nat)
    (hlt : threshold s (Abs.seq (sys h hi hp) (res _ b) 0).dn <
        (Abs.seq (sys h hi hp) (res _ b) i).dn) : (Abs.seq (sys h hi hp) (res _ b) i).r ≠ 0 := by
  intro h0
  have hdn0 : 0 ≤ (Abs.seq (sys h hi hp) (res _ b) 0).dn := by
    by_cases hb : (Abs.seq (sys h hi hp) (res _ b) 0).r = 0
    · rw [Abs.seq_dn, hb]; simp
    · exact (Abs.dn_pos hb).le
  rw [Abs.seq_dn _ i, h0] at hlt
  simp only [map_zero] at hlt
  exact absurd (threshold_nonneg ht hdn0) (not_le.2 hlt)

/-- **C82** (usable when cut short). For every iteration limit but zero, a tolerance below one and a
right-hand side that is not zero, the result has a positive scalar product with the right-hand side: a
step computed with `b = -gradient` goes downhill however early the solve was stopped. -/
theorem C82_descent (debug : Bool) {inv : DMat K → DMat K} {A : SBM K} {S : Nat → Nat → K}
    (h : Describes A S) (hi : InvOk inv A) (hp : PosDef A.cl.total S) {hh : Heap K} {id gen : Nat}
    (hid : hh id = some ⟨gen, A⟩) {s : St K} (hs1 : s.indices = []) (hs2 : s.sparse = [])
    (hr : s.residual ≤ 0) (ht : 0 ≤ s.tol) (ht1 : s.tol < 1) (hm : s.maxIter ≠ 0)
    (b : Nat → K) (hb : ∃ i, i < A.cl.total ∧ b i ≠ 0) :
    ∃ s' x, solve debug inv hh s id b = .ok (some (s', x)) ∧
      0 < ∑ i ∈ Finset.range A.cl.total, b i * x i := by
  obtain ⟨m, x, e, hx, h1, h2, h3⟩ := solve_spec debug h hi hp hid (Or.inl ⟨hs1, hs2⟩) ht b
  refine ⟨_, x, e, ?_⟩
  have hb0 : (Abs.seq (sys h hi hp) (res _ b) 0).r ≠ 0 := by
    obtain ⟨i, hlt, hne⟩ := hb
    intro h0
    exact hne (congrFun h0 ⟨i, hlt⟩)
  have hpos := Abs.dn_pos hb0
  have hbud : 0 < budget s A.cl.total := by
    obtain ⟨i, hlt, _⟩ := hb
    unfold budget
    split
    · omega
    · omega
  have hmpos : 0 < m := by
    rcases Nat.eq_zero_or_pos m with rfl | hp'
    · have := h2 hbud
      unfold threshold at this
      rw [if_neg (fun hc => absurd hc.2.1 (not_lt.2 hr))] at this
      nlinarith
    · exact hp'
  have := Abs.descent (S := sys h hi hp) (res _ b) m hmpos fun i hlt => seq_ne h hi hp ht b i (h3 i hlt)
  rw [← hx] at this
  have h4 : (sys h hi hp).B (res _ b) (res _ x) = dot A.cl.total b x := bil_res _ _ _
  rw [h4] at this
  exact this

/-- **C82** (more iterations never hurt). With everything else equal, a larger iteration limit gives a
result whose quadratic cost `½ xᵀ S x - bᵀ x` is not larger; and the cost is never above that of the
zero step. -/
theorem C82_monotone (debug : Bool) {inv : DMat K → DMat K} {A : SBM K} {S : Nat → Nat → K}
    (h : Describes A S) (hi : InvOk inv A) (hp : PosDef A.cl.total S) {hh : Heap K} {id gen : Nat}
    (hid : hh id = some ⟨gen, A⟩) {s : St K} (hs1 : s.indices = []) (hs2 : s.sparse = [])
    (ht : 0 ≤ s.tol) (k k' : Nat) (hk : k ≤ k') (b : Nat → K) :
    ∃ s1 x1 s2 x2, solve debug inv hh { s with maxIter := k } id b = .ok (some (s1, x1)) ∧
      solve debug inv hh { s with maxIter := k' } id b = .ok (some (s2, x2)) ∧
      energy A.cl.total S b x2 ≤ energy A.cl.total S b x1 ∧ energy A.cl.total S b x1 ≤ 0 := by
  obtain ⟨m, x, e, hx, h1, h2, h3⟩ := solve_spec debug h hi hp hid
    (s := { s with maxIter := k }) (Or.inl ⟨hs1, hs2⟩) ht b
  obtain ⟨m', x', e', hx', h1', h2', h3'⟩ := solve_spec debug h hi hp hid
    (s := { s with maxIter := k' }) (Or.inl ⟨hs1, hs2⟩) ht b
  refine ⟨_, x, _, x', e, e', ?_⟩
  rw [dot_seq h hi hp, dot_seq h hi hp, hx, hx']
  have hth : threshold { s with maxIter := (k : Int) } = threshold s := rfl
  have hth' : threshold { s with maxIter := (k' : Int) } = threshold s := rfl
  have hbk : ∀ j : Nat, budget { s with maxIter := (j : Int) } A.cl.total = j := by
    intro j; unfold budget; simp
  rw [hth] at h2 h3
  rw [hth'] at h2' h3'
  rw [hbk] at h1 h1'
  rw [hbk] at h2 h2'
  have hne' : ∀ i, i < m' → (Abs.seq (sys h hi hp) (res _ b) i).r ≠ 0 := fun i hlt =>
    seq_ne h hi hp (s := s) ht b i (h3' i hlt)
  have hne : ∀ i, i < m → (Abs.seq (sys h hi hp) (res _ b) i).r ≠ 0 := fun i hlt =>
    seq_ne h hi hp (s := s) ht b i (h3 i hlt)
  have hmm : m ≤ m' := by
    by_contra hc
    have h4 := h3 m' (by omega)
    exact absurd (h2' (by omega)) (not_le.2 h4)
  have hmono : ∀ j i, i ≤ j → (∀ t, t < j → (Abs.seq (sys h hi hp) (res _ b) t).r ≠ 0) →
      Abs.energy (sys h hi hp) (res _ b) (Abs.seq (sys h hi hp) (res _ b) j).x ≤
      Abs.energy (sys h hi hp) (res _ b) (Abs.seq (sys h hi hp) (res _ b) i).x := by
    intro j
    induction j with
    | zero => intro i hi0 _; rw [Nat.le_zero.1 hi0]
    | succ j ih =>
      intro i hij hall
      rcases Nat.lt_or_eq_of_le hij with hlt | rfl
      · exact (Abs.energy_lt _ j fun t htj => hall t (by omega)).le.trans
          (ih i (by omega) fun t htj => hall t (by omega))
      · exact le_refl _
  refine ⟨hmono m' m hmm hne', ?_⟩
  have := hmono m 0 (Nat.zero_le _) hne
  have h0 : Abs.energy (sys h hi hp) (res _ b) (Abs.seq (sys h hi hp) (res _ b) 0).x = 0 := by
    simp [Abs.seq, Abs.start, Abs.energy]
  rwa [h0] at this

/-! ### concrete systems -/

/-- Two blocks of size one. -/
def L2 : Layout := ⟨2, fun i => i + 1⟩

/-- A block holding one number. -/
def one (a : ℚ) : DMat ℚ := ⟨1, 1, fun _ _ => a⟩

/-- The upper triangle of `[[a, b], [b, c]]`. -/
def mat2 (a b c : ℚ) : SBM ℚ :=
  ⟨L2, L2, true, fun k => if k = 0 then [(0, one a)] else if k = 1 then [(0, one b), (1, one c)] else []⟩

/-- `[[a, b], [b, c]]`. -/
def dense2 (a b c : ℚ) (i j : Nat) : ℚ := if i = 0 then (if j = 0 then a else b) else if j = 0 then b else c

/-- Inverse of a block of size one. -/
def inv1 (B : DMat ℚ) : DMat ℚ := ⟨B.rows, B.cols, fun _ _ => (B.e 0 0)⁻¹⟩

theorem mat2_wf (a b c : ℚ) : WF (mat2 a b c) where
  rmono := by intro r _; show r + 1 ≤ r + 1 + 1; omega
  cmono := by intro r _; show r + 1 ≤ r + 1 + 1; omega
  sorted := by
    intro k hk
    have : k < 2 := hk
    interval_cases k <;> simp [mat2]
  shape := by
    intro k hk p hp
    have : k < 2 := hk
    interval_cases k <;> simp [mat2] at hp
    · subst hp; simp [one, mat2, L2, Layout.size]
    · rcases hp with rfl | rfl <;> simp [one, mat2, L2, Layout.size]

theorem mat2_describes (a b c : ℚ) : Describes (mat2 a b c) (dense2 a b c) where
  wf := mat2_wf a b c
  square := Layout.same_refl _
  diag := by
    intro k hk
    have : k < 2 := hk
    interval_cases k <;> rfl
  upper := by
    intro r k hrk hk p q hp hq
    have hk2 : k < 2 := hk
    have hr2 : r < 2 := by omega
    rw [SBM.toDense_at (mat2_wf a b c) hr2 hk hp hq]
    interval_cases k <;> interval_cases r
    · have : p = 0 := by simpa [mat2, L2, Layout.size] using hp
      have : q = 0 := by simpa [mat2, L2, Layout.size] using hq
      subst_vars; rfl
    · have : p = 0 := by simpa [mat2, L2, Layout.size] using hp
      have : q = 0 := by simpa [mat2, L2, Layout.size] using hq
      subst_vars; rfl
    · have : p = 0 := by simpa [mat2, L2, Layout.size] using hp
      have : q = 0 := by simpa [mat2, L2, Layout.size] using hq
      subst_vars; rfl
  symm := by
    intro i j hi hj
    have hi2 : i < 2 := hi
    have hj2 : j < 2 := hj
    interval_cases i <;> interval_cases j <;> rfl

theorem mat2_total (a b c : ℚ) : (mat2 a b c).cl.total = 2 := rfl

theorem mat2_posDef {a b c : ℚ} (ha : 0 < a) (hd : b * b < a * c) :
    PosDef (mat2 a b c).cl.total (dense2 a b c) := by
  rw [mat2_total]
  rintro v ⟨i, hi, hv⟩
  have e : ∑ i ∈ Finset.range 2, v i * apply 2 (dense2 a b c) v i =
      ((a * v 0 + b * v 1) ^ 2 + (a * c - b * b) * v 1 ^ 2) / a := by
    simp only [Finset.sum_range_succ, Finset.sum_range_zero, apply, dense2]
    field_simp
    simp
    ring
  rw [e]
  apply div_pos _ ha
  by_cases h1 : v 1 = 0
  · have h0 : v 0 ≠ 0 := by
      interval_cases i
      · exact hv
      · exact absurd h1 hv
    rw [h1]
    have := mul_pos ha ha
    have := sq_pos_of_ne_zero h0
    nlinarith [mul_pos ha ha]
  · have := sq_pos_of_ne_zero h1
    nlinarith [sq_nonneg (a * v 0 + b * v 1)]

theorem mat2_inv {a b c : ℚ} (ha : a ≠ 0) (hc : c ≠ 0) : InvOk inv1 (mat2 a b c) := by
  intro k B hk hB
  have : k < 2 := hk
  have hB' : B = one a ∨ B = one c := by
    interval_cases k
    · left; simpa [mat2, SBM.block, eq_comm] using hB
    · right; simpa [mat2, SBM.block, eq_comm] using hB
  refine ⟨rfl, rfl, fun i j hi hj => ?_⟩
  rcases hB' with rfl | rfl
  · have hi' : i < 1 := hi
    have hj' : j < 1 := hj
    interval_cases i; interval_cases j
    simp [one, inv1, ha]
  · have hi' : i < 1 := hi
    have hj' : j < 1 := hj
    interval_cases i; interval_cases j
    simp [one, inv1, hc]

/-- The hypotheses of the C82 theorems are met by a coupled system. -/
example : Describes (mat2 2 1 2) (dense2 2 1 2) ∧ InvOk inv1 (mat2 2 1 2) ∧
    PosDef (mat2 2 1 2).cl.total (dense2 2 1 2) ∧ (new : St ℚ).indices = [] ∧ (new : St ℚ).sparse = [] ∧
    (new : St ℚ).residual ≤ 0 ∧ 0 ≤ (new : St ℚ).tol ∧ (new : St ℚ).tol < 1 ∧
    (new : St ℚ).maxIter < 0 ∧ (∃ i, i < (mat2 2 1 2).cl.total ∧ (fun i => (i : ℚ)) i ≠ 0) :=
  ⟨mat2_describes _ _ _, mat2_inv (by norm_num) (by norm_num), mat2_posDef (by norm_num) (by norm_num),
    rfl, rfl, by norm_num [new], by norm_num [new], by norm_num [new], by decide, 1, by decide, by norm_num⟩

/-- The first two entries of a result. -/
def obs : Res (Option (St ℚ × (Nat → ℚ))) → Option (Option (ℚ × ℚ))
  | .ok (some (_, x)) => some (some (x 0, x 1))
  | .ok none => some none
  | _ => none

/-- A solve that takes two passes. -/
example : obs (solve true inv1 (fun _ => some ⟨0, mat2 2 1 2⟩) new 0 fun i => if i = 0 then 1 else 0) =
    some (some (2 / 3, -1 / 3)) := by decide +kernel

/-- **C82** (counterexample: success without a solution). `solve` always reports success. For a matrix
that is only positive semidefinite it divides by zero and leaves values in `x` that are not finite. -/
theorem C82_semidefinite_counterexample : ∃ (A : SBM ℚ) (b : Nat → ℚ), WF A ∧
    Describes A (dense2 1 1 1) ∧ InvOk inv1 A ∧
    (∀ v : Nat → ℚ, 0 ≤ ∑ i ∈ Finset.range A.cl.total, v i * apply A.cl.total (dense2 1 1 1) v i) ∧
    solve true inv1 (fun _ => some ⟨0, A⟩) new 0 b = .ok none := by
  refine ⟨mat2 1 1 1, fun i => if i = 0 then 1 else -1, mat2_wf _ _ _, mat2_describes _ _ _,
    mat2_inv (by norm_num) (by norm_num), ?_, ?_⟩
  · intro v
    rw [mat2_total]
    have : ∑ i ∈ Finset.range 2, v i * apply 2 (dense2 1 1 1) v i = (v 0 + v 1) ^ 2 := by
      simp [Finset.sum_range_succ, apply, dense2]
      ring
    rw [this]
    positivity
  · have h : obs (solve true inv1 (fun _ => some ⟨0, mat2 1 1 1⟩) new 0
        fun i => if i = 0 then 1 else -1) = some none := by decide +kernel
    generalize solve true inv1 (fun _ => some ⟨0, mat2 1 1 1⟩) new 0
        (fun i => if i = 0 then (1 : ℚ) else -1) = o at h ⊢
    match o, h with
    | .ok none, _ => rfl

end Verif.PCG
