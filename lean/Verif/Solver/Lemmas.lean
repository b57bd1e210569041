import Verif.Solver.Model
import Verif.SBM.Props
import Verif.CCM.Props
import Mathlib.Algebra.Order.Field.Basic
import Mathlib.Algebra.Order.BigOperators.Ring.Finset
import Mathlib.Tactic.Linarith
import Mathlib.Tactic.LinearCombination

/-! Lemmas about the loops over diagonal blocks and about least squares. -/
namespace Verif.Solver
open Verif.MatrixStack (DMat)
open Verif.SBM

section blocks
variable {R : Type} [CommRing R]

/-- A square legal block matrix that owns its blocks. -/
structure Square (H : SBM R) : Prop where
  wf : WF H
  sq : H.cl = H.rl
  own : H.hasStorage = true

theorem at_zero (H : SBM R) (r c a b : Nat) : ((H.block r c).getD (H.zeroBlock r c)).e a b = H.at r c a b := by
  unfold SBM.at
  cases H.block r c <;> rfl

theorem getD_shape {H : SBM R} (h : WF H) {r c : Nat} (hc : c < H.cl.n) :
    ((H.block r c).getD (H.zeroBlock r c)).rows = H.rl.size r ∧ ((H.block r c).getD (H.zeroBlock r c)).cols = H.cl.size c := by
  cases hb : H.block r c with
  | none => exact ⟨rfl, rfl⟩
  | some B =>
    have := h.shape c hc (r, B) ((block_eq_some h hc).1 hb)
    exact ⟨this.2.1, this.2.2⟩

theorem diagPass_spec (debug : Bool) (v : Nat → R) (H : SBM R) (h : Square H) (i : Nat) (hi : i < H.rl.n) (len : Nat) (hlen : len = H.rl.total) :
    ∃ H', diagPass debug v len (H, H.rl.base i) i = .ok (H', H.rl.base (i + 1)) ∧ Square H' ∧ H'.rl = H.rl ∧
      ∀ r c a b, H'.at r c a b = if r = i ∧ c = i ∧ a = b then H.at r c a b + v (H.rl.base i + a) else H.at r c a b := by
  have hic : i < H.cl.n := by rw [h.sq]; exact hi
  obtain ⟨s1, s2⟩ := getD_shape h.wf (r := i) hic
  obtain ⟨H', e, w, hr, hc, hst, hb⟩ := upd_spec h.wf debug hi hic h.own (addDiag v (H.rl.base i)) (by
    intro B h1 h2
    exact ⟨h1, h2⟩)
  have hb1 := Layout.base_add_size h.wf.rmono hi
  have hle := Layout.base_add_size_le_total h.wf.rmono hi
  refine ⟨H', ?_, ⟨w, by rw [hc, hr, h.sq], hst⟩, hr, ?_⟩
  · unfold diagPass
    simp only
    rw [if_neg (by rw [s1, s2, h.sq]; simp), if_neg (by rw [s1]; omega), e, Res.bind_ok, s1, hb1]
  · intro r c a b
    have hx := hb r c
    by_cases hrc : r = i ∧ c = i
    · obtain ⟨h1, h2⟩ := hrc
      subst h1; subst h2
      rw [if_pos ⟨rfl, rfl⟩] at hx
      have : H'.at c c a b = (addDiag v (H.rl.base c) ((H.block c c).getD (H.zeroBlock c c))).e a b := by
        unfold SBM.at; rw [hx]
      rw [this]
      unfold addDiag
      simp only [at_zero]
      by_cases hab : a = b
      · simp [hab]
      · simp [hab]
    · rw [if_neg hrc] at hx
      have : H'.at r c a b = H.at r c a b := by unfold SBM.at; rw [hx]
      rw [this, if_neg (fun h => hrc ⟨h.1, h.2.1⟩)]

theorem augment_spec (debug : Bool) (v : Nat → R) (H : SBM R) (h : Square H) (len : Nat) (hlen : len = H.rl.total) :
    ∃ H', augment debug v len H = .ok H' ∧ Square H' ∧ H'.rl = H.rl ∧
      ∀ r c a b, r < H.rl.n → H'.at r c a b = H.at r c a b + if r = c ∧ a = b then v (H.rl.base r + a) else 0 := by
  have key : ∀ k, k ≤ H.rl.n → ∃ H', Res.run (diagPass debug v len) (H, 0) (List.range k) = .ok (H', H.rl.base k) ∧ Square H' ∧ H'.rl = H.rl ∧
      ∀ r c a b, H'.at r c a b = H.at r c a b + if r < k ∧ r = c ∧ a = b then v (H.rl.base r + a) else 0 := by
    intro k
    induction k with
    | zero => intro _; exact ⟨H, rfl, h, rfl, by simp⟩
    | succ k ih =>
      intro hk
      obtain ⟨H1, e1, q1, r1, a1⟩ := ih (by omega)
      obtain ⟨H2, e2, q2, r2, a2⟩ := diagPass_spec debug v H1 q1 k (by rw [r1]; omega) len (by rw [r1]; exact hlen)
      rw [r1] at e2 a2
      refine ⟨H2, ?_, q2, r2.trans r1, ?_⟩
      · rw [List.range_succ, CCM.run_append, e1]
        show Res.run (diagPass debug v len) (H1, H.rl.base k) [k] = _
        simp only [Res.run_cons, Res.run_nil, e2, Res.bind_ok]
      · intro r c a b
        rw [a2, a1]
        by_cases hab : a = b <;> by_cases hrc : r = c
        · subst hab hrc
          by_cases h1 : r = k
          · subst h1; simp
          · by_cases h2 : r < k
            · simp [h1, h2, Nat.lt_succ_of_lt h2]
            · have : ¬ r < k + 1 := by omega
              simp [h1, h2, this]
        · have : ¬ (r = k ∧ c = k) := fun h => hrc (h.1.trans h.2.symm)
          simp only [hrc, false_and, and_false, if_false, add_zero]
          rw [if_neg]; rintro ⟨h1, h2, -⟩; exact this ⟨h1, h2⟩
        · simp [hab]
        · simp [hab]
  obtain ⟨H', e, q, r1, a1⟩ := key H.rl.n le_rfl
  refine ⟨H', ?_, q, r1, ?_⟩
  · unfold augment
    rw [e, Res.bind_ok]
  · intro r c a b hr
    rw [a1]
    simp [hr]

theorem augment_dense (debug : Bool) (v : Nat → R) (H : SBM R) (h : Square H) (len : Nat) (hlen : len = H.rl.total) :
    ∃ H', augment debug v len H = .ok H' ∧ Square H' ∧ H'.rl = H.rl ∧
      ∀ i j, i < H.rl.total → j < H.rl.total → H'.toDense.e i j = H.toDense.e i j + if i = j then v i else 0 := by
  obtain ⟨H', e, q, r1, a1⟩ := augment_spec debug v H h len hlen
  refine ⟨H', e, q, r1, ?_⟩
  intro i j hi hj
  obtain ⟨r, hr, a, ha, rfl⟩ := Layout.locate h.wf.rmono hi
  obtain ⟨c, hc, b, hb, rfl⟩ := Layout.locate h.wf.rmono hj
  have t1 := toDense_at q.wf (r := r) (c := c) (a := a) (b := b) (by rw [r1]; exact hr) (by rw [q.sq, r1]; exact hc) (by rw [r1]; exact ha) (by rw [q.sq, r1]; exact hb)
  have t2 := toDense_at h.wf (r := r) (c := c) (a := a) (b := b) hr (by rw [h.sq]; exact hc) ha (by rw [h.sq]; exact hb)
  rw [q.sq, r1] at t1
  rw [h.sq] at t2
  rw [t1, t2, a1 r c a b hr]
  congr 1
  by_cases hrc : r = c ∧ a = b
  · obtain ⟨rfl, rfl⟩ := hrc
    simp
  · rw [if_neg hrc, if_neg]
    intro heq
    have e2 := Layout.unique h.wf.rmono hr hc (i := H.rl.base r + a) (by omega) (by omega) (by omega) (by omega)
    subst e2
    exact hrc ⟨rfl, by omega⟩

end blocks

section lsq
variable {K : Type} [Field K] [LinearOrder K] [IsStrictOrderedRing K]

/-- The cost of a step: squared residual of the linear system plus the damping. -/
def cost (m n : Nat) (J : Nat → Nat → K) (e d x : Nat → K) : K :=
  ∑ i ∈ Finset.range m, (∑ j ∈ Finset.range n, J i j * x j - e i) ^ 2 + ∑ j ∈ Finset.range n, (d j * x j) ^ 2

/-- `x` solves the damped normal equations. -/
def Normal (m n : Nat) (J : Nat → Nat → K) (e d x : Nat → K) : Prop :=
  ∀ k, k < n → ∑ j ∈ Finset.range n, (∑ i ∈ Finset.range m, J i k * J i j) * x j + d k * d k * x k = ∑ i ∈ Finset.range m, J i k * e i

theorem adjoint (m n : Nat) (J : Nat → Nat → K) (w z : Nat → K) :
    ∑ k ∈ Finset.range n, (∑ i ∈ Finset.range m, J i k * w i) * z k = ∑ i ∈ Finset.range m, w i * ∑ k ∈ Finset.range n, J i k * z k := by
  simp only [Finset.sum_mul, Finset.mul_sum]
  rw [Finset.sum_comm]
  exact Finset.sum_congr rfl fun i _ => Finset.sum_congr rfl fun k _ => by ring

theorem gram (m n : Nat) (J : Nat → Nat → K) (x : Nat → K) (k : Nat) :
    ∑ j ∈ Finset.range n, (∑ i ∈ Finset.range m, J i k * J i j) * x j = ∑ i ∈ Finset.range m, J i k * ∑ j ∈ Finset.range n, J i j * x j := by
  simp only [Finset.sum_mul, Finset.mul_sum]
  rw [Finset.sum_comm]
  exact Finset.sum_congr rfl fun i _ => Finset.sum_congr rfl fun k _ => by ring

theorem cost_expand (m n : Nat) (J : Nat → Nat → K) (e d x y : Nat → K) (h : Normal m n J e d x) :
    cost m n J e d y = cost m n J e d x + cost m n J (fun _ => 0) d (fun j => y j - x j) := by
  have h1 : ∑ k ∈ Finset.range n, (∑ i ∈ Finset.range m, J i k * (∑ j ∈ Finset.range n, J i j * x j - e i)) * (y k - x k) +
      ∑ k ∈ Finset.range n, d k * d k * x k * (y k - x k) = 0 := by
    rw [← Finset.sum_add_distrib]
    apply Finset.sum_eq_zero
    intro k hk
    have := h k (Finset.mem_range.1 hk)
    rw [gram] at this
    simp only [mul_sub, Finset.sum_sub_distrib]
    linear_combination (y k - x k) * this
  rw [adjoint] at h1
  unfold cost
  have h2 : ∀ i, ∑ j ∈ Finset.range n, J i j * y j = ∑ j ∈ Finset.range n, J i j * x j + ∑ j ∈ Finset.range n, J i j * (y j - x j) := by
    intro i
    rw [← Finset.sum_add_distrib]
    exact Finset.sum_congr rfl fun j _ => by ring
  have h3 : ∑ i ∈ Finset.range m, (∑ j ∈ Finset.range n, J i j * y j - e i) ^ 2 =
      ∑ i ∈ Finset.range m, (∑ j ∈ Finset.range n, J i j * x j - e i) ^ 2 +
      2 * ∑ i ∈ Finset.range m, (∑ j ∈ Finset.range n, J i j * x j - e i) * ∑ k ∈ Finset.range n, J i k * (y k - x k) +
      ∑ i ∈ Finset.range m, (∑ j ∈ Finset.range n, J i j * (y j - x j) - 0) ^ 2 := by
    rw [Finset.mul_sum, ← Finset.sum_add_distrib, ← Finset.sum_add_distrib]
    exact Finset.sum_congr rfl fun i _ => by rw [h2 i]; ring
  have h4 : ∑ j ∈ Finset.range n, (d j * y j) ^ 2 = ∑ j ∈ Finset.range n, (d j * x j) ^ 2 +
      2 * ∑ k ∈ Finset.range n, d k * d k * x k * (y k - x k) + ∑ j ∈ Finset.range n, (d j * (y j - x j)) ^ 2 := by
    rw [Finset.mul_sum, ← Finset.sum_add_distrib, ← Finset.sum_add_distrib]
    exact Finset.sum_congr rfl fun i _ => by ring
  rw [h3, h4]
  linear_combination 2 * h1

theorem cost_nonneg (m n : Nat) (J : Nat → Nat → K) (e d x : Nat → K) : 0 ≤ cost m n J e d x :=
  add_nonneg (Finset.sum_nonneg fun _ _ => sq_nonneg _) (Finset.sum_nonneg fun _ _ => sq_nonneg _)

/-- A solution of the damped normal equations minimises the damped cost. -/
theorem normal_min (m n : Nat) (J : Nat → Nat → K) (e d x : Nat → K) (h : Normal m n J e d x) (y : Nat → K) : cost m n J e d x ≤ cost m n J e d y := by
  rw [cost_expand m n J e d x y h]
  linarith [cost_nonneg m n J (fun _ => 0) d (fun j => y j - x j)]

/-- If every variable is damped the minimiser is unique. -/
theorem normal_unique (m n : Nat) (J : Nat → Nat → K) (e d x y : Nat → K) (h : Normal m n J e d x) (hd : ∀ j, j < n → d j ≠ 0)
    (hy : cost m n J e d y ≤ cost m n J e d x) (j : Nat) (hj : j < n) : y j = x j := by
  rw [cost_expand m n J e d x y h] at hy
  have h0 : cost m n J (fun _ => 0) d (fun j => y j - x j) ≤ 0 := by linarith
  have h1 : ∑ j ∈ Finset.range n, (d j * (y j - x j)) ^ 2 ≤ 0 := by
    have : 0 ≤ ∑ i ∈ Finset.range m, (∑ j ∈ Finset.range n, J i j * (y j - x j) - 0) ^ 2 := Finset.sum_nonneg fun _ _ => sq_nonneg _
    unfold cost at h0
    linarith
  have h2 := (Finset.sum_eq_zero_iff_of_nonneg (fun _ _ => sq_nonneg _)).1 (le_antisymm h1 (Finset.sum_nonneg fun _ _ => sq_nonneg _)) j (Finset.mem_range.2 hj)
  have h3 : d j * (y j - x j) = 0 := by simpa using h2
  rcases mul_eq_zero.1 h3 with h4 | h4
  · exact absurd h4 (hd j hj)
  · linarith [h4]

end lsq
end Verif.Solver
