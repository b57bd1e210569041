import Mathlib.LinearAlgebra.SesquilinearForm.Basic
import Mathlib.LinearAlgebra.Dimension.Finite
import Mathlib.LinearAlgebra.FiniteDimensional.Defs
import Mathlib.Algebra.Order.Field.Basic
import Mathlib.Tactic.Ring
import Mathlib.Tactic.FieldSimp
import Mathlib.Tactic.Linarith
import Mathlib.Tactic.Module

/-!
Helper theory: the preconditioned conjugate gradient recurrence in a vector space with a symmetric
bilinear form, a self-adjoint positive definite operator `A` and a self-adjoint positive definite
preconditioner `J`.
-/
namespace Verif.PCG.Abs

variable {K V : Type} [Field K] [LinearOrder K] [IsStrictOrderedRing K] [AddCommGroup V] [Module K V]

/-- The recurrence's variables. -/
structure St (K V : Type) where
  x : V
  r : V
  d : V
  dn : K

/-- The operators and what is assumed of them. -/
structure Sys (K V : Type) [Field K] [LinearOrder K] [AddCommGroup V] [Module K V] where
  B : V →ₗ[K] V →ₗ[K] K
  A : V →ₗ[K] V
  J : V →ₗ[K] V
  symm : ∀ u v, B u v = B v u
  adjA : ∀ u v, B (A u) v = B u (A v)
  adjJ : ∀ u v, B (J u) v = B u (J v)
  posA : ∀ v, v ≠ 0 → 0 < B v (A v)
  posJ : ∀ v, v ≠ 0 → 0 < B v (J v)

variable (S : Sys K V)

/-- One pass of the loop body. -/
def step (s : St K V) : St K V :=
  let q := S.A s.d
  let a := s.dn / S.B s.d q
  let r := s.r - a • q
  let dn := S.B r (S.J r)
  ⟨s.x + a • s.d, r, S.J r + (dn / s.dn) • s.d, dn⟩

/-- The start. -/
def start (b : V) : St K V := ⟨0, b, S.J b, S.B b (S.J b)⟩

/-- The state after `k` passes. -/
def seq (b : V) : Nat → St K V
  | 0 => start S b
  | k + 1 => step S (seq b k)

/-- The step length of pass `k`. -/
def alpha (b : V) (k : Nat) : K := (seq S b k).dn / S.B (seq S b k).d (S.A (seq S b k).d)

variable {S}

section
omit [IsStrictOrderedRing K]

theorem seq_dn (b : V) (k : Nat) : (seq S b k).dn = S.B (seq S b k).r (S.J (seq S b k).r) := by
  cases k <;> rfl

theorem seq_r_succ (b : V) (k : Nat) :
    (seq S b (k + 1)).r = (seq S b k).r - alpha S b k • S.A (seq S b k).d := rfl

theorem seq_x_succ (b : V) (k : Nat) :
    (seq S b (k + 1)).x = (seq S b k).x + alpha S b k • (seq S b k).d := rfl

theorem seq_d_succ (b : V) (k : Nat) : (seq S b (k + 1)).d = S.J (seq S b (k + 1)).r +
    ((seq S b (k + 1)).dn / (seq S b k).dn) • (seq S b k).d := rfl

end

/-- The carried residual is the residual. -/
theorem residual (b : V) (k : Nat) : (seq S b k).r = b - S.A (seq S b k).x := by
  induction k with
  | zero => simp [seq, start]
  | succ k ih => rw [seq_r_succ, seq_x_succ, ih, map_add, map_smul]; abel

theorem dn_pos {b : V} {k : Nat} (h : (seq S b k).r ≠ 0) : 0 < (seq S b k).dn := by
  rw [seq_dn]; exact S.posJ _ h

/-- Orthogonality relations up to pass `k`. -/
structure Inv (S : Sys K V) (b : V) (k : Nat) : Prop where
  rd : ∀ i, i < k → S.B (seq S b k).r (seq S b i).d = 0
  dd : ∀ i, i < k → S.B (seq S b k).d (S.A (seq S b i).d) = 0
  rr : ∀ i, i < k → S.B (seq S b k).r (S.J (seq S b i).r) = 0
  rdk : S.B (seq S b k).r (seq S b k).d = (seq S b k).dn

theorem Inv.d_ne {b : V} {k : Nat} (h : Inv S b k) (hr : (seq S b k).r ≠ 0) : (seq S b k).d ≠ 0 := by
  intro h0
  have := dn_pos hr
  rw [← h.rdk, h0, map_zero] at this
  exact lt_irrefl _ this

theorem Inv.curv {b : V} {k : Nat} (h : Inv S b k) (hr : (seq S b k).r ≠ 0) :
    0 < S.B (seq S b k).d (S.A (seq S b k).d) := S.posA _ (h.d_ne hr)

theorem inv (b : V) (k : Nat) (hne : ∀ i, i < k → (seq S b i).r ≠ 0) : Inv S b k ∧
    ∀ i, i < k → Inv S b i := by
  induction k with
  | zero =>
    refine ⟨⟨by simp, by simp, by simp, rfl⟩, by simp⟩
  | succ k ih =>
    obtain ⟨hk, hall⟩ := ih fun i hi => hne i (by omega)
    have hIi : ∀ i, i ≤ k → Inv S b i := fun i hi => by
      rcases Nat.lt_or_eq_of_le hi with h | rfl
      · exact hall i h
      · exact hk
    refine ⟨?_, fun i hi => hIi i (by omega)⟩
    have hdn := fun i (hi : i ≤ k) => dn_pos (hne i (by omega))
    have hcurv := fun i (hi : i ≤ k) => (hIi i hi).curv (hne i (by omega))
    have hal : ∀ i, i ≤ k → alpha S b i ≠ 0 := fun i hi =>
      (div_pos (hdn i hi) (hcurv i hi)).ne'
    have hAd : ∀ i, i ≤ k → S.A (seq S b i).d =
        (alpha S b i)⁻¹ • ((seq S b i).r - (seq S b (i + 1)).r) := by
      intro i hi
      rw [seq_r_succ, sub_sub_cancel, smul_smul, inv_mul_cancel₀ (hal i hi), one_smul]
    have rd : ∀ i, i < k + 1 → S.B (seq S b (k + 1)).r (seq S b i).d = 0 := by
      intro i hi
      rw [seq_r_succ, map_sub, LinearMap.sub_apply, map_smul, LinearMap.smul_apply, S.adjA]
      rcases Nat.lt_or_eq_of_le (Nat.lt_succ_iff.1 hi) with h | rfl
      · rw [hk.rd i h, hk.dd i h]; simp
      · rw [hk.rdk, alpha, smul_eq_mul, div_mul_cancel₀ _ (hcurv i (le_refl _)).ne', sub_self]
    have rr : ∀ i, i < k + 1 → S.B (seq S b (k + 1)).r (S.J (seq S b i).r) = 0 := by
      intro i hi
      cases i with
      | zero => exact rd 0 (by omega)
      | succ i =>
        have : S.J (seq S b (i + 1)).r = (seq S b (i + 1)).d -
            ((seq S b (i + 1)).dn / (seq S b i).dn) • (seq S b i).d := by
          rw [seq_d_succ]; abel
        rw [this, map_sub, map_smul, rd (i + 1) hi, rd i (by omega)]; simp
    refine ⟨rd, ?_, rr, ?_⟩
    · intro i hi
      rw [seq_d_succ, map_add, LinearMap.add_apply, map_smul, LinearMap.smul_apply, S.adjJ]
      rcases Nat.lt_or_eq_of_le (Nat.lt_succ_iff.1 hi) with h | rfl
      · rw [hk.dd i h, hAd i (by omega), map_smul, map_smul, map_sub, map_sub, rr i (by omega),
          rr (i + 1) (by omega)]; simp
      · have h1 := hcurv i (le_refl _)
        have h2 := hdn i (le_refl _)
        have h3 : S.B (seq S b (i + 1)).r (S.J (S.A (seq S b i).d)) =
            - ((alpha S b i)⁻¹ * (seq S b (i + 1)).dn) := by
          rw [hAd i (le_refl _), map_smul, map_smul, map_sub, map_sub, rr i (by omega), seq_dn]
          simp
        rw [h3, alpha, smul_eq_mul]
        field_simp
        ring
    · rw [seq_d_succ, map_add, map_smul, rd k (by omega), smul_zero, add_zero, ← seq_dn]

/-- The recurrence reaches the solution within as many passes as the space has dimensions. -/
theorem terminates [Module.Finite K V] (b : V) : ∃ k, k ≤ Module.finrank K V ∧ (seq S b k).r = 0 ∧
    ∀ i, i < k → (seq S b i).r ≠ 0 := by
  by_cases hex : ∃ k, k ≤ Module.finrank K V ∧ (seq S b k).r = 0
  · classical
    refine ⟨Nat.find hex, (Nat.find_spec hex).1, (Nat.find_spec hex).2, fun i hi h0 => ?_⟩
    exact Nat.find_min hex hi ⟨le_trans hi.le (Nat.find_spec hex).1, h0⟩
  · exfalso
    have hne : ∀ k, k ≤ Module.finrank K V → (seq S b k).r ≠ 0 := fun k hk h0 => hex ⟨k, hk, h0⟩
    let BJ : V →ₗ[K] V →ₗ[K] K := S.B.compl₂ S.J
    have hBJ : ∀ u v, BJ u v = S.B u (S.J v) := fun u v => rfl
    have hsym : ∀ u v, BJ u v = BJ v u := fun u v => by
      rw [hBJ, hBJ, ← S.adjJ, S.symm]
    let v : Fin (Module.finrank K V + 1) → V := fun i => (seq S b i).r
    have hlt : ∀ i j : Fin (Module.finrank K V + 1), i < j → BJ (v j) (v i) = 0 := by
      intro i j hij
      exact ((inv b j fun m hm => hne m (by omega)).1).rr i hij
    have hli : LinearIndependent K v := by
      refine LinearMap.linearIndependent_of_isOrthoᵢ (B := BJ) ?_ ?_
      · intro i j hij
        rcases lt_or_gt_of_ne hij with h | h
        · show BJ (v i) (v j) = 0
          rw [hsym]; exact hlt i j h
        · exact hlt j i h
      · intro i h0
        exact (S.posJ (v i) (hne i (by omega))).ne' h0
    have := hli.fintype_card_le_finrank
    simp at this

/-- Energy of a candidate solution. -/
def energy (S : Sys K V) (b x : V) : K := S.B x (S.A x) / 2 - S.B b x

theorem energy_add (b x v : V) :
    energy S b (x + v) = energy S b x - S.B (b - S.A x) v + S.B v (S.A v) / 2 := by
  simp only [energy, map_add, map_sub, LinearMap.add_apply, LinearMap.sub_apply]
  rw [S.symm v (S.A x), S.adjA x v]
  ring

/-- Every pass from a nonzero residual lowers the energy. -/
theorem energy_lt (b : V) (k : Nat) (hne : ∀ i, i ≤ k → (seq S b i).r ≠ 0) :
    energy S b (seq S b (k + 1)).x < energy S b (seq S b k).x := by
  have hi := (inv b k fun i hi => hne i hi.le).1
  have h1 := hi.curv (hne k (le_refl _))
  have h2 := dn_pos (hne k (le_refl _))
  rw [seq_x_succ, energy_add, ← residual]
  simp only [map_smul, LinearMap.smul_apply, hi.rdk, alpha, smul_eq_mul]
  have : (seq S b k).dn / S.B (seq S b k).d (S.A (seq S b k).d) * (seq S b k).dn =
     (seq S b k).dn / S.B (seq S b k).d (S.A (seq S b k).d) *
     ((seq S b k).dn / S.B (seq S b k).d (S.A (seq S b k).d) *
      S.B (seq S b k).d (S.A (seq S b k).d)) := by
    rw [div_mul_cancel₀ _ h1.ne']
  have h3 := mul_pos (div_pos h2 h1) h2
  linarith

/-- An unfinished result is a direction of descent. -/
theorem descent (b : V) (k : Nat) (hk : 0 < k) (hne : ∀ i, i < k → (seq S b i).r ≠ 0) :
    0 < S.B b (seq S b k).x := by
  have h0 : energy S b (seq S b k).x < 0 := by
    induction k with
    | zero => omega
    | succ k ih =>
      have h1 := energy_lt (S := S) b k fun i hi => hne i (by omega)
      rcases Nat.eq_zero_or_pos k with rfl | hp
      · have : energy S b (seq S b 0).x = 0 := by simp [seq, start, energy]
        rwa [this] at h1
      · exact h1.trans (ih hp fun i hi => hne i (by omega))
  have h1 : 0 ≤ S.B (seq S b k).x (S.A (seq S b k).x) := by
    by_cases h : (seq S b k).x = 0
    · rw [h]; simp
    · exact (S.posA _ h).le
  unfold energy at h0
  linarith

end Verif.PCG.Abs
