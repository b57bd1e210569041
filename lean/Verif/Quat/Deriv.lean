import Verif.Quat.Lemmas
import Mathlib.LinearAlgebra.BilinearMap
import Mathlib.LinearAlgebra.Pi
import Mathlib.Analysis.SpecialFunctions.Sqrt
import Mathlib.Analysis.SpecialFunctions.Trigonometric.Deriv
import Mathlib.Analysis.Calculus.Deriv.Slope

namespace Verif.Quat
open Quaternion Matrix Verif.Geo Filter Topology

/-- Derivative of a linear function of a vector. -/
theorem deriv_lin {n : Type} [Fintype n] [DecidableEq n] (B : (n → ℝ) →ₗ[ℝ] ℝ) {f : ℝ → n → ℝ} {f' : n → ℝ} {t : ℝ}
    (hf : VDeriv f f' t) : HasDerivAt (fun s => B (f s)) (B f') t := by
  have h := HasDerivAt.fun_sum (u := Finset.univ) (fun i (_ : i ∈ Finset.univ) => (hf i).mul_const (B fun j => if i = j then 1 else 0))
  have e : ∀ x, B x = ∑ i, x i * B (fun j => if i = j then 1 else 0) := fun x => by
    have := LinearMap.pi_apply_eq_sum_univ B x
    simpa using this
  rw [show (fun s => B (f s)) = fun s => ∑ i, f s i * B (fun j => if i = j then 1 else 0) from funext fun s => e (f s), e f']
  exact h

/-- Product rule for bilinear functions of two vectors. -/
theorem deriv_bilin {n p : Type} [Fintype n] [DecidableEq n] [Fintype p] [DecidableEq p] (B : (n → ℝ) →ₗ[ℝ] (p → ℝ) →ₗ[ℝ] ℝ)
    {f : ℝ → n → ℝ} {f' : n → ℝ} {g : ℝ → p → ℝ} {g' : p → ℝ} {t : ℝ} (hf : VDeriv f f' t) (hg : VDeriv g g' t) :
    HasDerivAt (fun s => B (f s) (g s)) (B f' (g t) + B (f t) g') t := by
  have e : ∀ a b, B a b = ∑ i, a i * B (fun j => if i = j then 1 else 0) b := by
    intro a b
    have := LinearMap.pi_apply_eq_sum_univ (B.flip b) a
    simpa [LinearMap.flip_apply] using this
  have h := HasDerivAt.fun_sum (u := Finset.univ)
    (fun i (_ : i ∈ Finset.univ) => (hf i).mul (deriv_lin (B fun j => if i = j then 1 else 0) hg))
  rw [e f', e (f t)]
  rw [show (fun s => B (f s) (g s)) = fun s => ∑ i, f s i * B (fun j => if i = j then 1 else 0) (g s) from funext fun s => e (f s) (g s)]
  rw [← Finset.sum_add_distrib]
  exact h

section
variable (m : Mode)

theorem prod_add (a b c : Quaternion ℝ) : prod m a (b + c) = prod m a b + prod m a c := by
  unfold prod; split <;> simp [mul_add, add_mul]
theorem add_prod (a b c : Quaternion ℝ) : prod m (a + b) c = prod m a c + prod m b c := by
  unfold prod; split <;> simp [mul_add, add_mul]
theorem smul_prod (x : ℝ) (b c : Quaternion ℝ) : prod m (x • b) c = x • prod m b c := by
  unfold prod; split <;> simp
theorem prod_smul (x : ℝ) (b c : Quaternion ℝ) : prod m b (x • c) = x • prod m b c := by
  unfold prod; split <;> simp
theorem pure_add (v w : Fin 3 → ℝ) : pure (v + w) = pure v + pure w := by ext <;> simp [pure]
theorem pure_smul (x : ℝ) (v : Fin 3 → ℝ) : pure (x • v) = x • pure v := by ext <;> simp [pure]

/-- One component of a product as a bilinear map. -/
noncomputable def multB (k : Fin 4) : Q4 ℝ →ₗ[ℝ] Q4 ℝ →ₗ[ℝ] ℝ :=
  LinearMap.mk₂ ℝ (fun a b => mult m a b k)
    (fun a b c => by
      have : mult m (a + b) c = mult m a c + mult m b c := toH_injective m (by simp [toH_mult, toH_add, add_prod])
      simp [this])
    (fun x b c => by
      have : mult m (x • b) c = x • mult m b c := toH_injective m (by simp [toH_mult, toH_smul, smul_prod])
      simp [this])
    (fun a b c => by
      have : mult m a (b + c) = mult m a b + mult m a c := toH_injective m (by simp [toH_mult, toH_add, prod_add])
      simp [this])
    (fun x b c => by
      have : mult m b (x • c) = x • mult m b c := toH_injective m (by simp [toH_mult, toH_smul, prod_smul])
      simp [this])

/-- The same for an imaginary right factor. -/
noncomputable def multPRB (k : Fin 4) : Q4 ℝ →ₗ[ℝ] (Fin 3 → ℝ) →ₗ[ℝ] ℝ :=
  LinearMap.mk₂ ℝ (fun a b => multPR m a b k)
    (fun a b c => by
      have : multPR m (a + b) c = multPR m a c + multPR m b c := toH_injective m (by simp [toH_multPR, toH_add, add_prod])
      simp [this])
    (fun x b c => by
      have : multPR m (x • b) c = x • multPR m b c := toH_injective m (by simp [toH_multPR, toH_smul, smul_prod])
      simp [this])
    (fun a b c => by
      have : multPR m a (b + c) = multPR m a b + multPR m a c := toH_injective m (by simp [toH_multPR, toH_add, prod_add, pure_add])
      simp [this])
    (fun x b c => by
      have : multPR m b (x • c) = x • multPR m b c := toH_injective m (by simp [toH_multPR, toH_smul, prod_smul, pure_smul])
      simp [this])

theorem deriv_mult {f g : ℝ → Q4 ℝ} {f' g' : Q4 ℝ} {t : ℝ} (hf : VDeriv f f' t) (hg : VDeriv g g' t) :
    VDeriv (fun s => mult m (f s) (g s)) (mult m f' (g t) + mult m (f t) g') t :=
  fun k => deriv_bilin (multB m k) hf hg

theorem deriv_multPR {f : ℝ → Q4 ℝ} {g : ℝ → Fin 3 → ℝ} {f' : Q4 ℝ} {g' : Fin 3 → ℝ} {t : ℝ} (hf : VDeriv f f' t) (hg : VDeriv g g' t) :
    VDeriv (fun s => multPR m (f s) (g s)) (multPR m f' (g t) + multPR m (f t) g') t :=
  fun k => deriv_bilin (multPRB m k) hf hg

theorem deriv_conjugate {f : ℝ → Q4 ℝ} {f' : Q4 ℝ} {t : ℝ} (hf : VDeriv f f' t) :
    VDeriv (fun s => conjugate m (f s)) (conjugate m f') t := by
  intro k
  by_cases h : m.ii.val ≤ k.val ∧ k.val < m.ii.val + 3
  · simp only [conjugate, if_pos h]; exact (hf k).mul_const _
  · simp only [conjugate, if_neg h]; exact hf k

theorem deriv_imag {f : ℝ → Q4 ℝ} {f' : Q4 ℝ} {t : ℝ} (hf : VDeriv f f' t) :
    VDeriv (fun s => imag m (f s)) (imag m f') t := fun _ => hf _

theorem imag_add (a b : Q4 ℝ) : imag m (a + b) = imag m a + imag m b := rfl

theorem deriv_rotate {f : ℝ → Q4 ℝ} {g : ℝ → Fin 3 → ℝ} {f' : Q4 ℝ} {g' : Fin 3 → ℝ} {t : ℝ} (hf : VDeriv f f' t) (hg : VDeriv g g' t) :
    VDeriv (fun s => rotate m (f s) (g s)) (rotateDiffL m (f t) (g t) f' + rotateDiffR m (f t) g') t := by
  refine (deriv_imag m (deriv_mult m (deriv_multPR m hf hg) (deriv_conjugate m hf))).congr ?_
  simp only [rotateDiffL, rotateDiffR, ← imag_add]
  congr 1
  refine toH_injective m ?_
  simp only [toH_mult, toH_add, toH_multPR, toH_conjugate, add_prod]
  abel

theorem deriv_dot {f : ℝ → Q4 ℝ} {f' : Q4 ℝ} {t : ℝ} (hf : VDeriv f f' t) :
    HasDerivAt (fun s => dot4 (f s) (f s)) (2 * dot4 (f t) f') t := by
  have h := ((((hf 0).mul (hf 0)).add ((hf 1).mul (hf 1))).add ((hf 2).mul (hf 2))).add ((hf 3).mul (hf 3))
  refine HasDerivAt.congr_deriv h ?_
  simp [dot4]; ring

/-- `q̄ v q̄ = 2 ⟨q, v⟩ q̄ - |q|² v̄`. -/
theorem conj_sandwich (q v : Q4 ℝ) : mult m (conjugate m q) (mult m v (conjugate m q)) =
    (2 * dot4 q v) • conjugate m q - dot4 q q • conjugate m v := by
  refine toH_injective m ?_
  have hs : ∀ a b : Q4 ℝ, toH m (a - b) = toH m a - toH m b := fun a b => by ext <;> simp [toH]
  simp only [toH_mult, toH_conjugate, hs, toH_smul]
  have d : dot4 q v = (toH m q).re * (toH m v).re + (toH m q).imI * (toH m v).imI + (toH m q).imJ * (toH m v).imJ + (toH m q).imK * (toH m v).imK := by
    cases hm : m.realFirst <;> simp [toH, dot4, Mode.ri, Mode.ii, Mode.ji, Mode.ki, hm] <;> ring
  rw [d, dot4_eq m, Quaternion.normSq_def']
  generalize toH m q = a
  generalize toH m v = b
  unfold prod
  split <;> ext <;> simp <;> ring

theorem dot4_conjugate (q : Q4 ℝ) : dot4 (conjugate m q) (conjugate m q) = dot4 q q := by
  rw [dot4_eq m, dot4_eq m, toH_conjugate, Quaternion.normSq_star]

/-- The derivative of the inverse. -/
theorem deriv_invert {f : ℝ → Q4 ℝ} {f' : Q4 ℝ} {t : ℝ} (hf : VDeriv f f' t) (h0 : dot4 (f t) (f t) ≠ 0) :
    VDeriv (fun s => invert m (f s)) (invertDiff m (f t) f') t := by
  intro k
  have h := (deriv_conjugate m hf k).div (deriv_dot (deriv_conjugate m hf)) (by rw [dot4_conjugate]; exact h0)
  refine HasDerivAt.congr_deriv h ?_
  have e : dot4 (conjugate m (f t)) (conjugate m f') = dot4 (f t) f' := by
    cases hm : m.realFirst <;> simp [conjugate, dot4, Mode.ii, hm]
  simp only [invertDiff]
  rw [conj_sandwich, e, dot4_conjugate]
  simp only [Pi.sub_apply, Pi.smul_apply, smul_eq_mul]
  field_simp
  ring

end

/-! The exponential. -/

theorem sq_sum_eq_zero {x y z : ℝ} (h : x * x + y * y + z * z = 0) : x = 0 ∧ y = 0 ∧ z = 0 := by
  refine ⟨?_, ?_, ?_⟩ <;> nlinarith [mul_self_nonneg x, mul_self_nonneg y, mul_self_nonneg z]

theorem axisAngle_unit (a : Fin 3 → ℝ) : dot4 (axisAngle2quat a) (axisAngle2quat a) = 1 := by
  set q := a 0 * a 0 + a 1 * a 1 + a 2 * a 2 with hq
  have hq0 : 0 ≤ q := add_nonneg (add_nonneg (mul_self_nonneg _) (mul_self_nonneg _)) (mul_self_nonneg _)
  by_cases h : Real.sqrt q = 0
  · have := (Real.sqrt_eq_zero hq0).mp h
    obtain ⟨h0, h1, h2⟩ := sq_sum_eq_zero (hq.symm.trans this)
    simp [axisAngle2quat, dot4, ← hq, h, h0, h1, h2]
  · have hs : Real.sqrt q * Real.sqrt q = q := Real.mul_self_sqrt hq0
    have hc := Real.sin_sq_add_cos_sq (Real.sqrt q / 2)
    simp only [axisAngle2quat, dot4, ← hq, if_neg h]
    simp
    set θ := Real.sqrt q with hθ
    have : a 0 * (Real.sin (θ / 2) / θ) * (a 0 * (Real.sin (θ / 2) / θ)) + a 1 * (Real.sin (θ / 2) / θ) * (a 1 * (Real.sin (θ / 2) / θ)) +
        a 2 * (Real.sin (θ / 2) / θ) * (a 2 * (Real.sin (θ / 2) / θ)) = q * (Real.sin (θ / 2) / θ) ^ 2 := by rw [hq]; ring
    rw [this, ← hs]
    field_simp
    nlinarith [hc]

theorem exp_unit (m : Mode) (v : Fin 3 → ℝ) : dot4 (exp m v) (exp m v) = 1 := by
  rw [exp, dot4_eq m, toH_convert, ← dot4_eq, axisAngle_unit]

theorem exp_zero (m : Mode) : exp m 0 = identity m := by
  refine toH_injective m ?_
  rw [exp, toH_convert, toH_identity]
  ext <;> simp [toH, axisAngle2quat, Mode.ri, Mode.ii, Mode.ji, Mode.ki]

/-- Along a line through 0 the exponential is `(cos εν, sin εν v/ν)` with `ν = |v|`. -/
theorem axisAngle_line (v : Fin 3 → ℝ) (ε : ℝ) : axisAngle2quat (fun k => 2 * (ε * v k)) =
    let ν := Real.sqrt (v 0 * v 0 + v 1 * v 1 + v 2 * v 2)
    ![v 0 * (Real.sin (ε * ν) / ν), v 1 * (Real.sin (ε * ν) / ν), v 2 * (Real.sin (ε * ν) / ν), Real.cos (ε * ν)] := by
  set q := v 0 * v 0 + v 1 * v 1 + v 2 * v 2 with hq
  have hq0 : 0 ≤ q := add_nonneg (add_nonneg (mul_self_nonneg _) (mul_self_nonneg _)) (mul_self_nonneg _)
  have e1 : 2 * (ε * v 0) * (2 * (ε * v 0)) + 2 * (ε * v 1) * (2 * (ε * v 1)) + 2 * (ε * v 2) * (2 * (ε * v 2)) = (2 * ε) ^ 2 * q := by
    rw [hq]; ring
  have e2 : Real.sqrt ((2 * ε) ^ 2 * q) = |2 * ε| * Real.sqrt q := by
    rw [Real.sqrt_mul (sq_nonneg _), Real.sqrt_sq_eq_abs]
  simp only [axisAngle2quat, e1, e2]
  set ν := Real.sqrt q with hν
  by_cases h0 : ν = 0
  · have := (Real.sqrt_eq_zero hq0).mp h0
    obtain ⟨h1, h2, h3⟩ := sq_sum_eq_zero (hq.symm.trans this)
    simp [h0, h1, h2, h3]
  · have ha : |2 * ε| * ν / 2 = |ε| * ν := by rw [abs_mul]; simp; ring
    rw [ha]
    rcases lt_trichotomy ε 0 with hε | hε | hε
    · have h1 : |ε| = -ε := abs_of_neg hε
      have h2 : |2 * ε| = -(2 * ε) := abs_of_neg (by linarith)
      have h3 : -(2 * ε) * ν ≠ 0 := mul_ne_zero (by linarith) h0
      have hne : ε ≠ 0 := ne_of_lt hε
      rw [h1, h2, if_neg h3]
      simp only [neg_mul, Real.sin_neg, Real.cos_neg]
      congr 1
      · field_simp
      congr 1
      · field_simp
      congr 1
      field_simp
    · simp [hε]
    · have h1 : |ε| = ε := abs_of_pos hε
      have h2 : |2 * ε| = 2 * ε := abs_of_pos (by linarith)
      have h3 : 2 * ε * ν ≠ 0 := mul_ne_zero (by linarith) h0
      have hne : ε ≠ 0 := ne_of_gt hε
      rw [h1, h2, if_neg h3]
      congr 1
      · field_simp
      congr 1
      · field_simp
      congr 1
      field_simp

/-- The derivative of the exponential at 0. -/
theorem exp_deriv (m : Mode) (v : Fin 3 → ℝ) : VDeriv (fun ε => exp m (fun k => ε * v k)) (mk m (v 0) (v 1) (v 2) 0) 0 := by
  set ν := Real.sqrt (v 0 * v 0 + v 1 * v 1 + v 2 * v 2) with hν
  have hs : HasDerivAt (fun ε : ℝ => Real.sin (ε * ν) / ν) (if ν = 0 then 0 else 1) 0 := by
    have h := (((Real.hasDerivAt_sin (0 * ν)).comp (0 : ℝ) ((hasDerivAt_id (0 : ℝ)).mul_const ν)).div_const ν)
    refine HasDerivAt.congr_deriv h ?_
    by_cases h0 : ν = 0 <;> simp [h0]
  have hc : HasDerivAt (fun ε : ℝ => Real.cos (ε * ν)) 0 0 := by
    have h := (Real.hasDerivAt_cos (0 * ν)).comp (0 : ℝ) ((hasDerivAt_id (0 : ℝ)).mul_const ν)
    refine HasDerivAt.congr_deriv h ?_
    simp
  have hv : ∀ k, HasDerivAt (fun ε : ℝ => v k * (Real.sin (ε * ν) / ν)) (v k) 0 := by
    intro k
    refine HasDerivAt.congr_deriv (hs.const_mul (v k)) ?_
    by_cases h0 : ν = 0
    · have := (Real.sqrt_eq_zero (add_nonneg (add_nonneg (mul_self_nonneg _) (mul_self_nonneg _)) (mul_self_nonneg _))).mp h0
      obtain ⟨h1, h2, h3⟩ := sq_sum_eq_zero this
      fin_cases k <;> simp [h0, h1, h2, h3]
    · simp [h0]
  have key : VDeriv (fun ε => axisAngle2quat (fun k => 2 * (ε * v k))) ![v 0, v 1, v 2, 0] 0 := by
    simp only [axisAngle_line]
    intro k
    fin_cases k
    · exact hv 0
    · exact hv 1
    · exact hv 2
    · exact hc
  intro k
  cases hm : m.realFirst
  · simp only [exp, convert, hm, if_true, mk]
    exact key k
  · simp only [exp, convert, hm, mk, Bool.false_eq_true, if_false, if_true, Mode.ri, Mode.ii, Mode.ji, Mode.ki]
    fin_cases k
    · exact key 3
    · exact key 0
    · exact key 1
    · exact key 2

end Verif.Quat
