import Verif.Motion.Model
import Verif.GenExpr.Exp

/-! Lemmas about `Verif/Motion/Model`: unit quaternions, their derivatives and the motion of design variables. -/
namespace Verif.Motion
open Verif.Quat (Q4 axisAngle2quat quatPlus quatOPlus dot4 axisAngle_unit)
open Verif.DesignVar (Sm Cls Class St Mat vec unvec)
open Verif.Geo
open Verif.Expr (Env Var Pose)
open Matrix

theorem quat2r_isRot {q : Q4 ℝ} (h : dot4 q q = 1) : IsRot (quat2r q) := by
  have h' : q 0 * q 0 + q 1 * q 1 + q 2 * q 2 + q 3 * q 3 = 1 := h
  constructor
  · have key : ∀ i j, (quat2r q * (quat2r q)ᵀ) i j = (q 0 * q 0 + q 1 * q 1 + q 2 * q 2 + q 3 * q 3) ^ 2 * (1 : M3) i j := by
      intro i j
      fin_cases i <;> fin_cases j <;> simp [quat2r, Matrix.mul_apply, Fin.sum_univ_three] <;> ring
    ext i j
    rw [key, h', one_pow, one_mul]
  · have : (quat2r q).det = (q 0 * q 0 + q 1 * q 1 + q 2 * q 2 + q 3 * q 3) ^ 3 := by
      simp [quat2r, Matrix.det_fin_three]
      ring
    rw [this, h', one_pow]

theorem quatPlus_norm (a q : Q4 ℝ) : dot4 (quatPlus a *ᵥ q) (quatPlus a *ᵥ q) = dot4 a a * dot4 q q := by
  simp [dot4, quatPlus, mulVec, dotProduct, Fin.sum_univ_four]
  ring

/-- The derivative of the rotation matrix along a curve of four numbers that has length one at `t` and keeps it to first order. -/
theorem quat2r_deriv {q : ℝ → Q4 ℝ} {q' : Q4 ℝ} {t : ℝ} (h : VDeriv q q' t) (h1 : dot4 (q t) (q t) = 1) (h0 : dot4 (q t) q' = 0) :
    MDeriv (fun s => quat2r (q s)) (-(crossMx (adapterMatrix (q t) *ᵥ q') * quat2r (q t))) t := by
  have d : ∀ a b : Fin 4, HasDerivAt (fun s => q s a * q s b) (q' a * q t b + q t a * q' b) t := fun a b => (h a).mul (h b)
  have h1' : q t 0 * q t 0 + q t 1 * q t 1 + q t 2 * q t 2 + q t 3 * q t 3 = 1 := h1
  have h0' : q t 0 * q' 0 + q t 1 * q' 1 + q t 2 * q' 2 + q t 3 * q' 3 = 0 := h0
  have hC : ∀ i j, (crossMx (adapterMatrix (q t) *ᵥ q') * quat2r (q t)) i j =
      ∑ k, crossMx (adapterMatrix (q t) *ᵥ q') i k * quat2r (q t) k j := fun i j => Matrix.mul_apply
  have hA : adapterMatrix (q t) *ᵥ q' = ![2 * (q t 3 * q' 0 + q t 2 * q' 1 - q t 1 * q' 2 - q t 0 * q' 3),
      2 * (-q t 2 * q' 0 + q t 3 * q' 1 + q t 0 * q' 2 - q t 1 * q' 3), 2 * (q t 1 * q' 0 - q t 0 * q' 1 + q t 3 * q' 2 - q t 2 * q' 3)] := by
    funext i
    fin_cases i <;> simp [adapterMatrix, quatOPlus, quatInv, mulVec, dotProduct, Fin.sum_univ_four] <;> ring
  intro i j
  rw [Matrix.neg_apply, hC, hA]
  generalize hq : q t = p at *
  fin_cases i <;> fin_cases j <;> simp only [quat2r, crossMx, Fin.sum_univ_three, Matrix.of_apply, Matrix.cons_val', Matrix.cons_val_zero,
    Matrix.cons_val_one, Matrix.cons_val, Fin.zero_eta, Fin.mk_one, Fin.reduceFinMk, Fin.isValue]
  · refine ((((d 0 0).sub (d 1 1)).sub (d 2 2)).add (d 3 3)).congr_deriv ?_
    linear_combination (-(2 * (p 0 * q' 0 - p 1 * q' 1 - p 2 * q' 2 + p 3 * q' 3))) * h1' + 2 * (p 0 * p 0 - p 1 * p 1 - p 2 * p 2 + p 3 * p 3) * h0'
  · refine (((d 0 1).add (d 2 3)).const_mul 2).congr_deriv ?_
    linear_combination (-(2 * (q' 0 * p 1 + p 0 * q' 1 + (q' 2 * p 3 + p 2 * q' 3)))) * h1' + 2 * (2 * (p 0 * p 1 + p 2 * p 3)) * h0'
  · refine (((d 0 2).sub (d 1 3)).const_mul 2).congr_deriv ?_
    linear_combination (-(2 * (q' 0 * p 2 + p 0 * q' 2 - (q' 1 * p 3 + p 1 * q' 3)))) * h1' + 2 * (2 * (p 0 * p 2 - p 1 * p 3)) * h0'
  · refine (((d 0 1).sub (d 2 3)).const_mul 2).congr_deriv ?_
    linear_combination (-(2 * (q' 0 * p 1 + p 0 * q' 1 - (q' 2 * p 3 + p 2 * q' 3)))) * h1' + 2 * (2 * (p 0 * p 1 - p 2 * p 3)) * h0'
  · refine ((((d 1 1).sub (d 0 0)).sub (d 2 2)).add (d 3 3)).congr_deriv ?_
    linear_combination (-(2 * (p 1 * q' 1 - p 0 * q' 0 - p 2 * q' 2 + p 3 * q' 3))) * h1' + 2 * (p 1 * p 1 - p 0 * p 0 - p 2 * p 2 + p 3 * p 3) * h0'
  · refine (((d 1 2).add (d 0 3)).const_mul 2).congr_deriv ?_
    linear_combination (-(2 * (q' 1 * p 2 + p 1 * q' 2 + (q' 0 * p 3 + p 0 * q' 3)))) * h1' + 2 * (2 * (p 1 * p 2 + p 0 * p 3)) * h0'
  · refine (((d 0 2).add (d 1 3)).const_mul 2).congr_deriv ?_
    linear_combination (-(2 * (q' 0 * p 2 + p 0 * q' 2 + (q' 1 * p 3 + p 1 * q' 3)))) * h1' + 2 * (2 * (p 0 * p 2 + p 1 * p 3)) * h0'
  · refine (((d 1 2).sub (d 0 3)).const_mul 2).congr_deriv ?_
    linear_combination (-(2 * (q' 1 * p 2 + p 1 * q' 2 - (q' 0 * p 3 + p 0 * q' 3)))) * h1' + 2 * (2 * (p 1 * p 2 - p 0 * p 3)) * h0'
  · refine ((((d 2 2).sub (d 0 0)).sub (d 1 1)).add (d 3 3)).congr_deriv ?_
    linear_combination (-(2 * (p 2 * q' 2 - p 0 * q' 0 - p 1 * q' 1 + p 3 * q' 3))) * h1' + 2 * (p 2 * p 2 - p 0 * p 0 - p 1 * p 1 + p 3 * p 3) * h0'

theorem line_deriv {n : Nat} (δ : Fin n → ℝ) (t : ℝ) : VDeriv (fun s : ℝ => s • δ) δ t := fun i => by
  simpa using (hasDerivAt_id t).mul_const (δ i)

/-- The velocity of a quaternion under `updateQuat`. -/
theorem updateQuat_deriv (q : Q4 ℝ) (δ : Fin 3 → ℝ) :
    VDeriv (fun s : ℝ => smKin.updateQuat q (s • δ)) (fun k => ∑ c : Fin 3, quatOPlus ((1 / 2 : ℝ) • q) k c.castSucc * δ c) 0 := by
  have h := GenExpr.axisAngle_deriv_zero (line_deriv δ 0) (zero_smul ℝ δ)
  intro k
  fin_cases k <;> simp only [smKin, quatPlus, mulVec, dotProduct, Fin.sum_univ_four, Fin.sum_univ_three, Matrix.of_apply, Matrix.cons_val',
    Matrix.cons_val_zero, Matrix.cons_val_one, Matrix.cons_val, Fin.zero_eta, Fin.mk_one, Fin.reduceFinMk, Fin.isValue]
  · refine (((((h 3).mul_const (q 0)).add ((h 2).mul_const (q 1))).add ((h 1).neg.mul_const (q 2))).add ((h 0).mul_const (q 3))).congr_deriv ?_
    simp [quatOPlus]
    ring
  · refine (((((h 2).neg.mul_const (q 0)).add ((h 3).mul_const (q 1))).add ((h 0).mul_const (q 2))).add ((h 1).mul_const (q 3))).congr_deriv ?_
    simp [quatOPlus]
    ring
  · refine (((((h 1).mul_const (q 0)).add ((h 0).neg.mul_const (q 1))).add ((h 3).mul_const (q 2))).add ((h 2).mul_const (q 3))).congr_deriv ?_
    simp [quatOPlus]
    ring
  · refine (((((h 0).neg.mul_const (q 0)).add ((h 1).neg.mul_const (q 1))).add ((h 2).neg.mul_const (q 2))).add ((h 3).mul_const (q 3))).congr_deriv ?_
    simp [quatOPlus]
    ring

theorem updateQuat_unit {q : Q4 ℝ} (h : dot4 q q = 1) (δ : Fin 3 → ℝ) : dot4 (smKin.updateQuat q δ) (smKin.updateQuat q δ) = 1 := by
  rw [smKin, quatPlus_norm, axisAngle_unit, h, one_mul]

theorem updateQuat_zero (q : Q4 ℝ) : smKin.updateQuat q 0 = q := by
  have : axisAngle2quat 0 = ![0, 0, 0, 1] := by
    funext i
    fin_cases i <;> simp [axisAngle2quat]
  simp only [smKin, this]
  funext i
  fin_cases i <;> simp [quatPlus, mulVec, dotProduct, Fin.sum_univ_four]

/-- The rotation matrix moves with the velocity of the step, in the convention of the rotation expressions (also where the quaternion
does not have length one and the matrix is a multiple of a rotation). -/
theorem rotation_deriv (q : Q4 ℝ) (δ : Fin 3 → ℝ) :
    MDeriv (fun s : ℝ => quat2r (smKin.updateQuat q (s • δ))) (-(crossMx δ * quat2r q)) 0 := by
  have e0 : smKin.updateQuat q ((0 : ℝ) • δ) = q := by rw [zero_smul, updateQuat_zero]
  by_cases hz : dot4 q q = 0
  · have h' : q 0 * q 0 + q 1 * q 1 + q 2 * q 2 + q 3 * q 3 = 0 := hz
    have hq : q = 0 := by
      funext k
      fin_cases k <;> simp <;> nlinarith [mul_self_nonneg (q 0), mul_self_nonneg (q 1), mul_self_nonneg (q 2), mul_self_nonneg (q 3)]
    have : ∀ s : ℝ, smKin.updateQuat 0 (s • δ) = 0 := fun s => by simp [smKin]
    rw [hq]
    simp only [this]
    refine (MDeriv.const _).congr ?_
    ext i j
    fin_cases i <;> fin_cases j <;> simp [quat2r, crossMx, Matrix.mul_apply, Fin.sum_univ_three]
  · set n := Real.sqrt (dot4 q q) with hn
    have hnn : 0 ≤ dot4 q q := by
      unfold dot4
      nlinarith [mul_self_nonneg (q 0), mul_self_nonneg (q 1), mul_self_nonneg (q 2), mul_self_nonneg (q 3)]
    have hn0 : n ≠ 0 := fun h => hz ((Real.sqrt_eq_zero hnn).1 h)
    have hn2 : n * n = dot4 q q := Real.mul_self_sqrt hnn
    set u : Q4 ℝ := n⁻¹ • q with hu
    have huq : q = n • u := by rw [hu, smul_smul, mul_inv_cancel₀ hn0, one_smul]
    have hu1 : dot4 u u = 1 := by
      have : dot4 u u = n⁻¹ * n⁻¹ * dot4 q q := by simp [hu, dot4]; ring
      rw [this, ← hn2]
      field_simp
    have hs : ∀ (a : ℝ) (p : Q4 ℝ), quat2r (a • p) = (a * a) • quat2r p := by
      intro a p
      ext i j
      fin_cases i <;> fin_cases j <;> simp [quat2r] <;> ring
    have hup : ∀ s : ℝ, smKin.updateQuat q (s • δ) = n • smKin.updateQuat u (s • δ) := fun s => by
      rw [huq]
      simp [smKin, mulVec_smul]
    have hd : MDeriv (fun s : ℝ => quat2r (smKin.updateQuat u (s • δ))) (-(crossMx δ * quat2r u)) 0 := by
      have h' : u 0 * u 0 + u 1 * u 1 + u 2 * u 2 + u 3 * u 3 = 1 := hu1
      have e1 : smKin.updateQuat u ((0 : ℝ) • δ) = u := by rw [zero_smul, updateQuat_zero]
      have hd := quat2r_deriv (updateQuat_deriv u δ) (by rw [e1]; exact hu1) (by
        rw [e1]
        simp [dot4, quatOPlus, Fin.sum_univ_three]
        ring)
      rw [e1] at hd
      refine hd.congr ?_
      have : (adapterMatrix u *ᵥ fun k => ∑ c : Fin 3, quatOPlus ((1 / 2 : ℝ) • u) k c.castSucc * δ c) = δ := by
        funext i
        fin_cases i <;> simp [adapterMatrix, quatOPlus, quatInv, mulVec, dotProduct, Fin.sum_univ_four, Fin.sum_univ_three]
        · linear_combination δ 0 * h'
        · linear_combination δ 1 * h'
        · linear_combination δ 2 * h'
      rw [this]
    intro i j
    simp only [hup, hs, Matrix.smul_apply, smul_eq_mul]
    refine ((hd i j).const_mul (n * n)).congr_deriv ?_
    conv_rhs => rw [huq, hs]
    simp

end Verif.Motion
