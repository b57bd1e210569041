import Mathlib.Data.Real.Basic
import Mathlib.LinearAlgebra.CrossProduct
import Mathlib.LinearAlgebra.Matrix.NonsingularInverse
import Mathlib.Analysis.Calculus.Deriv.Mul
import Mathlib.Analysis.Calculus.Deriv.Add
import Mathlib.Analysis.Calculus.Deriv.Inv
import Mathlib.Tactic.LinearCombination
import Mathlib.Tactic.FinCases

/-!
Vectors, rotation matrices and derivatives in three dimensions, shared by the areas about expressions.
Numbers are reals: floating point rounding is not modelled.
-/
namespace Verif.Geo
open Matrix

/-- `Eigen::Vector3d`; for example aslam_backend_expressions/src/EuclideanPoint.cpp:6-10. -/
abbrev V3 := Fin 3 → ℝ
/-- `Eigen::Matrix3d`; for example aslam_backend_expressions/src/RotationQuaternion.cpp:44-47. -/
abbrev M3 := Matrix (Fin 3) (Fin 3) ℝ

/-- `sm::kinematics::crossMx`, an external function: the matrix of `w ↦ v × w`. -/
def crossMx (v : V3) : M3 := !![0, -v 2, v 1; v 2, 0, -v 0; -v 1, v 0, 0]

/-- Rotation matrices. -/
def IsRot (C : M3) : Prop := C * Cᵀ = 1 ∧ C.det = 1

/-- `f` is differentiable at `t` with derivative `f'`, component by component. -/
def VDeriv {n : Type} (f : ℝ → n → ℝ) (f' : n → ℝ) (t : ℝ) : Prop := ∀ i, HasDerivAt (fun s => f s i) (f' i) t

/-- The same for matrices. -/
def MDeriv {n m : Type} (f : ℝ → Matrix n m ℝ) (f' : Matrix n m ℝ) (t : ℝ) : Prop := ∀ i j, HasDerivAt (fun s => f s i j) (f' i j) t

theorem crossMx_mulVec (v w : V3) : crossMx v *ᵥ w = v ⨯₃ w := by
  funext i
  fin_cases i <;> simp [crossMx, cross_apply, Matrix.mulVec, dotProduct, Fin.sum_univ_three] <;> ring

theorem crossMx_neg (v : V3) : crossMx (-v) = -crossMx v := by
  ext i j
  fin_cases i <;> fin_cases j <;> simp [crossMx]

theorem crossMx_add (v w : V3) : crossMx (v + w) = crossMx v + crossMx w := by
  ext i j
  fin_cases i <;> fin_cases j <;> simp [crossMx] <;> ring

theorem crossMx_transpose (v : V3) : (crossMx v)ᵀ = -crossMx v := by
  ext i j
  fin_cases i <;> fin_cases j <;> simp [crossMx]

theorem crossMx_zero : crossMx 0 = 0 := by
  ext i j
  fin_cases i <;> fin_cases j <;> simp [crossMx]

theorem IsRot.one : IsRot 1 := by constructor <;> simp

theorem IsRot.mul {A B : M3} (hA : IsRot A) (hB : IsRot B) : IsRot (A * B) := by
  constructor
  · rw [Matrix.transpose_mul, Matrix.mul_assoc, ← Matrix.mul_assoc B, hB.1, Matrix.one_mul, hA.1]
  · rw [Matrix.det_mul, hA.2, hB.2, one_mul]

theorem IsRot.left {A : M3} (hA : IsRot A) : Aᵀ * A = 1 := mul_eq_one_comm.mp hA.1

theorem IsRot.transpose {A : M3} (hA : IsRot A) : IsRot Aᵀ := by
  refine ⟨?_, by rw [Matrix.det_transpose, hA.2]⟩
  rw [Matrix.transpose_transpose]
  exact hA.left

theorem IsRot.adjugate {A : M3} (hA : IsRot A) : A.adjugate = Aᵀ := by
  have h : A * A.adjugate = 1 := by rw [Matrix.mul_adjugate, hA.2, one_smul]
  calc A.adjugate = (Aᵀ * A) * A.adjugate := by rw [hA.left, Matrix.one_mul]
    _ = Aᵀ := by rw [Matrix.mul_assoc, h, Matrix.mul_one]

/-- A rotation commutes with cross products. -/
theorem IsRot.cross {C : M3} (hC : IsRot C) (a b : V3) : C *ᵥ (a ⨯₃ b) = (C *ᵥ a) ⨯₃ (C *ᵥ b) := by
  have h := hC.adjugate
  rw [Matrix.adjugate_fin_three] at h
  have e := fun i j => congrFun (congrFun h i) j
  have e00 := e 0 0; have e01 := e 0 1; have e02 := e 0 2
  have e10 := e 1 0; have e11 := e 1 1; have e12 := e 1 2
  have e20 := e 2 0; have e21 := e 2 1; have e22 := e 2 2
  simp [Matrix.transpose_apply] at e00 e01 e02 e10 e11 e12 e20 e21 e22
  funext i
  fin_cases i <;> simp [cross_apply, Matrix.mulVec, dotProduct, Fin.sum_univ_three]
  · linear_combination -(a 1 * b 2 - a 2 * b 1) * e00 - (a 2 * b 0 - a 0 * b 2) * e10 - (a 0 * b 1 - a 1 * b 0) * e20
  · linear_combination -(a 1 * b 2 - a 2 * b 1) * e01 - (a 2 * b 0 - a 0 * b 2) * e11 - (a 0 * b 1 - a 1 * b 0) * e21
  · linear_combination -(a 1 * b 2 - a 2 * b 1) * e02 - (a 2 * b 0 - a 0 * b 2) * e12 - (a 0 * b 1 - a 1 * b 0) * e22

/-- `(C v)^× C = C v^×`. -/
theorem IsRot.crossMx {C : M3} (hC : IsRot C) (v : V3) : crossMx (C *ᵥ v) * C = C * crossMx v := by
  ext i j
  have h := congrFun (hC.cross v (Pi.single j 1)) i
  rw [← crossMx_mulVec, ← crossMx_mulVec, Matrix.mulVec_mulVec, Matrix.mulVec_mulVec] at h
  simpa using h.symm

section Deriv
variable {n m k : Type} [Fintype n] [Fintype m] {t : ℝ}

theorem VDeriv.const (v : n → ℝ) : VDeriv (fun _ => v) 0 t := fun i => hasDerivAt_const t (v i)
theorem MDeriv.const (A : Matrix n m ℝ) : MDeriv (fun _ => A) 0 t := fun i j => hasDerivAt_const t (A i j)

theorem VDeriv.add {f g : ℝ → n → ℝ} {f' g' : n → ℝ} (hf : VDeriv f f' t) (hg : VDeriv g g' t) :
    VDeriv (fun s => f s + g s) (f' + g') t := fun i => (hf i).add (hg i)
theorem VDeriv.sub {f g : ℝ → n → ℝ} {f' g' : n → ℝ} (hf : VDeriv f f' t) (hg : VDeriv g g' t) :
    VDeriv (fun s => f s - g s) (f' - g') t := fun i => (hf i).sub (hg i)
theorem VDeriv.neg {f : ℝ → n → ℝ} {f' : n → ℝ} (hf : VDeriv f f' t) :
    VDeriv (fun s => -f s) (-f') t := fun i => (hf i).neg
theorem VDeriv.smul {c : ℝ → ℝ} {c' : ℝ} {f : ℝ → n → ℝ} {f' : n → ℝ} (hc : HasDerivAt c c' t) (hf : VDeriv f f' t) :
    VDeriv (fun s => c s • f s) (c' • f t + c t • f') t := fun i => hc.mul (hf i)
theorem MDeriv.neg {f : ℝ → Matrix n m ℝ} {f' : Matrix n m ℝ} (hf : MDeriv f f' t) :
    MDeriv (fun s => -f s) (-f') t := fun i j => (hf i j).neg
theorem MDeriv.add {f g : ℝ → Matrix n m ℝ} {f' g' : Matrix n m ℝ} (hf : MDeriv f f' t) (hg : MDeriv g g' t) :
    MDeriv (fun s => f s + g s) (f' + g') t := fun i j => (hf i j).add (hg i j)
theorem MDeriv.transpose {f : ℝ → Matrix n m ℝ} {f' : Matrix n m ℝ} (hf : MDeriv f f' t) :
    MDeriv (fun s => (f s)ᵀ) f'ᵀ t := fun i j => hf j i

theorem MDeriv.mul [Fintype k] {f : ℝ → Matrix n m ℝ} {f' : Matrix n m ℝ} {g : ℝ → Matrix m k ℝ} {g' : Matrix m k ℝ}
    (hf : MDeriv f f' t) (hg : MDeriv g g' t) : MDeriv (fun s => f s * g s) (f' * g t + f t * g') t := by
  intro i j
  have h := HasDerivAt.fun_sum (u := Finset.univ) (fun l _ => (hf i l).mul (hg l j))
  simpa [Matrix.mul_apply, Matrix.add_apply, Finset.sum_add_distrib] using h

theorem MDeriv.mulVec {f : ℝ → Matrix n m ℝ} {f' : Matrix n m ℝ} {g : ℝ → m → ℝ} {g' : m → ℝ}
    (hf : MDeriv f f' t) (hg : VDeriv g g' t) : VDeriv (fun s => f s *ᵥ g s) (f' *ᵥ g t + f t *ᵥ g') t := by
  intro i
  have h := HasDerivAt.fun_sum (u := Finset.univ) (fun l _ => (hf i l).mul (hg l))
  simpa [Matrix.mulVec, dotProduct, Finset.sum_add_distrib] using h

theorem VDeriv.cross {f g : ℝ → V3} {f' g' : V3} (hf : VDeriv f f' t) (hg : VDeriv g g' t) :
    VDeriv (fun s => f s ⨯₃ g s) (f' ⨯₃ g t + f t ⨯₃ g') t := by
  intro i
  have a := hf 0; have b := hf 1; have c := hf 2
  have x := hg 0; have y := hg 1; have z := hg 2
  fin_cases i
  · have h := (b.mul z).sub (c.mul y)
    refine HasDerivAt.congr_deriv h ?_
    simp [cross_apply]; ring
  · have h := (c.mul x).sub (a.mul z)
    refine HasDerivAt.congr_deriv h ?_
    simp [cross_apply]; ring
  · have h := (a.mul y).sub (b.mul x)
    refine HasDerivAt.congr_deriv h ?_
    simp [cross_apply]; ring

theorem VDeriv.congr {f : ℝ → n → ℝ} {f' f'' : n → ℝ} (hf : VDeriv f f' t) (h : f' = f'') : VDeriv f f'' t := h ▸ hf
theorem MDeriv.congr {f : ℝ → Matrix n m ℝ} {f' f'' : Matrix n m ℝ} (hf : MDeriv f f' t) (h : f' = f'') : MDeriv f f'' t := h ▸ hf
theorem VDeriv.unique {f : ℝ → n → ℝ} {f' f'' : n → ℝ} (h : VDeriv f f' t) (h' : VDeriv f f'' t) : f' = f'' :=
  funext fun i => (h i).unique (h' i)
end Deriv

end Verif.Geo
