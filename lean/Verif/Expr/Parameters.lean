import Verif.Expr.Props
import Mathlib.Topology.Instances.Matrix
import Mathlib.LinearAlgebra.Matrix.ToLinearEquiv
import Mathlib.Analysis.Calculus.FDeriv.Pi

/-!
C134: parameters of rotations, `RotationExpression::toParameters`.
-/
namespace Verif.Expr
open Matrix Verif.Geo Filter Topology Asymptotics

/-! ### Model -/

/-- `sm::kinematics::RotationalKinematics`, an external class: `parametersToRotationMatrix`, `rotationMatrixToParameters` and `parametersToSMatrix`. -/
structure Rk where
  mat : V3 → M3
  par : M3 → V3
  S : V3 → M3

/-- `EuclideanExpressionNodeRotationParameters`, `src/EuclideanExpressionNode.cpp:280-283`: the members `_operand` and `_rk`. -/
structure ParNode where
  operand : Node .R
  rk : Rk

/-- `RotationExpression::toParameters`, `src/RotationExpression.cpp:95-99` (assertion in debug builds, a null operand in release builds). -/
def Handle.toParameters (rk : Rk) : Handle .R → Res ParNode
  | none => .ub
  | some e => .ok ⟨e, rk⟩

/-- `evaluateImplementation`, `src/EuclideanExpressionNode.cpp:290-292`. -/
noncomputable def ParNode.val (env : Env) (n : ParNode) : Res V3 := Expr.val env n.operand >>= fun C => .ok (n.rk.par C)

/-- The members of the nodes after `evaluateImplementation`. -/
noncomputable def ParNode.upd (env : Env) (n : ParNode) (σ : Store) : Store := Expr.upd env n.operand σ

/-- `evaluateJacobiansImplementation`, `src/EuclideanExpressionNode.cpp:294-299`, with the chain rule `A`; `toRotationMatrix` evaluates the operand again. The inverse of a singular matrix is not finite. -/
noncomputable def ParNode.jac (invS : V3 × ℝ → Matrix (Fin 3 ⊕ Unit) (Fin 3) ℝ) (env : Env) (n : ParNode) {m : Nat} (A : Matrix (Fin m) (Fin 3) ℝ) (σ : Store) : Res (List (Contr m) × Store) :=
  Expr.val env n.operand >>= fun C =>
    let S := n.rk.S (n.rk.par C)
    if S.det = 0 then .ub else Expr.jac invS env n.operand (A * S⁻¹ : Matrix (Fin m) (Fin 3) ℝ) (Expr.upd env n.operand σ)

/-- `getDesignVariablesImplementation`, `src/EuclideanExpressionNode.cpp:301-303`. -/
def ParNode.dvs (env : Env) (n : ParNode) := Expr.dvs env n.operand

/-! ### Specification -/

/-- `S` is the derivative of the rotation matrix: `C(p + d) = C(p) - (S d)^× C(p) + o(d)`. -/
def Rk.Deriv (rk : Rk) (p₀ : V3) : Prop :=
  ∀ i j, (fun p => rk.mat p i j - rk.mat p₀ i j + (crossMx (rk.S p₀ *ᵥ (p - p₀)) * rk.mat p₀) i j) =o[𝓝 p₀] fun p => p - p₀

/-- What the external class promises around a rotation `R₀`: the parameters determine the rotation and depend on it continuously, and `S` is the derivative. -/
structure Rk.Chart (rk : Rk) (R₀ : M3) : Prop where
  back : ∀ᶠ R in 𝓝 R₀, IsRot R → rk.mat (rk.par R) = R
  cont : Tendsto rk.par (𝓝[{R | IsRot R}] R₀) (𝓝 (rk.par R₀))
  deriv : rk.Deriv (rk.par R₀)

/-! ### Proofs -/

/-- The vector of an antisymmetric matrix. -/
def vee (K : M3) : V3 := ![K 2 1, K 0 2, K 1 0]

theorem vee_crossMx (v : V3) : vee (crossMx v) = v := by
  funext i
  fin_cases i <;> simp [vee, crossMx]

/-- A curve of parameters of a differentiable curve of rotations. -/
theorem Rk.Chart.curve {rk : Rk} {f : ℝ → M3} {t : ℝ} {φ : V3} (hc : rk.Chart (f t)) (hS : (rk.S (rk.par (f t))).det ≠ 0) (hf : MDeriv f (-(crossMx φ * f t)) t)
    (hr : ∀ᶠ s in 𝓝 t, IsRot (f s)) : VDeriv (fun s => rk.par (f s)) ((rk.S (rk.par (f t)))⁻¹ *ᵥ φ) t := by
  set p₀ := rk.par (f t) with hp₀
  set S := rk.S p₀ with hSdef
  have hR₀ : IsRot (f t) := hr.self_of_nhds
  have hft : Tendsto f (𝓝 t) (𝓝 (f t)) := tendsto_pi_nhds.2 fun i => tendsto_pi_nhds.2 fun j => (hf i j).continuousAt
  have hmat : rk.mat p₀ = f t := hc.back.self_of_nhds hR₀
  have hback : ∀ᶠ s in 𝓝 t, rk.mat (rk.par (f s)) = f s := ((hft.eventually hc.back).and hr).mono fun s h => h.1 h.2
  have hq : Tendsto (fun s => rk.par (f s)) (𝓝 t) (𝓝 p₀) :=
    hc.cont.comp (tendsto_nhdsWithin_iff.2 ⟨hft, hr⟩)
  -- the remainder
  have h1 : ∀ i j, (fun s => f s i j - f t i j + (crossMx (S *ᵥ (rk.par (f s) - p₀)) * f t) i j) =o[𝓝 t] fun s => rk.par (f s) - p₀ := by
    intro i j
    have := (hc.deriv i j).comp_tendsto hq
    refine this.congr' (hback.mono fun s hs => ?_) (.of_forall fun s => rfl)
    simp only [Function.comp]
    rw [hs, hmat]
  have h2 : ∀ i j, (fun s => (((f s - f t) * (f t)ᵀ) + crossMx (S *ᵥ (rk.par (f s) - p₀))) i j) =o[𝓝 t] fun s => rk.par (f s) - p₀ := by
    intro i j
    have : (fun s => (((f s - f t) * (f t)ᵀ) + crossMx (S *ᵥ (rk.par (f s) - p₀))) i j) =
        fun s => ∑ k, (f s i k - f t i k + (crossMx (S *ᵥ (rk.par (f s) - p₀)) * f t) i k) * (f t) j k := by
      funext s
      have e : crossMx (S *ᵥ (rk.par (f s) - p₀)) = crossMx (S *ᵥ (rk.par (f s) - p₀)) * f t * (f t)ᵀ := by
        rw [Matrix.mul_assoc, hR₀.1, Matrix.mul_one]
      conv_lhs => rw [e]
      rw [← Matrix.add_mul, Matrix.mul_apply]
      rfl
    rw [this]
    refine IsLittleO.fun_sum fun k _ => ?_
    exact ((h1 i k).const_mul_left (f t j k)).congr_left fun s => mul_comm _ _
  have h3 : (fun s => vee ((f s - f t) * (f t)ᵀ) + S *ᵥ (rk.par (f s) - p₀)) =o[𝓝 t] fun s => rk.par (f s) - p₀ := by
    rw [isLittleO_pi]
    intro k
    fin_cases k
    · exact (h2 2 1).congr_left fun s => by simp [vee, crossMx]
    · exact (h2 0 2).congr_left fun s => by simp [vee, crossMx]
    · exact (h2 1 0).congr_left fun s => by simp [vee, crossMx]
  have hmv : ∀ {u : ℝ → V3} {w : ℝ → V3}, u =o[𝓝 t] w → (fun s => S⁻¹ *ᵥ u s) =o[𝓝 t] w := by
    intro u w h
    rw [isLittleO_pi] at h ⊢
    intro k
    exact (IsLittleO.fun_sum (s := Finset.univ) fun j _ => (h j).const_mul_left (S⁻¹ k j)).congr_left fun s => by simp [mulVec, dotProduct]
  have h4 : (fun s => S⁻¹ *ᵥ vee ((f s - f t) * (f t)ᵀ) + (rk.par (f s) - p₀)) =o[𝓝 t] fun s => rk.par (f s) - p₀ :=
    (hmv h3).congr_left fun s => by rw [mulVec_add, mulVec_mulVec, nonsing_inv_mul _ (isUnit_iff_ne_zero.2 hS), one_mulVec]
  -- the other summand is differentiable
  have h5 : VDeriv (fun s => vee ((f s - f t) * (f t)ᵀ)) (-φ) t := by
    have hd : MDeriv (fun s => (f s - f t) * (f t)ᵀ) (-crossMx φ) t := by
      have := (MDeriv.add hf (MDeriv.const (-f t))).mul (MDeriv.const (t := t) (f t)ᵀ)
      refine MDeriv.congr (f := fun s => (f s - f t) * (f t)ᵀ) (by simpa [sub_eq_add_neg] using this) ?_
      rw [Matrix.mul_assoc, hR₀.1, Matrix.mul_one]
    intro k
    fin_cases k
    · simpa [vee, crossMx] using hd 2 1
    · simpa [vee, crossMx] using hd 0 2
    · simpa [vee, crossMx] using hd 1 0
  have h6 : VDeriv (fun s => S⁻¹ *ᵥ vee ((f s - f t) * (f t)ᵀ)) (-(S⁻¹ *ᵥ φ)) t := by
    intro k
    have := HasDerivAt.fun_sum (u := Finset.univ) fun j _ => (h5 j).const_mul (S⁻¹ k j)
    refine this.congr_deriv ?_
    simp [mulVec, dotProduct]
  have h7 : (fun s => S⁻¹ *ᵥ vee ((f s - f t) * (f t)ᵀ) + (s - t) • (S⁻¹ *ᵥ φ)) =o[𝓝 t] fun s => s - t := by
    rw [isLittleO_pi]
    intro k
    have := (h6 k).isLittleO
    refine this.congr_left fun s => ?_
    have e : S⁻¹ *ᵥ vee ((f t - f t) * (f t)ᵀ) = 0 := by
      have : vee ((f t - f t) * (f t)ᵀ) = 0 := by
        funext k
        fin_cases k <;> simp [vee]
      rw [this, mulVec_zero]
    have e' := congrFun e k
    simp only [Pi.zero_apply] at e'
    simp only [e', Pi.add_apply, Pi.smul_apply, Pi.neg_apply, smul_eq_mul]
    ring
  have h8 : (fun s => rk.par (f s) - p₀) =O[𝓝 t] fun s => s - t := by
    have a := h4.right_isBigO_sub
    have b : (fun s => S⁻¹ *ᵥ vee ((f s - f t) * (f t)ᵀ)) =O[𝓝 t] fun s => s - t := by
      have c : (fun s => (s - t) • (S⁻¹ *ᵥ φ)) =O[𝓝 t] fun s => s - t := by
        rw [isBigO_pi]
        intro k
        simpa [mul_comm] using (isBigO_refl (fun s : ℝ => s - t) (𝓝 t)).const_mul_left ((S⁻¹ *ᵥ φ) k)
      exact (h7.isBigO.sub c).congr_left fun s => by simp
    refine a.trans (b.neg_left.congr_left fun s => ?_)
    simp
  have h9 : (fun s => rk.par (f s) - p₀ - (s - t) • (S⁻¹ *ᵥ φ)) =o[𝓝 t] fun s => s - t :=
    ((h4.trans_isBigO h8).sub h7).congr_left fun s => by
      funext k
      simp
  intro k
  rw [isLittleO_pi] at h9
  exact .of_isLittleO ((h9 k).congr_left fun s => by simp [hp₀])

variable {invS : V3 × ℝ → Matrix (Fin 3 ⊕ Unit) (Fin 3) ℝ} {c : ℝ → Env} {t : ℝ} {δ : (v : Var) → v.Idx → ℝ} {tbl : Table}

/-- The Jacobians of the parameters of a rotation expression exist after an evaluation (whatever the members of the nodes were before) and, summed over the design variables with
their velocities, give `A` times the velocity of the parameters, which are differentiable. The full claim has every rotation. Missing: rotations at which the parameters are singular
(`C134_gimbal_lock_counterexample`) or jump. -/
theorem C134_derivative_partial (hm : Moves invS c t δ) (e : Node .R) (hc : Cons tbl e) (hs : Smooth c t e) {R : M3} (hv : val (c t) e = .ok R) (rk : Rk) (hk : rk.Chart R)
    (hS : (rk.S (rk.par R)).det ≠ 0) {m : Nat} (A : Matrix (Fin m) (Fin 3) ℝ) (σ : Store) :
    ∃ n, Handle.toParameters rk (some e) = .ok n ∧ ∃ p d L σ', (∀ᶠ s in 𝓝 t, n.val (c s) = .ok (p s)) ∧ p t = rk.par R ∧ VDeriv p d t ∧
      n.jac invS (c t) A (n.upd (c t) σ) = .ok (L, σ') ∧ total δ L = A *ᵥ d := by
  obtain ⟨f, d, L, σ', h1, h2, h3, h4⟩ := C59_first_order hm e hc hs hv (A * (rk.S (rk.par R))⁻¹ : Matrix (Fin m) (Fin 3) ℝ) (upd (c t) e σ)
  have hft : f t = R := by
    have := h1.self_of_nhds
    rw [hv] at this
    exact (Res.ok.inj this).symm
  subst hft
  refine ⟨⟨e, rk⟩, rfl, fun s => rk.par (f s), (rk.S (rk.par (f t)))⁻¹ *ᵥ d, L, σ', h1.mono fun s hs => ?_, rfl, hk.curve hS h2.1 h2.2, ?_, ?_⟩
  · simp only [ParNode.val, hs, Res.bind_ok]
  · simp only [ParNode.jac, ParNode.upd, hv, Res.bind_ok, if_neg hS]
    exact h3
  · rw [h4, mulVec_mulVec]

/-- The reported design variables are those of the rotation; without a rotation nothing can be done. -/
theorem C134_variables (rk : Rk) (e : Node .R) : (∃ n, Handle.toParameters rk (some e) = .ok n ∧ ∀ env, n.dvs env = dvs env e) ∧ Handle.toParameters rk none = .ub :=
  ⟨⟨_, rfl, fun _ => rfl⟩, rfl⟩

/-! ### Gimbal lock -/

/-- Yaw, pitch and roll. -/
noncomputable def ypr (p : V3) : M3 := axisRot 2 (p 0) * axisRot 1 (p 1) * axisRot 0 (p 2)

theorem ypr_isRot (p : V3) : IsRot (ypr p) := ((axisRot_isRot _ _).mul (axisRot_isRot _ _)).mul (axisRot_isRot _ _)

/-- At pitch 90° equal changes of yaw and roll cancel. -/
theorem ypr_lock {p : V3} (h : p 1 = Real.pi / 2) (s : ℝ) : ypr (p + s • ![1, 0, 1]) = ypr p := by
  have a := Real.sin_sq_add_cos_sq s
  ext i j
  fin_cases i <;> fin_cases j <;> simp [ypr, axisRot, Matrix.mul_apply, Fin.sum_univ_three, h, Real.sin_add, Real.cos_add] <;>
    first | ring1 | linear_combination (Real.sin (p 2) * Real.cos (p 0) - Real.cos (p 2) * Real.sin (p 0)) * a | linear_combination (Real.sin (p 2) * Real.sin (p 0) + Real.cos (p 2) * Real.cos (p 0)) * a |
      linear_combination -(Real.sin (p 2) * Real.cos (p 0) - Real.cos (p 2) * Real.sin (p 0)) * a | linear_combination -(Real.sin (p 2) * Real.sin (p 0) + Real.cos (p 2) * Real.cos (p 0)) * a

/-- The derivative in one direction. -/
theorem Rk.Deriv.direction {rk : Rk} {p₀ : V3} (h : rk.Deriv p₀) (d : V3) (i j : Fin 3) :
    HasDerivAt (fun s : ℝ => rk.mat (p₀ + s • d) i j) (-(crossMx (rk.S p₀ *ᵥ d) * rk.mat p₀) i j) 0 := by
  have hq : Tendsto (fun s : ℝ => p₀ + s • d) (𝓝 0) (𝓝 p₀) := by
    have : Continuous fun s : ℝ => p₀ + s • d := by fun_prop
    simpa using this.tendsto 0
  have h1 := (h i j).comp_tendsto hq
  refine .of_isLittleO ?_
  have h2 : (fun s : ℝ => p₀ + s • d - p₀) =O[𝓝 0] fun s => s - 0 := by
    simp only [add_sub_cancel_left, sub_zero]
    rw [isBigO_pi]
    intro k
    simpa [mul_comm] using (isBigO_refl (fun s : ℝ => s) (𝓝 0)).const_mul_left (d k)
  refine (h1.trans_isBigO h2).congr_left fun s => ?_
  simp only [Function.comp, add_sub_cancel_left, mulVec_smul, zero_smul, add_zero, sub_zero, smul_eq_mul]
  have : crossMx (s • (rk.S p₀ *ᵥ d)) = s • crossMx (rk.S p₀ *ᵥ d) := by
    ext i j
    fin_cases i <;> fin_cases j <;> simp [crossMx]
  rw [this, Matrix.smul_mul]
  simp

/-- Differentiable rotation matrices with the right derivatives in all directions. -/
theorem Rk.deriv_of {rk : Rk} {p₀ : V3} (hd : ∀ i j, DifferentiableAt ℝ (fun p => rk.mat p i j) p₀)
    (h : ∀ (d : V3) i j, HasDerivAt (fun s : ℝ => rk.mat (p₀ + s • d) i j) (-(crossMx (rk.S p₀ *ᵥ d) * rk.mat p₀) i j) 0) : rk.Deriv p₀ := by
  intro i j
  have h1 := (hd i j).hasFDerivAt
  refine h1.isLittleO.congr_left fun p => ?_
  have h2 : fderiv ℝ (fun p => rk.mat p i j) p₀ (p - p₀) = -(crossMx (rk.S p₀ *ᵥ (p - p₀)) * rk.mat p₀) i j := by
    refine HasDerivAt.unique ?_ (h (p - p₀) i j)
    have hl : HasDerivAt (fun s : ℝ => p₀ + s • (p - p₀)) (p - p₀) 0 := by
      simpa using ((hasDerivAt_id (0 : ℝ)).smul_const (p - p₀)).const_add p₀
    have h3 : HasFDerivAt (fun p => rk.mat p i j) (fderiv ℝ (fun p => rk.mat p i j) p₀) (p₀ + (0 : ℝ) • (p - p₀)) := by simpa using h1
    exact h3.comp_hasDerivAt 0 hl
  rw [h2]
  ring

/-- Yaw-pitch-roll angles at pitch 90°, however they are computed: `S` is singular, so the value exists and the Jacobian is not finite. -/
theorem C134_gimbal_lock_counterexample (rk : Rk) (hmat : ∀ p, rk.mat p = ypr p) (e : Node .R) (env : Env) {R : M3} (hv : val env e = .ok R) (hk : rk.Deriv (rk.par R))
    (hlock : rk.par R 1 = Real.pi / 2) (A : M3) (σ : Store) :
    ∃ n, Handle.toParameters rk (some e) = .ok n ∧ n.val env = .ok (rk.par R) ∧ n.jac invS env A σ = .ub := by
  refine ⟨⟨e, rk⟩, rfl, by simp [ParNode.val, hv], ?_⟩
  have hS : (rk.S (rk.par R)).det = 0 := by
    set p₀ := rk.par R with hp₀
    have hconst : ∀ s : ℝ, rk.mat (p₀ + s • ![1, 0, 1]) = rk.mat p₀ := fun s => by
      rw [hmat, hmat]
      exact ypr_lock hlock s
    have hdir := hk.direction ![1, 0, 1]
    have hz : ∀ i j, (crossMx (rk.S p₀ *ᵥ ![1, 0, 1]) * rk.mat p₀) i j = 0 := fun i j => by
      have h1 := hdir i j
      have h2 : HasDerivAt (fun s : ℝ => rk.mat (p₀ + s • ![1, 0, 1]) i j) 0 0 := by
        simp only [hconst]
        exact hasDerivAt_const _ _
      simpa using h1.unique h2
    have hz' : crossMx (rk.S p₀ *ᵥ ![1, 0, 1]) * rk.mat p₀ = 0 := by
      ext i j
      exact hz i j
    have hR₀ : rk.mat p₀ * (rk.mat p₀)ᵀ = 1 := by
      rw [hmat]
      exact (ypr_isRot p₀).1
    have hz2 : crossMx (rk.S p₀ *ᵥ ![1, 0, 1]) = 0 := by
      have := congrArg (· * (rk.mat p₀)ᵀ) hz'
      simpa [Matrix.mul_assoc, hR₀] using this
    have hz3 : rk.S p₀ *ᵥ ![1, 0, 1] = 0 := by
      rw [← vee_crossMx (rk.S p₀ *ᵥ ![1, 0, 1]), hz2]
      funext i
      fin_cases i <;> rfl
    refine exists_mulVec_eq_zero_iff.1 ⟨![1, 0, 1], fun h => ?_, hz3⟩
    simpa using congrFun h 0
  simp [ParNode.jac, hv, hS]

/-! ### An instance -/

/-- Rodrigues parameters. -/
noncomputable def gibbs : Rk where
  mat p := (1 / (1 + (p 0 ^ 2 + p 1 ^ 2 + p 2 ^ 2))) •
    (!![1 + p 0 ^ 2 - p 1 ^ 2 - p 2 ^ 2, 2 * (p 0 * p 1 + p 2), 2 * (p 0 * p 2 - p 1);
      2 * (p 0 * p 1 - p 2), 1 - p 0 ^ 2 + p 1 ^ 2 - p 2 ^ 2, 2 * (p 1 * p 2 + p 0);
      2 * (p 0 * p 2 + p 1), 2 * (p 1 * p 2 - p 0), 1 - p 0 ^ 2 - p 1 ^ 2 + p 2 ^ 2] : M3)
  par R := (1 / (1 + (R 0 0 + R 1 1 + R 2 2))) • ![R 1 2 - R 2 1, R 2 0 - R 0 2, R 0 1 - R 1 0]
  S p := (2 / (1 + (p 0 ^ 2 + p 1 ^ 2 + p 2 ^ 2))) • (1 - crossMx p)

theorem gibbs_pos (p : V3) : 0 < 1 + (p 0 ^ 2 + p 1 ^ 2 + p 2 ^ 2) := by positivity

theorem gibbs_cayley (p : V3) : gibbs.mat p * (1 + crossMx p) = 1 - crossMx p := by
  have := (gibbs_pos p).ne'
  ext i j
  fin_cases i <;> fin_cases j <;> simp [gibbs, crossMx, Matrix.mul_apply, Fin.sum_univ_three, Matrix.one_apply] <;> field_simp <;> ring

theorem gibbs_par_mat (p : V3) : gibbs.par (gibbs.mat p) = p := by
  have h := (gibbs_pos p).ne'
  have h' : 1 + (gibbs.mat p 0 0 + gibbs.mat p 1 1 + gibbs.mat p 2 2) = 4 / (1 + (p 0 ^ 2 + p 1 ^ 2 + p 2 ^ 2)) := by
    simp [gibbs]
    field_simp
    ring
  funext i
  have e : gibbs.par (gibbs.mat p) i = (1 / (1 + (gibbs.mat p 0 0 + gibbs.mat p 1 1 + gibbs.mat p 2 2))) *
      ![gibbs.mat p 1 2 - gibbs.mat p 2 1, gibbs.mat p 2 0 - gibbs.mat p 0 2, gibbs.mat p 0 1 - gibbs.mat p 1 0] i := rfl
  rw [e, h']
  fin_cases i <;> simp [gibbs] <;> field_simp <;> ring

theorem gibbs_S_det (p : V3) : (gibbs.S p).det ≠ 0 := by
  have h := (gibbs_pos p).ne'
  have : (gibbs.S p).det = 8 / (1 + (p 0 ^ 2 + p 1 ^ 2 + p 2 ^ 2)) ^ 2 := by
    rw [det_fin_three]
    simp [gibbs, crossMx, Matrix.one_apply]
    field_simp
    ring
  rw [this]
  positivity

/-- Every rotation by less than 180° has Rodrigues parameters. -/
theorem gibbs_surj {R : M3} (hR : IsRot R) (h : 1 + (R 0 0 + R 1 1 + R 2 2) ≠ 0) : ∃ p, gibbs.mat p = R := by
  have hdet : (1 + R).det ≠ 0 := by
    have ha := hR.adjugate
    rw [Matrix.adjugate_fin_three] at ha
    have e00 := congrFun (congrFun ha 0) 0
    have e11 := congrFun (congrFun ha 1) 1
    have e22 := congrFun (congrFun ha 2) 2
    simp [Matrix.transpose_apply] at e00 e11 e22
    have hd := hR.2
    rw [det_fin_three] at hd
    have : (1 + R).det = 2 * (1 + (R 0 0 + R 1 1 + R 2 2)) := by
      rw [det_fin_three]
      simp [Matrix.one_apply]
      linear_combination hd + e00 + e11 + e22
    rw [this]
    exact mul_ne_zero two_ne_zero h
  have hu : IsUnit (1 + R).det := isUnit_iff_ne_zero.2 hdet
  set K := (1 + R)⁻¹ * (1 - R) with hK
  have hKe : (1 + R) * K = 1 - R := by rw [hK, ← Matrix.mul_assoc, mul_nonsing_inv _ hu, Matrix.one_mul]
  have hcomm : (1 - R) * (1 + R) = (1 + R) * (1 - R) := by noncomm_ring
  have hKe' : K * (1 + R) = 1 - R := by
    rw [hK, Matrix.mul_assoc, hcomm, ← Matrix.mul_assoc, nonsing_inv_mul _ hu, Matrix.one_mul]
  -- antisymmetric
  have hanti : Kᵀ = -K := by
    have h1 : (1 + Rᵀ) * Kᵀ = 1 - Rᵀ := by
      have := congrArg Matrix.transpose hKe'
      simpa [Matrix.transpose_mul] using this
    have h2 : (1 + R) * Kᵀ = R - 1 := by
      have : R * ((1 + Rᵀ) * Kᵀ) = R * (1 - Rᵀ) := by rw [h1]
      rw [← Matrix.mul_assoc, Matrix.mul_add, Matrix.mul_sub, hR.1, Matrix.mul_one] at this
      rw [← this, add_comm]
    have h3 : (1 + R) * (Kᵀ + K) = 0 := by rw [Matrix.mul_add, h2, hKe]; abel
    have h4 : Kᵀ + K = 0 := by
      have := congrArg ((1 + R)⁻¹ * ·) h3
      simpa [← Matrix.mul_assoc, nonsing_inv_mul _ hu] using this
    exact eq_neg_of_add_eq_zero_left h4
  have hcr : crossMx (vee K) = K := by
    have e := fun i j => congrFun (congrFun hanti i) j
    ext i j
    have e1 := e i j
    have e00 := e 0 0; have e11 := e 1 1; have e22 := e 2 2; have e01 := e 0 1; have e02 := e 0 2; have e12 := e 1 2
    simp only [Matrix.transpose_apply, Matrix.neg_apply] at e1 e00 e11 e22 e01 e02 e12
    fin_cases i <;> fin_cases j <;> simp [crossMx, vee] <;> linarith
  refine ⟨vee K, ?_⟩
  have h1 := gibbs_cayley (vee K)
  rw [hcr] at h1
  have h2 : R * (1 + K) = 1 - K := by
    have : K + R * K = 1 - R := by rw [← hKe, Matrix.add_mul, Matrix.one_mul]
    rw [Matrix.mul_add, Matrix.mul_one]
    have h5 : R * K = 1 - R - K := by rw [← this]; abel
    rw [h5]
    abel
  have hdet' : (1 + K).det ≠ 0 := by
    rw [← hcr]
    have : (1 + crossMx (vee K)).det = 1 + (vee K 0 ^ 2 + vee K 1 ^ 2 + vee K 2 ^ 2) := by
      rw [det_fin_three]
      simp [crossMx, Matrix.one_apply]
      ring
    rw [this]
    exact (gibbs_pos _).ne'
  have h6 : (gibbs.mat (vee K) - R) * (1 + K) = 0 := by rw [Matrix.sub_mul, h1, h2, sub_self]
  have h7 := congrArg (· * (1 + K)⁻¹) h6
  simp only [Matrix.mul_assoc, mul_nonsing_inv _ (isUnit_iff_ne_zero.2 hdet'), Matrix.mul_one, Matrix.zero_mul] at h7
  exact sub_eq_zero.1 h7

theorem gibbs_deriv (p₀ : V3) : gibbs.Deriv p₀ := by
  refine Rk.deriv_of (fun i j => ?_) fun d i j => ?_
  · have h : ∀ p : V3, 1 + (p 0 ^ 2 + p 1 ^ 2 + p 2 ^ 2) ≠ 0 := fun p => (gibbs_pos p).ne'
    have h0 := h p₀
    fin_cases i <;> fin_cases j <;> simp [gibbs] <;> fun_prop (disch := assumption)
  · have h0 := (gibbs_pos p₀).ne'
    have hp : ∀ k, HasDerivAt (fun s : ℝ => p₀ k + s * d k) (d k) 0 := fun k => by
      simpa using ((hasDerivAt_id (0 : ℝ)).mul_const (d k)).const_add (p₀ k)
    have hn : HasDerivAt (fun s : ℝ => 1 + ((p₀ 0 + s * d 0) ^ 2 + (p₀ 1 + s * d 1) ^ 2 + (p₀ 2 + s * d 2) ^ 2)) (2 * (p₀ 0 * d 0 + p₀ 1 * d 1 + p₀ 2 * d 2)) 0 := by
      refine ((((hp 0).pow 2).add ((hp 1).pow 2)).add ((hp 2).pow 2) |>.const_add 1).congr_deriv ?_
      simp
      ring
    have hinv := hn.inv (by simpa using h0)
    have sq := fun k => (hp k).pow 2
    fin_cases i <;> fin_cases j
    · refine ((hinv.mul ((((hasDerivAt_const (0 : ℝ) (1 : ℝ)).add (sq 0)).sub (sq 1)).sub (sq 2))).congr_of_eventuallyEq (.of_forall fun s => ?_)).congr_deriv ?_
      · simp [gibbs]
      · simp [gibbs, crossMx, Matrix.mul_apply, Fin.sum_univ_three, mulVec, dotProduct]
        field_simp
        ring
    · refine ((hinv.mul ((((hp 0).mul (hp 1)).add (hp 2)).const_mul 2)).congr_of_eventuallyEq (.of_forall fun s => ?_)).congr_deriv ?_
      · simp [gibbs]
      · simp [gibbs, crossMx, Matrix.mul_apply, Fin.sum_univ_three, mulVec, dotProduct]
        field_simp
        ring
    · refine ((hinv.mul ((((hp 0).mul (hp 2)).sub (hp 1)).const_mul 2)).congr_of_eventuallyEq (.of_forall fun s => ?_)).congr_deriv ?_
      · simp [gibbs]
      · simp [gibbs, crossMx, Matrix.mul_apply, Fin.sum_univ_three, mulVec, dotProduct]
        field_simp
        ring
    · refine ((hinv.mul ((((hp 0).mul (hp 1)).sub (hp 2)).const_mul 2)).congr_of_eventuallyEq (.of_forall fun s => ?_)).congr_deriv ?_
      · simp [gibbs]
      · simp [gibbs, crossMx, Matrix.mul_apply, Fin.sum_univ_three, mulVec, dotProduct]
        field_simp
        ring
    · refine ((hinv.mul ((((hasDerivAt_const (0 : ℝ) (1 : ℝ)).sub (sq 0)).add (sq 1)).sub (sq 2))).congr_of_eventuallyEq (.of_forall fun s => ?_)).congr_deriv ?_
      · simp [gibbs]
      · simp [gibbs, crossMx, Matrix.mul_apply, Fin.sum_univ_three, mulVec, dotProduct]
        field_simp
        ring
    · refine ((hinv.mul ((((hp 1).mul (hp 2)).add (hp 0)).const_mul 2)).congr_of_eventuallyEq (.of_forall fun s => ?_)).congr_deriv ?_
      · simp [gibbs]
      · simp [gibbs, crossMx, Matrix.mul_apply, Fin.sum_univ_three, mulVec, dotProduct]
        field_simp
        ring
    · refine ((hinv.mul ((((hp 0).mul (hp 2)).add (hp 1)).const_mul 2)).congr_of_eventuallyEq (.of_forall fun s => ?_)).congr_deriv ?_
      · simp [gibbs]
      · simp [gibbs, crossMx, Matrix.mul_apply, Fin.sum_univ_three, mulVec, dotProduct]
        field_simp
        ring
    · refine ((hinv.mul ((((hp 1).mul (hp 2)).sub (hp 0)).const_mul 2)).congr_of_eventuallyEq (.of_forall fun s => ?_)).congr_deriv ?_
      · simp [gibbs]
      · simp [gibbs, crossMx, Matrix.mul_apply, Fin.sum_univ_three, mulVec, dotProduct]
        field_simp
        ring
    · refine ((hinv.mul ((((hasDerivAt_const (0 : ℝ) (1 : ℝ)).sub (sq 0)).sub (sq 1)).add (sq 2))).congr_of_eventuallyEq (.of_forall fun s => ?_)).congr_deriv ?_
      · simp [gibbs]
      · simp [gibbs, crossMx, Matrix.mul_apply, Fin.sum_univ_three, mulVec, dotProduct]
        field_simp
        ring

/-- Rodrigues parameters keep the promises at every rotation by less than 180°. -/
theorem gibbs_chart {R : M3} (h : 1 + (R 0 0 + R 1 1 + R 2 2) ≠ 0) : gibbs.Chart R := by
  have hc : Continuous fun R : M3 => 1 + (R 0 0 + R 1 1 + R 2 2) := by fun_prop
  refine ⟨?_, ?_, gibbs_deriv _⟩
  · filter_upwards [hc.continuousAt.eventually_ne h] with Q hQ hrot
    obtain ⟨p, rfl⟩ := gibbs_surj hrot hQ
    rw [gibbs_par_mat]
  · refine Tendsto.mono_left ?_ nhdsWithin_le_nhds
    have : ContinuousAt gibbs.par R := by
      unfold gibbs
      refine ContinuousAt.smul (ContinuousAt.div continuousAt_const hc.continuousAt h) ?_
      refine continuousAt_pi.2 fun i => ?_
      fin_cases i <;> simp <;> fun_prop
    exact this

/-- With Rodrigues parameters the claim holds at every rotation by less than 180°. -/
theorem C134_rodrigues (hm : Moves invS c t δ) (e : Node .R) (hc : Cons tbl e) (hs : Smooth c t e) {R : M3} (hv : val (c t) e = .ok R) (hR : -1 < R.trace)
    {m : Nat} (A : Matrix (Fin m) (Fin 3) ℝ) (σ : Store) :
    ∃ n, Handle.toParameters gibbs (some e) = .ok n ∧ ∃ p d L σ', (∀ᶠ s in 𝓝 t, n.val (c s) = .ok (p s)) ∧ gibbs.mat (p t) = R ∧ VDeriv p d t ∧
      n.jac invS (c t) A (n.upd (c t) σ) = .ok (L, σ') ∧ total δ L = A *ᵥ d := by
  have h : 1 + (R 0 0 + R 1 1 + R 2 2) ≠ 0 := by
    have : R.trace = R 0 0 + R 1 1 + R 2 2 := Matrix.trace_fin_three R
    linarith
  obtain ⟨f, _, _, _, h1, h2, -, -⟩ := C59_first_order hm e hc hs hv (1 : M3) σ
  have hrot : IsRot R := by
    have q := h1.self_of_nhds
    rw [hv] at q
    rw [Res.ok.inj q]
    exact h2.2.self_of_nhds
  obtain ⟨n, g1, p, d, L, σ', g2, g3, g4⟩ := C134_derivative_partial hm e hc hs hv gibbs (gibbs_chart h) (gibbs_S_det _) A σ
  exact ⟨n, g1, p, d, L, σ', g2, by rw [g3]; exact (gibbs_chart h).back.self_of_nhds hrot, g4⟩

example : ∃ n, Handle.toParameters gibbs (some (.rmul 5 (.rvar 0) (.raxis 1 (.svar 0)))) = .ok n ∧ ∃ p d L σ', (∀ᶠ s in 𝓝 (0 : ℝ), n.val (exC s) = .ok (p s)) ∧
    gibbs.mat (p 0) = axisRot 2 0 * axisRot 1 0 ∧ VDeriv p d 0 ∧ n.jac invS (exC 0) (1 : M3) (n.upd (exC 0) fun _ => none) = .ok (L, σ') ∧ total exD L = (1 : M3) *ᵥ d :=
  C134_rodrigues (tbl := fun _ => ⟨_, .rmul 5 (.rvar 0) (.raxis 1 (.svar 0))⟩) (exMoves invS 0) _ (by simp [Cons]) (by simp [Smooth]) (by simp [val, exC])
    (by rw [Matrix.trace_fin_three]; simp [axisRot, Matrix.mul_apply, Fin.sum_univ_three]; norm_num) _ _

/-- Yaw, pitch and roll with their `S`. -/
noncomputable def yprRk : Rk where
  mat := ypr
  par R := ![Complex.arg ⟨R 0 0, R 1 0⟩, Real.arcsin (-R 2 0), Complex.arg ⟨R 2 2, R 2 1⟩]
  S p := !![0, Real.sin (p 0), -(Real.cos (p 0) * Real.cos (p 1)); 0, -Real.cos (p 0), -(Real.sin (p 0) * Real.cos (p 1)); -1, 0, Real.sin (p 1)]

theorem rot_mul_deriv {f g : ℝ → M3} {d k : V3} (hf : MDeriv f (-(crossMx d * f t)) t) (hg : MDeriv g (-(crossMx k * g t)) t) (hr : IsRot (f t)) :
    MDeriv (fun s => f s * g s) (-(crossMx (f t *ᵥ k + d) * (f t * g t))) t := by
  refine (MDeriv.mul hf hg).congr ?_
  have := hr.crossMx k
  rw [crossMx_add, Matrix.add_mul, ← Matrix.mul_assoc, this]
  simp only [Matrix.neg_mul, Matrix.mul_neg, Matrix.mul_assoc, neg_add]
  abel

theorem yprRk_deriv (p₀ : V3) : yprRk.Deriv p₀ := by
  refine Rk.deriv_of (fun i j => ?_) fun d => ?_
  · fin_cases i <;> fin_cases j <;> simp [yprRk, ypr, axisRot, Matrix.mul_apply, Fin.sum_univ_three] <;> fun_prop
  · have hp : ∀ k, HasDerivAt (fun s : ℝ => p₀ k + s * d k) (d k) 0 := fun k => by
      simpa using ((hasDerivAt_id (0 : ℝ)).mul_const (d k)).const_add (p₀ k)
    have h := rot_mul_deriv (rot_mul_deriv (axisRot_deriv 2 (hp 0)) (axisRot_deriv 1 (hp 1)) (axisRot_isRot _ _)) (axisRot_deriv 0 (hp 2)) ((axisRot_isRot _ _).mul (axisRot_isRot _ _))
    intro i j
    refine ((h i j).congr_of_eventuallyEq (.of_forall fun s => ?_)).congr_deriv ?_
    · simp [yprRk, ypr]
    · have e : (axisRot 2 (p₀ 0 + 0 * d 0) * axisRot 1 (p₀ 1 + 0 * d 1)) *ᵥ (-colUnit 0 *ᵥ fun _ : Unit => d 2) + (axisRot 2 (p₀ 0 + 0 * d 0) *ᵥ (-colUnit 1 *ᵥ fun _ : Unit => d 1) +
          -colUnit 2 *ᵥ fun _ : Unit => d 0) = yprRk.S p₀ *ᵥ d := by
        funext k
        simp only [zero_mul, add_zero, Matrix.neg_mulVec, colUnit, colM_mulVec]
        fin_cases k <;> simp [yprRk, axisRot, Matrix.mul_apply, Fin.sum_univ_three, mulVec, dotProduct] <;> ring
      rw [e]
      simp [yprRk, ypr]

/-- Straight down. -/
example : ∃ n, Handle.toParameters yprRk (some (.raxis 1 (.svar 0))) = .ok n ∧ n.val (exC (Real.pi / 2)) = .ok (yprRk.par (axisRot 1 (Real.pi / 2))) ∧
    n.jac invS (exC (Real.pi / 2)) (1 : M3) (fun _ => none) = .ub :=
  C134_gimbal_lock_counterexample yprRk (fun _ => rfl) _ _ (by simp [val, exC]) (yprRk_deriv _) (by simp [yprRk, axisRot]) _ _

end Verif.Expr
