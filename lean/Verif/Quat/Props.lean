import Verif.Quat.Deriv

/-!
C64: the quaternion calculator.
-/
namespace Verif.Quat
open Quaternion Matrix Verif.Geo

section Ring
variable {R : Type} [Field R] (m : Mode)

/-- In every mode the product is the product of the quaternions, in the order the mode asks for; also if one factor is given by its
imaginary part only. -/
theorem C64_product (a b : Q4 R) (u v : Fin 3 → R) :
    toH m (mult m a b) = (if m.trad then toH m a * toH m b else toH m b * toH m a) ∧
    toH m (multPL m u b) = (if m.trad then pure u * toH m b else toH m b * pure u) ∧
    toH m (multPR m a v) = (if m.trad then toH m a * pure v else pure v * toH m a) :=
  ⟨toH_mult m a b, toH_multPL m u b, toH_multPR m a v⟩

/-- `i j = k` in the traditional and `i j = -k` in the opposite order. -/
example : mult ⟨false, true⟩ ![(1 : ℚ), 0, 0, 0] ![0, 1, 0, 0] = ![0, 0, 1, 0] ∧
    mult ⟨true, false⟩ ![(0 : ℚ), 1, 0, 0] ![0, 0, 1, 0] = ![0, 0, 0, -1] := by
  constructor <;> simp [mult, multTrad, mk, Mode.ri, Mode.ii, Mode.ji, Mode.ki]

/-- Products are associative. -/
theorem C64_associative (a b c : Q4 R) : mult m (mult m a b) c = mult m a (mult m b c) :=
  toH_injective m (by simp only [toH_mult, prod_assoc])

/-- The identity is neutral. -/
theorem C64_identity (a : Q4 R) : mult m (identity m) a = a ∧ mult m a (identity m) = a := by
  constructor <;> refine toH_injective m ?_ <;> rw [toH_mult, toH_identity] <;> unfold prod <;> split <;> simp

/-- The squared length of a product is the product of the squared lengths. -/
theorem C64_norm (a b : Q4 R) : dot4 (mult m a b) (mult m a b) = dot4 a a * dot4 b b := by
  rw [dot4_eq m, dot4_eq m, dot4_eq m, toH_mult, normSq_prod]

/-- A quaternion times its conjugate, on either side, is its squared length. -/
theorem C64_conjugate (a : Q4 R) : mult m a (conjugate m a) = dot4 a a • identity m ∧ mult m (conjugate m a) a = dot4 a a • identity m := by
  constructor <;> refine toH_injective m ?_ <;> rw [toH_mult, toH_conjugate, toH_smul, toH_identity, dot4_eq m, Quaternion.normSq_def'] <;>
    unfold prod <;> split <;> ext <;> simp <;> ring

theorem invert_eq (a : Q4 R) : invert m a = (dot4 a a)⁻¹ • conjugate m a := by
  have e : dot4 (conjugate m a) (conjugate m a) = dot4 a a := by rw [dot4_eq m, dot4_eq m, toH_conjugate, Quaternion.normSq_star]
  funext k
  simp only [invert, e, Pi.smul_apply, smul_eq_mul]
  ring

/-- The inverse is a two-sided inverse. -/
theorem C64_inverse (a : Q4 R) (h : dot4 a a ≠ 0) : mult m a (invert m a) = identity m ∧ mult m (invert m a) a = identity m := by
  have key : ∀ x : R, x • toH m a = toH m (x • a) := fun x => (toH_smul m x a).symm
  obtain ⟨h1, h2⟩ := C64_conjugate m a
  have h1' := congrArg (toH m) h1
  have h2' := congrArg (toH m) h2
  rw [toH_mult, toH_smul, toH_identity] at h1' h2'
  constructor <;> refine toH_injective m ?_ <;> rw [invert_eq, toH_mult, toH_smul, toH_identity]
  · have : prod m (toH m a) ((dot4 a a)⁻¹ • toH m (conjugate m a)) = (dot4 a a)⁻¹ • prod m (toH m a) (toH m (conjugate m a)) := by
      unfold prod; split <;> simp
    rw [this, h1', smul_smul, inv_mul_cancel₀ h, one_smul]
  · have : prod m ((dot4 a a)⁻¹ • toH m (conjugate m a)) (toH m a) = (dot4 a a)⁻¹ • prod m (toH m (conjugate m a)) (toH m a) := by
      unfold prod; split <;> simp
    rw [this, h2', smul_smul, inv_mul_cancel₀ h, one_smul]

/-- For unit quaternions the conjugate, which `UnitQuaternionExpression::inverse` returns, is the inverse. -/
theorem C64_unit_inverse (a : Q4 R) (h : dot4 a a = 1) : conjugate m a = invert m a := by
  rw [invert_eq, h, inv_one, one_smul]

example : ∃ a : Q4 ℚ, dot4 a a = 1 ∧ a ≠ identity ⟨true, true⟩ := ⟨![3/5, 4/5, 0, 0], by decide +kernel, by
  intro h; have := congrFun h 0; norm_num [identity] at this⟩

/-- Conversion between modes keeps the quaternion, and back again; it respects products up to their order. -/
theorem C64_modes (m' : Mode) (a b : Q4 R) :
    toH m' (convert m m' a) = toH m a ∧ convert m' m (convert m m' a) = a ∧
    convert m m' (mult m a b) = if m.trad = m'.trad then mult m' (convert m m' a) (convert m m' b)
      else mult m' (convert m m' b) (convert m m' a) := by
  refine ⟨toH_convert m m' a, toH_injective m ?_, toH_injective m' ?_⟩
  · rw [toH_convert, toH_convert]
  · rw [toH_convert, toH_mult]
    split
    · next h => rw [toH_mult, toH_convert, toH_convert, prod, prod, h]
    · next h =>
      rw [toH_mult, toH_convert, toH_convert, prod, prod]
      cases h1 : m.trad <;> cases h2 : m'.trad <;> simp_all

/-- Rotating vectors: the imaginary part that is returned is all of `q v q̄`. -/
theorem C64_rotate (q : Q4 R) (v : Fin 3 → R) :
    pure (rotate m q v) = if m.trad then toH m q * pure v * star (toH m q) else star (toH m q) * (pure v * toH m q) := by
  rw [toH_rotate]
  unfold prod
  split <;> rfl

/-- Rotations compose. -/
theorem C64_rotate_compose (p q : Q4 R) (v : Fin 3 → R) : rotate m (mult m p q) v = rotate m p (rotate m q v) := by
  refine pure_injective ?_
  rw [toH_rotate, toH_rotate, toH_rotate, toH_mult, star_prod]
  simp only [prod_assoc]

/-- Unit quaternions preserve length ... -/
theorem C64_rotate_length (q : Q4 R) (v : Fin 3 → R) (h : dot4 q q = 1) :
    (let w := rotate m q v; w 0 * w 0 + w 1 * w 1 + w 2 * w 2) = v 0 * v 0 + v 1 * v 1 + v 2 * v 2 := by
  rw [dot4_eq m] at h
  show rotate m q v 0 * _ + _ + _ = _
  rw [← normSq_pure, toH_rotate, normSq_prod, normSq_prod, Quaternion.normSq_star, h, normSq_pure]
  ring

/-- ... and orientation: cross products are rotated to cross products. -/
theorem C64_rotate_cross (h2 : (2 : R) ≠ 0) (q : Q4 R) (v w : Fin 3 → R) (h : dot4 q q = 1) :
    rotate m q (v ⨯₃ w) = rotate m q v ⨯₃ rotate m q w := by
  have cr : ∀ a b : Fin 3 → R, pure (a ⨯₃ b) = (2 : R)⁻¹ • (pure a * pure b - pure b * pure a) := by
    intro a b
    ext <;> simp [pure, cross_apply, mul_comm]
    all_goals field_simp
    all_goals ring
  have hq : star (toH m q) * toH m q = 1 ∧ toH m q * star (toH m q) = 1 := by
    rw [dot4_eq m] at h
    rw [Quaternion.star_mul_self, Quaternion.self_mul_star, h]
    simp
  refine pure_injective ?_
  rw [toH_rotate, cr, cr, toH_rotate, toH_rotate]
  unfold prod
  split
  · have e : ∀ x y : Quaternion R, toH m q * x * star (toH m q) * (toH m q * y * star (toH m q)) = toH m q * (x * y) * star (toH m q) := by
      intro x y
      calc _ = toH m q * x * (star (toH m q) * toH m q) * y * star (toH m q) := by simp only [mul_assoc]
        _ = _ := by rw [hq.1]; simp only [mul_assoc, one_mul, mul_one]
    rw [e, e]
    simp only [mul_smul_comm, smul_mul_assoc, mul_sub, sub_mul]
  · have e : ∀ x y : Quaternion R, star (toH m q) * (x * toH m q) * (star (toH m q) * (y * toH m q)) = star (toH m q) * ((x * y) * toH m q) := by
      intro x y
      calc _ = star (toH m q) * x * (toH m q * star (toH m q)) * y * toH m q := by simp only [mul_assoc]
        _ = _ := by rw [hq.2]; simp only [mul_assoc, one_mul, mul_one]
    rw [e, e]
    simp only [mul_smul_comm, smul_mul_assoc, mul_sub, sub_mul]

/-- A rotation by 90 degrees about z, up to the scale of the quaternion `(0, 0, 4/5, 3/5)`. -/
example : rotate ⟨false, true⟩ ![0, 0, (4 : ℚ) / 5, 3 / 5] ![1, 0, 0] = ![-7 / 25, 24 / 25, 0] ∧
    rotate ⟨false, false⟩ ![0, 0, (4 : ℚ) / 5, 3 / 5] ![1, 0, 0] = ![-7 / 25, -24 / 25, 0] := by
  decide +kernel

end Ring

variable (m : Mode)

/-- The differentials of product, conjugate, inverse and rotation are the derivatives along every curve. -/
theorem C64_derivatives {f g : ℝ → Q4 ℝ} {f' g' : Q4 ℝ} {v : ℝ → Fin 3 → ℝ} {v' : Fin 3 → ℝ} {t : ℝ}
    (hf : VDeriv f f' t) (hg : VDeriv g g' t) (hv : VDeriv v v' t) :
    VDeriv (fun s => mult m (f s) (g s)) (mult m f' (g t) + mult m (f t) g') t ∧
    VDeriv (fun s => conjugate m (f s)) (conjugate m f') t ∧
    (dot4 (f t) (f t) ≠ 0 → VDeriv (fun s => invert m (f s)) (invertDiff m (f t) f') t) ∧
    VDeriv (fun s => rotate m (f s) (v s)) (rotateDiffL m (f t) (v t) f' + rotateDiffR m (f t) v') t :=
  ⟨deriv_mult m hf hg, deriv_conjugate m hf, deriv_invert m hf, deriv_rotate m hf hv⟩

example : ∃ (f : ℝ → Q4 ℝ) (f' : Q4 ℝ), f' ≠ 0 ∧ VDeriv f f' 1 ∧ dot4 (f 1) (f 1) ≠ 0 :=
  ⟨fun s => ![s, 0, 0, 1], ![1, 0, 0, 0], fun h => by simpa using congrFun h 0, fun k => by
    fin_cases k
    · exact hasDerivAt_id 1
    · exact hasDerivAt_const _ _
    · exact hasDerivAt_const _ _
    · exact hasDerivAt_const _ _, by simp [dot4]⟩

/-- Updates keep unit quaternions unit quaternions and a zero step changes nothing. -/
theorem C64_update (g : Geometry) (p : Q4 ℝ) (v : Fin 3 → ℝ) (h : dot4 p p = 1) :
    dot4 (update m g p v) (update m g p v) = 1 ∧ update m g p 0 = p := by
  cases g
  · exact ⟨by rw [update, C64_norm, h, exp_unit, one_mul], by rw [update, exp_zero, (C64_identity m p).2]⟩
  · exact ⟨by rw [update, C64_norm, h, exp_unit, one_mul], by rw [update, exp_zero, (C64_identity m p).1]⟩

/-- The matrix of `dUpdate` applied to a step. -/
theorem dUpdate_mulVec (g : Geometry) (p : Q4 ℝ) (v : Fin 3 → ℝ) : dUpdate m g p *ᵥ v =
    match g with | .left => mult m p (mk m (v 0) (v 1) (v 2) 0) | .right => mult m (mk m (v 0) (v 1) (v 2) 0) p := by
  funext k
  cases hm : m.realFirst <;> cases ht : m.trad <;> cases g <;> fin_cases k <;>
    simp [dUpdate, convert, mk, hm, ht, quatPlus, quatOPlus, mult, multTrad, Mode.ri, Mode.ii, Mode.ji, Mode.ki, Matrix.mulVec, dotProduct,
      Fin.sum_univ_three] <;> ring

/-- `dUpdate` is the derivative of the update at a zero step. -/
theorem C64_update_derivative (g : Geometry) (p : Q4 ℝ) (v : Fin 3 → ℝ) :
    VDeriv (fun ε => update m g p (fun k => ε * v k)) (dUpdate m g p *ᵥ v) 0 := by
  have h0 : exp m (fun k => 0 * v k) = identity m := by
    have : (fun k => 0 * v k) = 0 := funext fun k => zero_mul _
    rw [this, exp_zero]
  have z : ∀ a : Q4 ℝ, mult m 0 a = 0 ∧ mult m a 0 = 0 := by
    intro a
    constructor <;> refine toH_injective m ?_ <;> rw [toH_mult] <;> have : toH m (0 : Q4 ℝ) = 0 := by ext <;> simp [toH]
    all_goals rw [this]; unfold prod; split <;> simp
  rw [dUpdate_mulVec]
  cases g
  · exact (deriv_mult m (VDeriv.const p) (exp_deriv m v)).congr (by rw [(z _).1, zero_add])
  · exact (deriv_mult m (exp_deriv m v) (VDeriv.const p)).congr (by rw [(z _).2, add_zero])

/-- A step about z from the identity. -/
example : dUpdate ⟨false, true⟩ .right (identity ⟨false, true⟩) *ᵥ ![0, 0, (1 : ℝ)] = ![0, 0, 1, 0] := by
  funext k
  fin_cases k <;> simp [dUpdate, convert, quatPlus, quatOPlus, identity, Matrix.mulVec, dotProduct, Fin.sum_univ_three]

end Verif.Quat
