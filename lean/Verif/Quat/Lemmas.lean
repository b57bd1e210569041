import Verif.Quat.Spec

namespace Verif.Quat
open Quaternion Matrix Verif.Geo

section Ring
variable {R : Type} [Field R] (m : Mode)

theorem toH_mk (i j k r : R) : toH m (mk m i j k r) = h4 r i j k := by
  cases hm : m.realFirst <;> simp [toH, mk, Mode.ri, Mode.ii, Mode.ji, Mode.ki, hm]

theorem toH_multTrad (a b : Q4 R) : toH m (multTrad m a b) = toH m a * toH m b := by
  rw [multTrad, toH_mk]
  ext <;> simp [toH] <;> ring

theorem toH_multTradPL (a : Fin 3 → R) (b : Q4 R) : toH m (multTradPL m a b) = pure a * toH m b := by
  rw [multTradPL, toH_mk]
  ext <;> simp [toH, pure] <;> ring

theorem toH_multTradPR (a : Q4 R) (b : Fin 3 → R) : toH m (multTradPR m a b) = toH m a * pure b := by
  rw [multTradPR, toH_mk]
  ext <;> simp [toH, pure] <;> ring

theorem toH_mult (a b : Q4 R) : toH m (mult m a b) = prod m (toH m a) (toH m b) := by
  unfold mult prod
  split <;> exact toH_multTrad ..

theorem toH_multPL (a : Fin 3 → R) (b : Q4 R) : toH m (multPL m a b) = prod m (pure a) (toH m b) := by
  unfold multPL prod
  split
  · exact toH_multTradPL ..
  · exact toH_multTradPR ..

theorem toH_multPR (a : Q4 R) (b : Fin 3 → R) : toH m (multPR m a b) = prod m (toH m a) (pure b) := by
  unfold multPR prod
  split
  · exact toH_multTradPR ..
  · exact toH_multTradPL ..

theorem toH_conjugate (v : Q4 R) : toH m (conjugate m v) = star (toH m v) := by
  cases hm : m.realFirst <;> ext <;> simp [toH, conjugate, Mode.ri, Mode.ii, Mode.ji, Mode.ki, hm]

theorem toH_identity : toH m (identity m : Q4 R) = 1 := by
  cases hm : m.realFirst <;> ext <;> simp [toH, identity, Mode.ri, Mode.ii, Mode.ji, Mode.ki, hm]

theorem toH_convert (m' : Mode) (v : Q4 R) : toH m' (convert m m' v) = toH m v := by
  cases hm : m.realFirst <;> cases hm' : m'.realFirst <;>
    ext <;> simp [toH, convert, mk, Mode.ri, Mode.ii, Mode.ji, Mode.ki, hm, hm']

theorem toH_smul (c : R) (v : Q4 R) : toH m (c • v) = c • toH m v := by
  ext <;> simp [toH]

theorem toH_add (v w : Q4 R) : toH m (v + w) = toH m v + toH m w := by
  ext <;> simp [toH]

theorem toH_neg (v : Q4 R) : toH m (-v) = -toH m v := by
  ext <;> simp [toH]

theorem dot4_eq (v : Q4 R) : dot4 v v = normSq (toH m v) := by
  rw [Quaternion.normSq_def']
  cases hm : m.realFirst <;> simp [toH, dot4, Mode.ri, Mode.ii, Mode.ji, Mode.ki, hm] <;> ring

theorem imag_eq (v : Q4 R) : imag m v = ![(toH m v).imI, (toH m v).imJ, (toH m v).imK] := by
  funext k
  cases hm : m.realFirst <;> fin_cases k <;> simp [toH, imag, Mode.ri, Mode.ii, Mode.ji, Mode.ki, hm]

theorem pure_imag (v : Q4 R) (h : (toH m v).re = 0) : pure (imag m v) = toH m v := by
  rw [imag_eq]
  ext <;> simp [pure, h]

theorem prod_assoc (a b c : Quaternion R) : prod m (prod m a b) c = prod m a (prod m b c) := by
  unfold prod
  split <;> simp [mul_assoc]

theorem star_prod (a b : Quaternion R) : star (prod m a b) = prod m (star b) (star a) := by
  unfold prod
  split <;> simp

theorem star_pure (v : Fin 3 → R) : star (pure v) = -pure v := by
  ext <;> simp [pure]

theorem prod_neg (a b : Quaternion R) : prod m a (-b) = -prod m a b := by
  unfold prod
  split <;> simp

theorem neg_prod (a b : Quaternion R) : prod m (-a) b = -prod m a b := by
  unfold prod
  split <;> simp

/-- A product `q v q̄` with `v` imaginary has no real part. -/
theorem sandwich_re (q : Quaternion R) (v : Fin 3 → R) : (prod m (prod m q (pure v)) (star q)).re = 0 := by
  unfold prod
  split <;> simp [pure] <;> ring

theorem toH_rotate (q : Q4 R) (v : Fin 3 → R) : pure (rotate m q v) = prod m (prod m (toH m q) (pure v)) (star (toH m q)) := by
  rw [rotate, pure_imag, toH_mult, toH_multPR, toH_conjugate]
  rw [toH_mult, toH_multPR, toH_conjugate]
  unfold prod
  split <;> simp [pure] <;> ring

theorem pure_injective : Function.Injective (pure (R := R)) := by
  intro a b h
  funext k
  fin_cases k
  · exact congrArg (fun q : Quaternion R => q.imI) h
  · exact congrArg (fun q : Quaternion R => q.imJ) h
  · exact congrArg (fun q : Quaternion R => q.imK) h

theorem normSq_pure (v : Fin 3 → R) : normSq (pure v) = v 0 * v 0 + v 1 * v 1 + v 2 * v 2 := by
  rw [Quaternion.normSq_def']
  simp [pure]; ring

theorem normSq_prod (a b : Quaternion R) : normSq (prod m a b) = normSq a * normSq b := by
  unfold prod
  split <;> simp [mul_comm]

end Ring

end Verif.Quat
