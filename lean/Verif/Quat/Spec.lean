import Verif.Quat.Model
import Mathlib.Algebra.Quaternion

/-!
Specification: the quaternions of Mathlib.
-/
namespace Verif.Quat
open Quaternion

section
variable {R : Type} [Field R]

/-- The quaternion with the given real and imaginary parts. -/
def h4 (r i j k : R) : Quaternion R := ⟨r, i, j, k⟩

@[simp] theorem h4_re (r i j k : R) : (h4 r i j k).re = r := rfl
@[simp] theorem h4_imI (r i j k : R) : (h4 r i j k).imI = i := rfl
@[simp] theorem h4_imJ (r i j k : R) : (h4 r i j k).imJ = j := rfl
@[simp] theorem h4_imK (r i j k : R) : (h4 r i j k).imK = k := rfl
end

/-- The quaternion a vector stands for. -/
def toH (m : Mode) {R : Type} [Field R] (v : Q4 R) : Quaternion R := h4 (v m.ri) (v m.ii) (v m.ji) (v m.ki)

/-- The quaternion without real part. -/
def pure {R : Type} [Field R] (v : Fin 3 → R) : Quaternion R := h4 0 (v 0) (v 1) (v 2)

/-- The product meant by a mode. -/
def prod (m : Mode) {R : Type} [Field R] (a b : Quaternion R) : Quaternion R := if m.trad then a * b else b * a

theorem toH_injective (m : Mode) {R : Type} [Field R] : Function.Injective (toH m (R := R)) := by
  rintro a b h
  have h0 : a m.ri = b m.ri := congrArg (fun q : Quaternion R => q.re) h
  have h1 : a m.ii = b m.ii := congrArg (fun q : Quaternion R => q.imI) h
  have h2 : a m.ji = b m.ji := congrArg (fun q : Quaternion R => q.imJ) h
  have h3 : a m.ki = b m.ki := congrArg (fun q : Quaternion R => q.imK) h
  funext k
  cases hm : m.realFirst <;> simp [Mode.ri, Mode.ii, Mode.ji, Mode.ki, hm] at h0 h1 h2 h3 <;> fin_cases k <;> assumption

end Verif.Quat
