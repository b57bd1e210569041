import Verif.Jacobian.Adds
import Verif.Geo

/-!
C92: the design variables of a camera.

Model of `CameraDesignVariable` (aslam_backend_expressions/include/aslam/backend/implementation/CameraDesignVariable.hpp, below
`K`; the header CameraDesignVariable.hpp, below `KH`).  The camera class is external (aslam_cv); it is given by the functions
that are called.
-/
namespace Verif.Camera
open Verif.Geo Verif.Jacobian Verif.MatrixStack
open Matrix

/-- The functions of the external camera class that K calls, for keypoints of `n` coordinates and parameter blocks of dimensions
`dp`, `dd`, `ds`: `homogeneousToKeypoint`, the updates of the three parameter blocks and the three Jacobians. K:32-35, 46, 50, 63-65. -/
structure Cam (n dp dd ds : Nat) where
  P : Type
  D : Type
  S : Type
  keypoint : P → D → S → (Fin 4 → ℝ) → Fin n → ℝ
  updP : P → (Fin dp → ℝ) → P
  updD : D → (Fin dd → ℝ) → D
  updS : S → (Fin ds → ℝ) → S
  intrinsicsJac : P → D → S → (Fin 4 → ℝ) → Matrix (Fin n) (Fin dp) ℝ
  distortionJac : P → D → S → (Fin 4 → ℝ) → Matrix (Fin n) (Fin dd) ℝ
  shutterJac : P → D → S → (Fin 4 → ℝ) → Matrix (Fin n) (Fin ds) ℝ

/-- KH:46-51, K:4-12: the camera and the design variables of its parameters; `pv`, `dv`, `sv` are the addresses of the three
adapters. -/
structure CamVars {n dp dd ds : Nat} (k : Cam n dp dd ds) where
  p : k.P
  d : k.D
  s : k.S
  pv : Nat
  dv : Nat
  sv : Nat

variable {n m dp dd ds : Nat} {k : Cam n dp dd ds}

/-- A matrix as the container sees it. Not code: `DMat` is the type of the arguments at K:46, 50, 63-65. -/
def toD {a b : Nat} (M : Matrix (Fin a) (Fin b) ℝ) : DMat ℝ :=
  ⟨a, b, fun i j => if h : i < a ∧ j < b then M ⟨i, h.1⟩ ⟨j, h.2⟩ else 0⟩

/-- K:38-54: the Jacobians added without a chain rule matrix.  The shutter is not added. -/
def plain (env : Env ℝ) (c : CamVars k) (ph : Fin 4 → ℝ) : List (Nat × DMat ℝ) :=
  (if env.active c.pv then [(c.pv, toD (-(k.intrinsicsJac c.p c.d c.s ph)))] else []) ++
  (if env.active c.dv then [(c.dv, toD (-(k.distortionJac c.p c.d c.s ph)))] else [])

/-- K:56-71: the Jacobians added with a chain rule matrix. -/
def chained (c : CamVars k) (C : Matrix (Fin m) (Fin n) ℝ) (ph : Fin 4 → ℝ) : List (Nat × DMat ℝ) :=
  [(c.pv, toD (-C * k.intrinsicsJac c.p c.d c.s ph)), (c.dv, toD (-C * k.distortionJac c.p c.d c.s ph)),
    (c.sv, toD (-C * k.shutterJac c.p c.d c.s ph))]

/-- K:73-81. -/
def designVariables (c : CamVars k) : List Nat := [c.pv, c.dv, c.sv]

end Verif.Camera
