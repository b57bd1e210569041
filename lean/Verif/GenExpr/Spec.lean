import Verif.GenExpr.Model
import Verif.Geo

/-!
What the Jacobians of generic matrix expressions are compared with, independently of how they are computed.
-/
namespace Verif.GenExpr
open Verif.Geo (VDeriv MDeriv)
open Verif.Quat (Mode Geometry Q4)
open Matrix

/-- A step for every design variable. -/
abbrev Delta := (v : Var) → Fin v.dim → ℝ

/-- A curve of assignments passes `t` with velocity `δ`, in the coordinates of the updates of the design variables. -/
structure IsMove (c : ℝ → Env) (δ : Delta) (t : ℝ) : Prop where
  sc : ∀ i, HasDerivAt (fun s => (c s).sc i) (δ (.sc i) (0 : Fin 1)) t
  vec : ∀ n i, VDeriv (fun s => (c s).vec n i) (δ (.vec n i)) t
  gvec : ∀ n i, VDeriv (fun s => (c s).gvec n i) (δ (.gvec n i)) t
  quat : ∀ m g i, VDeriv (fun s => (c s).quat m g i) (Quat.dUpdate m g ((c t).quat m g i) *ᵥ δ (.quat m g i)) t

/-- The assignment after every design variable has been updated with `ε δ` (`update` of the four classes). -/
noncomputable def moved (env : Env) (δ : Delta) (ε : ℝ) : Env where
  sc i := env.sc i + ε * δ (.sc i) (0 : Fin 1)
  vec n i := fun k => env.vec n i k + ε * δ (.vec n i) k
  gvec n i := fun k => env.gvec n i k + ε * δ (.gvec n i) k
  quat m g i := Quat.update m g (env.quat m g i) fun k => ε * δ (.quat m g i) k

/-- The change the reported Jacobians predict for a step. -/
noncomputable def total {R : Nat} (δ : Delta) : List (Contr R) → Fin R → ℝ
  | [] => 0
  | c :: L => c.J *ᵥ δ c.v + total δ L

/-- The external Jacobian of the exponential is its derivative at `p`. -/
def ExpOk (x : Ext) (m : Mode) (p : Fin 3 → ℝ) : Prop :=
  ∀ (f : ℝ → Fin 3 → ℝ) f' t, f t = p → VDeriv f f' t → VDeriv (fun s => Quat.exp m (f s)) (x.dexp m p *ᵥ f') t

/-- The external Jacobian of the logarithm is its derivative at `p`. -/
def LogOk (x : Ext) (m : Mode) (p : Q4 ℝ) : Prop :=
  ∀ (f : ℝ → Q4 ℝ) f' t, f t = p → VDeriv f f' t → VDeriv (fun s => x.log m (f s)) (x.dlog m p *ᵥ f') t

/-- The operations of the expression are differentiable at the assignment. -/
def Smooth (x : Ext) (env : Env) : {k : Kind} → Node k → Prop
  | _, .sconst _ => True
  | _, .svar _ => True
  | _, .sadd a b => Smooth x env a ∧ Smooth x env b
  | _, .smul a b => Smooth x env a ∧ Smooth x env b
  | _, .sofV v _ => Smooth x env v
  | _, .sofG g _ _ => Smooth x env g
  | _, .sqn g => Smooth x env g
  | _, .vconst _ => True
  | _, .vvar _ _ => True
  | _, .vstack cs => ∀ i, Smooth x env (cs i)
  | _, .vadd a b => Smooth x env a ∧ Smooth x env b
  | _, .vscale p s => Smooth x env p ∧ Smooth x env s
  | _, .gconst _ => True
  | _, .gvar _ _ => True
  | _, .gquat _ _ _ => True
  | _, .ofV v => Smooth x env v
  | _, .ofS s => Smooth x env s
  | _, .copy a => Smooth x env a
  | _, .transpose a => Smooth x env a
  | _, .inverse a => Smooth x env a ∧ (val x env a).det ≠ 0
  | _, .mul a b => Smooth x env a ∧ Smooth x env b
  | _, .add a b => Smooth x env a ∧ Smooth x env b
  | _, .sub a b => Smooth x env a ∧ Smooth x env b
  | _, .neg a => Smooth x env a
  | _, .scaleS a s => Smooth x env a ∧ Smooth x env s
  | _, .scale a _ => Smooth x env a
  | _, .crossL a b => Smooth x env a ∧ Smooth x env b
  | _, .crossR a b => Smooth x env a ∧ Smooth x env b
  | _, .qmul _ a b => Smooth x env a ∧ Smooth x env b
  | _, .qinv _ a => Smooth x env a ∧ Quat.dot4 (col (val x env a)) (col (val x env a)) ≠ 0
  | _, .qconj _ a => Smooth x env a
  | _, .qimag _ a => Smooth x env a
  | _, .qrot _ q v => Smooth x env q ∧ Smooth x env v
  | _, .qlog m a => Smooth x env a ∧ LogOk x m (col (val x env a))
  | _, .qexp m a => Smooth x env a ∧ ExpOk x m (col (val x env a))

/-- Where a node stands below the root of its matrix expression: directly at an identity or matrix differential, below an
operation, directly below an `exp`/`log` at the root, or directly below any other `exp`/`log`. -/
inductive Shape
  | free
  | comp
  | mat
  | bad
  deriving DecidableEq

/-- The place directly below an `exp` or `log`. -/
def Shape.under (s : Shape) (plain : Bool) : Shape := if s = .free ∧ plain then .mat else .bad

/-- What is known of the place of a matrix node: the number of rows of the differential, the shape, and whether the
differential is the identity. -/
structure Place where
  rows : Nat
  shape : Shape
  isId : Bool

abbrev SArg : Kind → Type
  | .S => Unit
  | .V _ => Unit
  | .G _ _ => Place

/-- The expressions on which the code works, for a container with `R` rows: generic vectors and quaternions occur
directly at the root or where the differential yields as many rows as the container has; quaternion variables are
right-translated; a vector expression is not the direct operand of an `exp` or `log` which is itself an operand. -/
def Safe (R : Nat) : {k : Kind} → Node k → SArg k → Prop
  | _, .sconst _, _ => True
  | _, .svar _, _ => True
  | _, .sadd a b, _ => Safe R a () ∧ Safe R b ()
  | _, .smul a b, _ => Safe R a () ∧ Safe R b ()
  | _, .sofV v _, _ => Safe R v ()
  | _, .sofG g _ _, _ => Safe R g ⟨1, .comp, false⟩
  | _, .sqn (r := r) g, _ => Safe R g ⟨r, .free, true⟩
  | _, .vconst _, _ => True
  | _, .vvar _ _, _ => True
  | _, .vstack cs, _ => ∀ i, Safe R (cs i) ()
  | _, .vadd a b, _ => Safe R a () ∧ Safe R b ()
  | _, .vscale p s, _ => Safe R p () ∧ Safe R s ()
  | _, .gconst _, _ => True
  | _, .gvar _ _, p => p.shape = .free ∨ R = p.rows
  | _, .gquat _ g _, p => g = .right ∧ (p.shape = .free ∨ R = p.rows)
  | _, .ofV v, p => p.shape ≠ .bad ∧ Safe R v ()
  | _, .ofS s, _ => Safe R s ()
  | _, .copy a, p => Safe R a ⟨p.rows, .comp, false⟩
  | _, .transpose a, p => Safe R a ⟨p.rows, .comp, false⟩
  | _, .inverse a, p => Safe R a ⟨p.rows, .comp, false⟩
  | _, .mul a b, p => Safe R a ⟨p.rows, .comp, false⟩ ∧ Safe R b ⟨p.rows, .comp, false⟩
  | _, .add a b, p => Safe R a ⟨p.rows, .comp, false⟩ ∧ Safe R b ⟨p.rows, .comp, false⟩
  | _, .sub a b, p => Safe R a ⟨p.rows, .comp, false⟩ ∧ Safe R b ⟨p.rows, .comp, false⟩
  | _, .neg a, p => Safe R a ⟨p.rows, .comp, false⟩
  | _, .scaleS a s, p => Safe R a ⟨p.rows, .comp, false⟩ ∧ Safe R s ()
  | _, .scale a _, p => Safe R a ⟨p.rows, .comp, false⟩
  | _, .crossL a b, p => Safe R a ⟨p.rows, .comp, false⟩ ∧ Safe R b ⟨p.rows, .comp, false⟩
  | _, .crossR a b, p => Safe R a ⟨p.rows, .comp, false⟩ ∧ Safe R b ⟨p.rows, .comp, false⟩
  | _, .qmul _ a b, p => Safe R a ⟨p.rows, .comp, false⟩ ∧ Safe R b ⟨p.rows, .comp, false⟩
  | _, .qinv _ a, p => Safe R a ⟨p.rows, .comp, false⟩
  | _, .qconj _ a, p => Safe R a ⟨p.rows, .comp, false⟩
  | _, .qimag _ a, p => Safe R a ⟨p.rows, .comp, false⟩
  | _, .qrot _ q v, p => Safe R q ⟨p.rows, .comp, false⟩ ∧ Safe R v ⟨p.rows, .comp, false⟩
  | _, .qlog _ a, p => Safe R a ⟨p.rows, p.shape.under p.isId, false⟩
  | _, .qexp _ a, p => Safe R a ⟨p.rows, p.shape.under p.isId, false⟩

end Verif.GenExpr
