import Verif.MatrixStack.Spec
import Verif.Jacobian.Model

/-!
Specification of a Jacobian container: the live chain factors and the list of contributions
(design variable, matrix) made so far.
-/
namespace Verif.Jacobian.Spec
open Verif.MatrixStack Verif.MatrixStack.Spec Verif.Jacobian

variable {R : Type} [Semiring R]

/-- A contribution: the design variable and the coefficients of (chain product)·(Jacobian). -/
abbrev Event (R : Type) := Nat × (Nat → Nat → R)

/-- Sum of the contributions of one design variable. -/
def total (ev : List (Event R)) (dv : Nat) (i j : Nat) : R :=
  ((ev.filter fun p => p.1 = dv).map fun p => p.2 i j).sum

/-- (chain product)·J -/
def contribution (fs : List (DMat R)) (J : DMat R) : Nat → Nat → R :=
  fun i j => ∑ t ∈ Finset.range J.rows, prod fs i t * J.e t j

/-- Rectangular identity. -/
def ident (r c : Nat) : DMat R := ⟨r, c, fun i j => if i = j then 1 else 0⟩

/-- Record a contribution unless the variable is inactive. -/
def record (env : Env R) (ev : List (Event R)) (dv : Nat) (g : Nat → Nat → R) : List (Event R) :=
  if env.active dv then ev ++ [(dv, g)] else ev

/-- Legal calls on a container with `n` rows: sizes conform. `none` for an illegal call. -/
def step (env : Env R) (n : Nat) (s : List (DMat R) × List (Event R)) :
    Op R → Option (List (DMat R) × List (Event R))
  | .applyM m => (MatrixStack.Spec.step n s.1 (.pushM m)).map fun fs => (fs, s.2)
  | .applyS c => (MatrixStack.Spec.step n s.1 (.pushS c)).map fun fs => (fs, s.2)
  | .endScope => (MatrixStack.Spec.step n s.1 .pop).map fun fs => (fs, s.2)
  | .add dv J =>
    if J.rows = cols n s.1 ∧ J.cols = env.dim dv then
      some (s.1, record env s.2 dv (contribution s.1 J))
    else none
  | .addId dv =>
    if s.1 = [] ∨ cols n s.1 = env.dim dv then
      some (s.1, record env s.2 dv (contribution s.1 (ident (cols n s.1) (env.dim dv))))
    else none

/-- Legal histories whose chain sizes fit the integer types. -/
inductive Run (env : Env R) (align n : Nat) :
    List (DMat R) × List (Event R) → List (Op R) → List (DMat R) × List (Event R) → Prop
  | nil (s) : Run env align n s [] s
  | cons {s s' s'' o os} : step env n s o = some s' → Fits align n s'.1 →
      Run env align n s' os s'' → Run env align n s (o :: os) s''

/-- What the optimizer guarantees before Jacobians are evaluated: active design variables have
non-negative, pairwise different block indices. -/
structure EnvOk (env : Env R) : Prop where
  nonneg : ∀ d, env.active d = true → 0 ≤ env.blockIndex d
  inj : ∀ d d', env.active d = true → env.active d' = true →
    env.blockIndex d = env.blockIndex d' → d = d'

/-- Additionally for dense containers: the column ranges of active design variables lie in `[0, nCols)`
and do not overlap. -/
structure ColumnsOk (env : Env R) (nCols : Nat) : Prop where
  nonneg : ∀ d, env.active d = true → 0 ≤ env.columnBase d
  fits : ∀ d, env.active d = true → env.columnBase d + env.dim d ≤ nCols
  disjoint : ∀ d d', env.active d = true → env.active d' = true → d ≠ d' →
    env.columnBase d + env.dim d ≤ env.columnBase d' ∨
    env.columnBase d' + env.dim d' ≤ env.columnBase d

end Verif.Jacobian.Spec
