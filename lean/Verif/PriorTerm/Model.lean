import Verif.Expr.Props
import Verif.ErrorTerm.Props

/-!
Model of the error terms which pull an expression towards a prior value:
`aslam_backend_expressions/src/ErrorTermTransformation.cpp` (called TT) and `src/ErrorTermEuclidean.cpp` (called TE).

Any number of such terms on any expressions, which may share nodes, together with the values of the design variables and the members of
the nodes. Simplified: real numbers; `log` stands for the external function `sm::kinematics::R2AxisAngle` and `sInv` for
`RotationVector::parametersToInverseSMatrix`; the debug output (TT:51-59, 73-78) is left out.
-/
namespace Verif.PriorTerm
open Matrix Verif.Geo Verif.Expr

/-- A term: the expression and the prior. TT:34-35 (`_T`, `_prior`), TE:27-28 (`_t`, `_prior`). -/
inductive Term
  | pose (T : Node .T) (prior : Pose)
  | point (p : Node .E) (prior : V3)

/-- `dimension()`: `ErrorTermFs<6>`, `ErrorTermFs<3>`; ErrorTermTransformation.hpp:25, ErrorTermEuclidean.hpp:24. -/
def Term.dim : Term → Nat
  | .pose .. => 6
  | .point .. => 3

/-- Rows 0-2 and 3-5 of a vector of six: the blocks of TT:47-48, 70-71. -/
abbrev half (k : Fin 6) : Fin 3 ⊕ Fin 3 := (finSumFinEquiv (m := 3) (n := 3)).symm k

/-- The error of a pose from the error matrix: translation, then axis times angle. TT:46-49. -/
def poseError (log : M3 → V3) (M : Pose) : Fin 6 → ℝ := fun k => Sum.elim M.t (log M.C) (half k)

/-- The matrix `J` of TT:68-71. -/
def poseJ (log : M3 → V3) (sInv : V3 → M3) (M : Pose) : Matrix (Fin 6) (Fin 3 ⊕ Fin 3) ℝ :=
  fun k j => fromBlocks 1 (crossMx M.t) 0 (sInv (log M.C)) (half k) j

/-- Values of the design variables, members of the nodes, `_errorMatrix` of each term (`none`: never written, TT has no initialiser).
ErrorTermTransformation.hpp:48-51. -/
structure St where
  env : Env
  σ : Store
  E : Nat → Option Pose

/-- `evaluateErrorImplementation`: TT:42-62, TE:49-56. The vector given to `setError`, the members of the nodes and what is assigned to
`_errorMatrix`. -/
noncomputable def errorT (log : M3 → V3) (env : Env) (σ : Store) : (τ : Term) → Res ((Fin τ.dim → ℝ) × Store × Option Pose)
  | .pose T prior => val env T >>= fun P => prior.inv >>= fun Q => .ok (poseError log (P.mul Q), upd env T σ, some (P.mul Q))
  | .point p prior => val env p >>= fun x => .ok (x - prior, upd env p σ, none)

/-- `evaluateErrorImplementation` of the term number `i`, TT:42-62, TE:49-56. -/
noncomputable def error (log : M3 → V3) (terms : Nat → Term) (s : St) (i : Nat) : Res ((Fin (terms i).dim → ℝ) × St) :=
  errorT log s.env s.σ (terms i) >>= fun r => .ok (r.1, ⟨s.env, r.2.1, fun j => if j = i then r.2.2 else s.E j⟩)

/-- `evaluateJacobiansImplementation`: TT:66-81, TE:60-63; `E` is `_errorMatrix`. -/
noncomputable def jacT (invS : V3 × ℝ → Matrix (Fin 3 ⊕ Unit) (Fin 3) ℝ) (log : M3 → V3) (sInv : V3 → M3) (env : Env) (E : Option Pose) (σ : Store) :
    (τ : Term) → Res (List (Contr τ.dim) × Store)
  | .pose T _ => match E with
    | none => .ub
    | some M => jac invS env T (poseJ log sInv M) σ
  | .point p _ => jac invS env p (1 : M3) σ

/-- `evaluateJacobiansImplementation` of the term number `i`, TT:66-81, TE:60-63. -/
noncomputable def jacobian (invS : V3 × ℝ → Matrix (Fin 3 ⊕ Unit) (Fin 3) ℝ) (log : M3 → V3) (sInv : V3 → M3) (terms : Nat → Term) (s : St) (i : Nat) :
    Res (List (Contr (terms i).dim) × St) :=
  jacT invS log sInv s.env (s.E i) s.σ (terms i) >>= fun r => .ok (r.1, { s with σ := r.2 })

/-- What happens to a set of terms: the design variables get other values, the error of a term is evaluated, its Jacobians are evaluated,
an expression is evaluated on its own. TT:42-81, TE:49-63. -/
inductive Op
  | vars (env : Env)
  | error (i : Nat)
  | jacobian (i : Nat)
  | value {ty : Ty} (e : Node ty)

/-- One operation; the results of evaluations are dropped. TT:42-81, TE:49-63. -/
noncomputable def step (invS : V3 × ℝ → Matrix (Fin 3 ⊕ Unit) (Fin 3) ℝ) (log : M3 → V3) (sInv : V3 → M3) (terms : Nat → Term) (s : St) : Op → Res St
  | .vars env => .ok { s with env := env }
  | .error i => error log terms s i >>= fun r => .ok r.2
  | .jacobian i => jacobian invS log sInv terms s i >>= fun r => .ok r.2
  | .value e => evaluate s.env e s.σ >>= fun r => .ok { s with σ := r.2 }

/-- The information matrix made of two weights, TT:37-41: translation first although the constructor takes the rotation weight first. -/
def weights (weightRotation weightTranslation : ℝ) (v v' : Nat) : ℝ :=
  if v = v' then (if v < 3 then weightTranslation else weightRotation) else 0

end Verif.PriorTerm
