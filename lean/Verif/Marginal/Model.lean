import Verif.Prelude
import Verif.MatrixStack.Model
import Mathlib.Algebra.Order.Field.Basic

/-!
Model of `marginalize` (`aslam_backend/src/Marginalizer.cpp`, called M below) and of `MarginalizationPriorErrorTerm` (`aslam_backend/src/MarginalizationPriorErrorTerm.cpp`, called P below).
Matrices and vectors are index functions.
-/
namespace Verif.Marginal

/-- The indices stored in design variables and error terms (`blockIndex`, `columnBase`, `rowBase`), by identity. Read and written at M:80-96, 188-196. -/
structure Env where
  blk : Nat → Int
  col : Nat → Int
  row : Nat → Nat

/-- The loop M:80-87: save the indices of each design variable, then number them in order. -/
def assignDvs (dim : Nat → Nat) : List Nat → Nat → Nat → Env → List (Int × Int) → Env × List (Int × Int)
  | [], _, _, env, saved => (env, saved)
  | v :: vs, i, base, env, saved =>
    assignDvs dim vs (i + 1) (base + dim v) { env with blk := Function.update env.blk v i, col := Function.update env.col v base } (saved ++ [(env.blk v, env.col v)])

/-- The loop M:91-96 over the error terms. -/
def assignEts (edim : Nat → Nat) : List Nat → Nat → Env → List Nat → Env × List Nat
  | [], _, env, saved => (env, saved)
  | t :: ts, base, env, saved => assignEts edim ts (base + edim t) { env with row := Function.update env.row t base } (saved ++ [env.row t])

/-- The loop M:188-191. -/
def restoreDvs : List Nat → List (Int × Int) → Env → Env
  | v :: vs, p :: ps, env => restoreDvs vs ps { env with blk := Function.update env.blk v p.1, col := Function.update env.col v p.2 }
  | _, _, env => env

/-- The loop M:192-196. -/
def restoreEts : List Nat → List Nat → Env → Env
  | t :: ts, r :: rs, env => restoreEts ts rs { env with row := Function.update env.row t r }
  | _, _, env => env

/-- What building and factorising the system yields: the sizes of the Jacobian, the triangular factor `R` and `d = Qᵀ b`. M:98-153. -/
structure Fact (K : Type) where
  jrows : Nat
  jcols : Nat
  R : Nat → Nat → K
  d : Nat → K

/-- The prior term: its variables, `_R`, `_d` and the dimension. MarginalizationPriorErrorTerm.hpp:50-55. -/
structure Prior (K : Type) where
  dvs : List Nat
  n : Nat
  R : Nat → Nat → K
  d : Nat → K

/-- What a call leaves: the indices, and the prior, an exception or undefined behaviour. Not code: outcomes of M:23-199. -/
structure Out (K : Type) where
  env : Env
  prior : Res (Prior K)

/-- The part that is cut out of the factorisation, M:174-177. -/
def cut {K : Type} (f : Fact K) (removed : Nat) (dvs : List Nat) : Prior K :=
  ⟨dvs, f.jcols - removed, fun i j => f.R (removed + i) (removed + j), fun i => f.d (removed + i)⟩

/-- `marginalize`, M:23-199. `system` stands for M:98-153: building the Jacobian from the current indices and factorising it (`none` if an error term throws). `remove` is
`numberOfInputDesignVariablesToRemove` (a negative number acts as 0), `top` is `numTopRowsInCov`. Exceptions: duplicates (M:42, M:48), an underdetermined system (M:138), no variable left for the prior (P:21).
With `top > 0` the code inverts the `jrows`×`jcols` matrix `R` (M:159) and takes a `top`×`top` block (M:161) before the size checks of M:169-170: both are Eigen assertions, so a matrix that is not square or too small
is undefined in a release build, and the two checks never fire. Not modelled: the covariance itself (see `C49_covariance`), the list `outDesignVariablesInRTop`, logging and timers. -/
def marginalize {K : Type} (dim edim : Nat → Nat) (system : Env → Option (Fact K)) (dvs ets : List Nat) (remove top : Nat) (env : Env) : Out K :=
  if ¬ dvs.Nodup then ⟨env, .exc⟩
  else if ¬ ets.Nodup then ⟨env, .exc⟩
  else
    let a := assignDvs dim dvs 0 0 env []
    let b := assignEts edim ets 0 a.1 []
    match system b.1 with
    | none => ⟨b.1, .exc⟩
    | some f =>
      if f.jrows < f.jcols then ⟨b.1, .exc⟩
      else if 0 < top ∧ (f.jrows ≠ f.jcols ∨ f.jcols < top) then ⟨b.1, .ub⟩
      else if dvs.drop remove = [] then ⟨b.1, .exc⟩
      else ⟨restoreEts ets b.2 (restoreDvs dvs a.2 b.1), .ok (cut f ((dvs.take remove).map dim).sum (dvs.drop remove))⟩

section prior
variable {K : Type} [CommRing K]

/-- `evaluateErrorImplementation`, P:44-55: the error `-(d - R diff)`, row `i`. The lengths of the two assertions agree by construction in `marginalize`. -/
def Prior.error (p : Prior K) (diff : Nat → K) (i : Nat) : K := -(p.d i - ∑ j ∈ Finset.range p.n, p.R i j * diff j)

/-- The cost of the term, `eᵀ e` (the inverse covariance is the identity, P:25). -/
def Prior.cost (p : Prior K) (diff : Nat → K) : K := ∑ i ∈ Finset.range p.n, p.error diff i * p.error diff i

/-- `getDifferenceSinceMarginalization`, P:58-78: the minimal differences of the variables, one after the other. A variable is given by its dimension and its difference vector. -/
def stackDiff : List (Nat × (Nat → K)) → Nat → K
  | [], _ => 0
  | v :: vs, i => if i < v.1 then v.2 i else stackDiff vs (i - v.1)

/-- `evaluateJacobiansImplementation`, P:80-95: one block `R.block(0, colIndex, n, dim) * M` per variable, with its column index; `M` is the Jacobian of the minimal difference. -/
def Prior.jacobian (p : Prior K) : List (Nat × (Nat → Nat → K)) → Nat → List (Nat × (Nat → Nat → K))
  | [], _ => []
  | v :: vs, col => (v.1, fun i j => ∑ t ∈ Finset.range v.1, p.R i (col + t) * v.2 t j) :: Prior.jacobian p vs (col + v.1)

end prior
end Verif.Marginal
