import Verif.Jacobian.Adds
import Verif.Geo

/-!
C93: the tutorial problem.

Model of the error terms, the design variable and the example program of `aslam_backend_tutorial` (`src/ErrorTermPrior.cpp`,
`src/ErrorTermMotion.cpp`, `src/ErrorTermObservation.cpp`, `src/ScalarDesignVariable.cpp`, `src/example.cpp`; below `TP`, `TM`,
`TO`, `TS`, `TE`).  Real arithmetic.
-/
namespace Verif.Tutorial
open Verif.Jacobian Verif.MatrixStack

/-- `_value` and `_p_value`, TS:9-12. -/
structure SV where
  value : ℝ
  prev : ℝ

/-- TS:9-12. -/
def SV.make (x : ℝ) : SV := ⟨x, x⟩

/-- The calls TS:36-50, 60-64. -/
inductive SOp
  | update (dp : ℝ)
  | revert
  | set (x : ℝ)

/-- TS:36-50, 60-64. -/
def SV.step (s : SV) : SOp → SV
  | .update dp => ⟨s.value + dp, s.value⟩
  | .revert => ⟨s.prev, s.prev⟩
  | .set x => ⟨x, s.value⟩

/-- An error term of the tutorial with the design variables it was given (addresses), the measurement and the variance. TP:8-14, TM:10-16, TO:15-16. -/
inductive Term
  | prior (x : Nat) (hat : ℝ) (sigma2 : ℝ)
  | motion (x x1 : Nat) (u sigma2 : ℝ)
  | observation (x w : Nat) (y sigma2 : ℝ)

/-- The inverse variance handed to `setInvR`: TP:8-11, TM:10-13, TO:10-13. -/
noncomputable def Term.invR : Term → ℝ
  | .prior _ _ s => 1 / s
  | .motion _ _ _ s => 1 / s
  | .observation _ _ _ s => 1 / s

/-- `setDesignVariables`: TP:13-14, TM:15-16, TO:15-16. -/
def Term.dvs : Term → List Nat
  | .prior x _ _ => [x]
  | .motion x x1 _ _ => [x, x1]
  | .observation x w _ _ => [x, w]

/-- The residual from the current values: TP:25-33, TM:26-32, TO:26-33.  The division by zero of an observation of a robot at
the wall (infinite in C++) is excluded by hypotheses. -/
noncomputable def Term.residual (v : Nat → ℝ) : Term → ℝ
  | .prior x hat _ => v x - hat
  | .motion x x1 u _ => v x1 - v x - u
  | .observation x w y _ => y - 1 / (v w - v x)

/-- The matrix with one entry. Not code: the matrices of TP:37-41, TM:36-40, TO:37-44. -/
def one (a : ℝ) : DMat ℝ := ⟨1, 1, fun _ _ => a⟩

/-- The Jacobians added: TP:37-41, TM:36-40, TO:37-44. -/
noncomputable def Term.jacobians (v : Nat → ℝ) : Term → List (Nat × DMat ℝ)
  | .prior x _ _ => [(x, one 1)]
  | .motion x x1 _ _ => [(x, one (-1)), (x1, one 1)]
  | .observation x w _ _ =>
    let hatY := -1 / (v w - v x)
    [(x, one (-(hatY * hatY))), (w, one (hatY * hatY))]

/-- TE:50-59: odometry sums; `x_k[0] = 0`. -/
noncomputable def positions (u : Nat → ℝ) : Nat → ℝ
  | 0 => 0
  | k + 1 => positions u k + u (k + 1)

/-- TE:29: the true wall position. -/
noncomputable def trueW : ℝ := -5

/-- TE:32-34: the three variances handed to the terms (TE:87, 100, 104). -/
noncomputable def sigma2n : ℝ := (1 / 100) * (1 / 100)
/-- TE:32-34. -/
noncomputable def sigma2u : ℝ := (1 / 10) * (1 / 10)
/-- TE:32-34. -/
noncomputable def sigma2x : ℝ := (1 / 100) * (1 / 100)

/-- The address of the wall and of the `k`-th position. TE:73, 80. -/
def wall : Nat := 0
/-- See `wall`. TE:80, 93-104. -/
def pos (k : Nat) : Nat := k + 1

/-- TE:93-109: the two terms of step `k`. -/
noncomputable def stepTerms (u y : Nat → ℝ) (k : Nat) : List Term :=
  [.motion (pos (k - 1)) (pos k) (u k) sigma2u, .observation (pos k) wall (y k) sigma2n]

/-- TE:86-109: the terms of the problem; the true first position is zero (TE:54).  `K` is what `atoi` returned: the vectors
`std::vector<double>(K)` throw `length_error` for negative `K` (TE:37), and for `K = 0` the write `x_k[0]` (TE:53) is undefined
behaviour. -/
noncomputable def terms (K : Int) (u y : Nat → ℝ) : Res (List Term) :=
  if K < 0 then .exc
  else if K = 0 then .ub
  else .ok (.prior (pos 0) 0 sigma2x :: (List.range (K.toNat - 1)).flatMap fun k => stepTerms u y (k + 1))

/-- TE:72-84, 95-97: the design variables added to the problem. -/
def dvList (K : Nat) : List Nat := wall :: (List.range K).map pos

end Verif.Tutorial
