import Verif.Prelude
import Verif.Dbl
import Mathlib.Algebra.Order.Field.Basic
import Mathlib.Algebra.BigOperators.Group.Finset.Basic
import Mathlib.Data.Fintype.BigOperators

/-!
Model of the legacy `Optimizer` (`aslam_backend/src/Optimizer.cpp`, O below): `optimize` with
Levenberg-Marquardt or Gauss-Newton steps, `optimizeDogLeg`, `setInitialLambda`. Error terms, linear solver
and Schur complement are parameters of the model. Left out: printing, timers; callbacks are in `Events.lean`.
-/
namespace Verif.Legacy

variable {K X D P : Type} [LinearOrder K] [Field K]

/-- `a / b` for a cost difference `a` and a finite `b`; a zero `b` counts as positive zero. O:391-392, 562-577. -/
def divD (a : Dbl K) (b : K) : Dbl K :=
  match a with
  | .nan => .nan
  | .fin r => Dbl.div r b
  | .pinf => if b < 0 then .ninf else .pinf
  | .ninf => if b < 0 then .pinf else .ninf

/-! ### optimize -/

/-- What `optimize` works with. `cost`: `evaluateError`; `update`: `applyStateUpdate`, O:617-646, which also
returns deltaX; `revert`: `revertLastStateUpdate`, O:652-657. `prepare`: the part O:506-528 up to the linear
solve (matrices are rebuilt unless the last step was a regression), `none` if the solve fails. `den`: the
denominator `dx^T (lambda dx + b)` of `getLmRho`, O:131. `failed`, `good`: the updates of lambda and mu,
O:537-538 and 563-583, which do not influence the state. -/
structure Setup (K X D P : Type) where
  cost : X → Dbl K
  update : X → D → X × Dbl K
  revert : X → X
  prepare : P → X → Bool → P × Option D
  den : P → D → K
  failed : P → P
  good : P → Dbl K → P

/-- `Options`, the part used in the loop (OptimizerOptions.hpp). OptimizerOptions.hpp:29-65. -/
structure Options (K : Type) where
  convergenceDeltaX : K
  convergenceDeltaJ : K
  maxIterations : Int
  doLevenbergMarquardt : Bool

/-- Variables of `optimize`: design variables, `_J`, `_p_J`, `deltaX`, `deltaJ`, `isLmRegression`,
`srv.iterations`, `srv.failedIterations`, lambda and matrices; and whether the last iteration was a
failure of the linear solver (a ghost variable, not in the code). Optimizer.hpp:209-211, O:481-500. -/
structure St (K X P : Type) where
  x : X
  J : Dbl K
  pJ : Dbl K
  deltaX : Dbl K
  deltaJ : Dbl K
  regr : Bool
  p : P
  iterations : Int
  failedIt : Int
  solverFailed : Bool

/-- The loop condition, O:502-504. -/
def running (o : Options K) (s : St K X P) : Bool :=
  decide (s.iterations < o.maxIterations) && Dbl.lt (.fin o.convergenceDeltaX) s.deltaX &&
  Dbl.lt (.fin o.convergenceDeltaJ) (Dbl.abs s.deltaJ)

/-- End of the loop body, O:579-581: counts and `if (_J < _p_J) _p_J = _J`. -/
def finish (s : St K X P) : St K X P :=
  { s with iterations := s.iterations + 1, pJ := if Dbl.lt s.J s.pJ then s.J else s.pJ }

/-- The loop body, O:505-583. -/
def iter (S : Setup K X D P) (o : Options K) (s : St K X P) : St K X P :=
  match S.prepare s.p s.x s.regr with
  | (p, none) =>
    finish { s with p := S.failed p, regr := true, x := S.revert s.x, failedIt := s.failedIt + 1, solverFailed := true }
  | (p, some d) =>
    let u := S.update s.x d
    let J := S.cost u.1
    let s := { s with x := u.1, deltaX := u.2, J := J, deltaJ := Dbl.sub s.pJ J, p := p, solverFailed := false }
    if o.doLevenbergMarquardt then
      let rho := divD (Dbl.sub s.pJ s.J) (S.den p d)
      if Dbl.le rho (.fin 0) then
        finish { s with regr := true, x := S.revert s.x, p := S.failed p, failedIt := s.failedIt + 1 }
      else finish { s with regr := false, p := S.good p rho }
    else finish s

/-- The loop, O:502-584; the counter of iterations grows by one in every pass, so the remaining budget is a
bound for the number of passes. -/
def loop (S : Setup K X D P) (o : Options K) : Nat → St K X P → St K X P
  | 0, s => s
  | n + 1, s => if running o s then loop S o n (iter S o s) else s

/-- State at the loop entry, O:481-500. -/
def enter (S : Setup K X D P) (o : Options K) (x : X) (p : P) : St K X P :=
  { x := x, J := S.cost x, pJ := S.cost x, deltaX := .fin (o.convergenceDeltaX + 1), deltaJ := .fin (o.convergenceDeltaJ + 1),
    regr := false, p := p, iterations := 0, failedIt := 0, solverFailed := false }

/-- The part of `SolutionReturnValue` (backend.hpp:14-27) used here, with the design variables on return. -/
structure Out (K X : Type) where
  x : X
  JStart : Dbl K
  JFinal : Dbl K
  iterations : Int
  failedIt : Int

/-- `optimize`, O:472-590. -/
def optimize (S : Setup K X D P) (o : Options K) (x : X) (p : P) : Out K X :=
  let s := loop S o o.maxIterations.toNat (enter S o x p)
  ⟨s.x, S.cost x, s.J, s.iterations, s.failedIt⟩

/-! ### optimizeDogLeg -/

/-- What the accept/reject logic of `optimizeDogLeg` works with. `step`: choice of the step from matrices `p`
and radius, O:277-378 (with the fallback solver), giving the new content of `p`, the step and `L0` (also a new
radius if it was zero); `resize`: the new radius, O:408-430, from gain ratio; `rebuild`: `buildGnMatrices` and
the steepest-descent step. -/
structure DogLeg (K X D P : Type) where
  cost : X → Dbl K
  update : X → D → X × Dbl K
  revert : X → X
  rebuild : P → X → P
  step : P → K → P × K × D × K
  resize : P → K → D → Dbl K → K

/-- Variables of `optimizeDogLeg`. O:208-247. -/
structure DSt (K X P : Type) where
  x : X
  J : Dbl K
  pJ : Dbl K
  delta : K
  deltaX : Dbl K
  deltaJ : Dbl K
  p : P

/-- `if (isnan(rho)) rho = -1`, O:391-392. -/
def noNan : Dbl K → Dbl K
  | .nan => .fin (-1)
  | q => q

/-- One pass of the inner `do` loop, O:275-447, with the gain ratio. -/
def dIter (S : DogLeg K X D P) (s : DSt K X P) : DSt K X P × Dbl K :=
  let r := S.step s.p s.delta
  let u := S.update s.x r.2.2.1
  let J := S.cost u.1
  let rho := noNan (divD (Dbl.sub s.pJ J) r.2.2.2)
  let acc := Dbl.lt (.fin 0) rho
  let x := if acc then u.1 else S.revert u.1
  let J := if acc then J else S.cost x
  let p := if acc then S.rebuild r.1 x else r.1
  let delta := S.resize p r.2.1 r.2.2.1 rho
  let b := Dbl.lt J s.pJ
  ({ x := x, J := if b then J else s.pJ, pJ := if b then J else s.pJ, delta := delta, deltaX := u.2,
     deltaJ := Dbl.sub s.pJ J, p := p }, rho)

/-- The inner loop, O:274-449, as a relation: it may run for ever in the model. -/
inductive Inner (S : DogLeg K X D P) (cdx : K) : DSt K X P → DSt K X P → Prop
  | stop {s s' : DSt K X P} {rho : Dbl K} (h : dIter S s = (s', rho))
      (hs : (Dbl.lt rho (.fin 0) && decide (cdx < s'.delta)) = false) : Inner S cdx s s'
  | again {s s' t : DSt K X P} {rho : Dbl K} (h : dIter S s = (s', rho))
      (hs : (Dbl.lt rho (.fin 0) && decide (cdx < s'.delta)) = true) (ht : Inner S cdx s' t) : Inner S cdx s t

/-- The outer loop condition, O:250-252. -/
def dRunning (o : Options K) (it : Int) (s : DSt K X P) : Bool :=
  decide (it < o.maxIterations) && Dbl.lt (.fin o.convergenceDeltaX) s.deltaX &&
  Dbl.lt (.fin o.convergenceDeltaJ) (Dbl.abs s.deltaJ)

/-- The outer loop, O:250-455. -/
inductive Outer (S : DogLeg K X D P) (o : Options K) : Int → DSt K X P → DSt K X P → Prop
  | stop {it : Int} {s : DSt K X P} (h : dRunning o it s = false) : Outer S o it s s
  | again {it : Int} {s s' t : DSt K X P} (h : dRunning o it s = true) (hi : Inner S o.convergenceDeltaX s s')
      (ht : Outer S o (it + 1) s' t) : Outer S o it s t

/-- State at the loop entry, O:208-247. -/
def dEnter (S : DogLeg K X D P) (o : Options K) (x : X) (p : P) : DSt K X P :=
  { x := x, J := S.cost x, pJ := S.cost x, delta := 0, deltaX := .fin (o.convergenceDeltaX + 1),
    deltaJ := .fin (o.convergenceDeltaJ + 1), p := S.rebuild p x }

/-- `optimizeDogLeg`, O:198-465, as a relation. -/
def OptimizeDogLeg (S : DogLeg K X D P) (o : Options K) (x : X) (p : P) (t : DSt K X P) : Prop :=
  Outer S o 0 (dEnter S o x p) t

/-! ### setInitialLambda -/

/-- The loop over the entries of one diagonal block, O:150-153: block number `i`, the block as a list of rows.
The assignment reads entry `(i, j)` of the block, which may not exist (undefined behaviour without Eigen's
checks). -/
def blockMax (i : Nat) (H : List (List K)) (m : K) : Res K :=
  (List.range H.length).foldl (fun r j => Res.bind r fun m =>
    if m < |(H.getD j []).getD j 0| then
      match (H[i]?).bind (·[j]?) with
      | some a => .ok |a|
      | none => .ub
    else .ok m) (.ok m)

/-- The loop over the diagonal blocks (`none`: not allocated), O:147-155. -/
def initialMax (bs : List (Option (List (List K)))) : Res K :=
  (List.range bs.length).foldl (fun r i => Res.bind r fun m =>
    match bs.getD i none with
    | none => .ok m
    | some H => blockMax i H m) (.ok 0)

/-- `setInitialLambda`, O:136-159. -/
def setInitialLambda (lambda init scale : K) (bs : List (Option (List (List K)))) : Res K :=
  if lambda ≠ 0 then .ok lambda
  else if scale ≤ 0 then .ok init
  else Res.bind (initialMax bs) fun m => .ok (m * scale)

/-! ### The steepest-descent step of optimizeDogLeg -/

/-- `_dx_sd = rhs.squaredNorm() / Hrhs.squaredNorm() * rhs`, O:258-263, for vectors and a Hessian given by functions on
`Fin n`. -/
def sdStep {n : Nat} (H : Fin n → Fin n → K) (rhs : Fin n → K) : Fin n → K :=
  let Hr := fun i => ∑ j, H i j * rhs j
  fun i => (∑ j, rhs j * rhs j) / (∑ j, Hr j * Hr j) * rhs i

end Verif.Legacy
