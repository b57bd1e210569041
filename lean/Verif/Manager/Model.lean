import Verif.Prelude
import Verif.Jacobian.Model
import Verif.Threads.Model

/-!
Model of `ProblemManager` (`aslam_backend/src/util/ProblemManager.cpp`, below PM.cpp) and of the helpers in
`aslam_backend/include/aslam/backend/util/utils.hpp`.
-/
namespace Verif.Manager
open Verif.MatrixStack Verif.Jacobian

/-- Parameter matrix of a design variable in column-major order (`Eigen::MatrixXd`, argument of
`DesignVariable::getParameters`/`setParameters`, `aslam_backend/src/DesignVariable.cpp:41-48`). -/
structure PMat (R : Type) where
  rows : Nat
  cols : Nat
  data : List R
  deriving DecidableEq

/-- What a design variable class provides: `minimalDimensions`, `updateImplementation`,
`revertUpdateImplementation`, `getParametersImplementation`, `setParametersImplementation`
(`aslam_backend/include/aslam/backend/DesignVariable.hpp:96-130`). `S` is the state of the object. -/
structure Kind (R S : Type) where
  dim : Nat
  update : S → List R → S
  revert : S → S
  get : S → PMat R
  set : S → PMat R → S

/-- Members of `DesignVariable` (`DesignVariable.hpp:132-150`) and the state of the derived class. Cache
nodes are modelled separately. -/
structure DVar (R S : Type) where
  kind : Kind R S
  state : S
  active : Bool
  block : Int
  colBase : Int
  scaling : R

/-- All design variables and the row bases of all error terms, by address. DesignVariable.hpp:153-168, ErrorTerm.hpp:192-203. -/
structure World (R S : Type) where
  dv : Nat → DVar R S
  rowBase : Nat → Nat

/-- The problem as seen through `OptimizationProblemBase`: design variables, non-squared terms and squared
terms with their dimension, in the order of the index functions. Read at PM.cpp:39-96. -/
structure Problem where
  dvs : List Nat
  ns : List Nat
  sq : List (Nat × Nat)

/-- Members of `ProblemManager` (`ProblemManager.hpp:136-160`). -/
structure Manager (R : Type) where
  dvs : List Nat
  ns : List Nat
  sq : List Nat
  numOpt : Nat
  dimS : Nat
  numTerms : Nat
  saved : List (Nat × PMat R)

variable {R S : Type}

/-- Change one design variable. Not code. -/
def World.modify (w : World R S) (d : Nat) (f : DVar R S → DVar R S) : World R S :=
  { w with dv := fun x => if x = d then f (w.dv x) else w.dv x }

/-- Loop that assigns block indices and column bases, PM.cpp:62-66. -/
def assignDvs : World R S → List Nat → Nat → Nat → World R S × Nat
  | w, [], _, n => (w, n)
  | w, d :: ds, i, n =>
    assignDvs (w.modify d fun v => { v with block := i, colBase := n }) ds (i + 1) (n + (w.dv d).kind.dim)

/-- Loop over the squared error terms, PM.cpp:79-85. -/
def assignRows : (Nat → Nat) → List (Nat × Nat) → Nat → (Nat → Nat) × Nat
  | rb, [], n => (rb, n)
  | rb, (e, k) :: es, n => assignRows (fun x => if x = e then n else rb x) es (n + k)

/-- `initialize`, PM.cpp:39-96. -/
def initLayout (w : World R S) (p : Problem) (m : Manager R) : Res (World R S × Manager R) :=
  let act := p.dvs.filter fun d => (w.dv d).active
  if act = [] then .exc else
  let (w1, n) := assignDvs w act 0 0
  let (rb, k) := assignRows w1.rowBase p.sq 0
  if p.ns = [] ∧ p.sq = [] then .exc else
  .ok ({ w1 with rowBase := rb },
    { m with dvs := act, ns := p.ns, sq := p.sq.map Prod.fst, numOpt := n, dimS := k, numTerms := p.ns.length + p.sq.length })

/-- `applyStateUpdate`, PM.cpp:186-200 (and utils.hpp:118-134): `dx.segment` out of range is undefined
behaviour. -/
def applyUpdate [Mul R] (w : World R S) (dx : List R) : List Nat → Nat → Res (World R S)
  | [], _ => .ok w
  | d :: ds, start =>
    let k := (w.dv d).kind.dim
    if dx.length < start + k then .ub else
    let seg := ((dx.drop start).take k).map fun x => x * (w.dv d).scaling
    applyUpdate (w.modify d fun v => { v with state := v.kind.update v.state seg }) dx ds (start + k)

/-- `revertLastStateUpdate`, PM.cpp:202-207. -/
def revertAll (w : World R S) (dvs : List Nat) : World R S :=
  dvs.foldl (fun w d => w.modify d fun v => { v with state := v.kind.revert v.state }) w

/-- `saveDesignVariables`, PM.cpp:209-215. -/
def save (w : World R S) (m : Manager R) : Manager R :=
  { m with saved := m.dvs.map fun d => (d, (w.dv d).kind.get (w.dv d).state) }

/-- Restoring a list of saved parameters, PM.cpp:217-220 and `DesignVariableState::restore`,
utils.hpp:66-70. -/
def restoreList (w : World R S) (saved : List (Nat × PMat R)) : World R S :=
  saved.foldl (fun w p => w.modify p.1 fun v => { v with state := v.kind.set v.state p.2 }) w

/-- `restoreDesignVariables`, PM.cpp:217-220. -/
def restore (w : World R S) (m : Manager R) : World R S := restoreList w m.saved

/-- `DesignVariableState::save` of a range, utils.hpp:48-65: appends to what was saved before. -/
def stateSave (w : World R S) (st : List (Nat × PMat R)) (dvs : List Nat) : List (Nat × PMat R) :=
  st ++ dvs.map fun d => (d, (w.dv d).kind.get (w.dv d).state)

/-- `p.conservativeResize(p.size(), 1)`, PM.cpp:236-237: the part of the first column that exists is kept, the
rest is uninitialised (`none`). -/
def resizeColumn (p : PMat R) : List (Option R) :=
  let d := p.rows * p.cols
  let k := if p.cols = 0 then 0 else p.rows
  ((p.data.take k).map some) ++ List.replicate (d - k) none

/-- `v.conservativeResize(n)` for a vector; new elements are uninitialised (PM.cpp:242, utils.hpp:99). -/
def resizeVec (v : List (Option R)) (n : Nat) : List (Option R) :=
  v.take n ++ List.replicate (n - v.length) none

/-- `v.segment(cnt, x.size()) = x` (PM.cpp:244, utils.hpp:101), undefined if it does not fit. -/
def setSegment (v : List (Option R)) (cnt : Nat) (x : List (Option R)) : Res (List (Option R)) :=
  if v.length < cnt + x.length then .ub else .ok (v.take cnt ++ x ++ v.drop (cnt + x.length))

/-- Loop of `getFlattenedDesignVariableParameters`, PM.cpp:232-246, utils.hpp:93-103; `f` turns the
parameter matrix into a vector. -/
def flattenLoop (f : PMat R → List (Option R)) (min : Nat) : List (PMat R) → Nat → List (Option R) → Res (List (Option R))
  | [], _, v => .ok v
  | p :: ps, cnt, v => do
    let d := p.rows * p.cols
    let v := if min < cnt + d then resizeVec v (cnt + d) else v
    let v ← setSegment v cnt (f p)
    flattenLoop f min ps (cnt + d) v

/-- `getFlattenedDesignVariableParameters`, PM.cpp:222-249. -/
def flatten (w : World R S) (dvs : List Nat) : Res (List (Option R)) :=
  let min := (dvs.map fun d => (w.dv d).kind.dim).sum
  flattenLoop resizeColumn min (dvs.map fun d => (w.dv d).kind.get (w.dv d).state) 0 (List.replicate min none)

/-- `utils::getFlattenedDesignVariableParameters`, utils.hpp:78-105, which reads the data as a vector. -/
def flattenUtils (w : World R S) (dvs : List Nat) : Res (List (Option R)) :=
  let min := (dvs.map fun d => (w.dv d).kind.dim).sum
  flattenLoop (fun p => p.data.map some) min (dvs.map fun d => (w.dv d).kind.get (w.dv d).state) 0 (List.replicate min none)

/-- What the Jacobian containers see of the design variables. DesignVariable.hpp:153-168. -/
def World.env (w : World R S) : Env R where
  blockIndex d := (w.dv d).block
  columnBase d := (w.dv d).colBase
  dim d := (w.dv d).kind.dim
  active d := (w.dv d).active
  scaling d := (w.dv d).scaling

end Verif.Manager
