import Verif.Prelude
import Mathlib.Algebra.Ring.Defs

/-!
Model of cached expressions.  `C` = aslam_backend_expressions/include/aslam/backend/CacheExpression.hpp,
`CI` = aslam_backend/include/aslam/backend/CacheInterface.hpp, `DV` = aslam_backend/src/DesignVariable.cpp.

Values are elements of any type `V`, Jacobian blocks and chain rule factors elements of any ring `R` (not necessarily
commutative: matrices).  The nodes around the caches are arbitrary unary and binary nodes given by their value and
derivatives.  The Jacobian container is the function that gives the block of each design variable; the order of its blocks is
not modelled here (see `Verif/Jacobian`).
-/
namespace Verif.Cache

variable {V R : Type}

/-- Expression trees.  `cache id a` is `CacheExpressionNode` (C:40-105) around `a`; nodes shared between expressions carry the same
`id`.  `pw` is a piecewise node, whose condition is a function of the design variables
(X/src/ScalarExpressionNode.cpp, `ScalarExpressionPiecewiseExpressionNode`). -/
inductive T (V R : Type)
  | const (v : V)
  | dv (i : Nat)
  | un (f : V → V) (df : V → R) (a : T V R)
  | bin (f : V → V → V) (dl dr : V → V → R) (a b : T V R)
  | pw (p : (Nat → V) → Bool) (a b : T V R)
  | cache (id : Nat) (a : T V R)

/-- `getDesignVariables`; a piecewise node reports the active branch, a cache its expression (C:72-75). -/
def T.dvs (env : Nat → V) : T V R → List Nat
  | .const _ => []
  | .dv i => [i]
  | .un _ _ a => a.dvs env
  | .bin _ _ _ a b => a.dvs env ++ b.dvs env
  | .pw p a b => if p env then a.dvs env else b.dvs env
  | .cache _ a => a.dvs env

/-- The design variables, their active flags, the cached values and Jacobians of each cache node (C:100-101; `none` where the
flag of CI:29-30 is `false`), and which caches each design variable invalidates (`_cacheNodes`). -/
structure St (V R : Type) where
  env : Nat → V
  act : Nat → Bool
  cv : Nat → Option V
  cj : Nat → Option (Nat → R)
  reg : Nat → Nat → Bool

/-- Evaluation.  For a cache: C:52-64. -/
def T.evalV : T V R → St V R → V × St V R
  | .const v, s => (v, s)
  | .dv i, s => (s.env i, s)
  | .un f _ a, s => let (x, s) := a.evalV s; (f x, s)
  | .bin f _ _ a b, s => let (x, s) := a.evalV s; let (y, s) := b.evalV s; (f x y, s)
  | .pw p a b, s => if p s.env then a.evalV s else b.evalV s
  | .cache id a, s =>
    match s.cv id with
    | some v => (v, s)
    | none => let (v, s) := a.evalV s; (v, { s with cv := fun k => if k = id then some v else s.cv k })

variable [Ring R]

/-- `evaluateJacobians` into a container with chain rule factor `c`.  Inactive design variables are left out
(aslam_backend/include/aslam/backend/JacobianContainerSparse.hpp).  For a cache: C:66-70, 85-97: the Jacobians of the expression
are computed with factor one, kept, and added to the container with its factor. -/
def T.evalJ : T V R → R → St V R → (Nat → R) × St V R
  | .const _, _, s => (fun _ => 0, s)
  | .dv i, c, s => (fun k => if k = i ∧ s.act i then c else 0, s)
  | .un _ df a, c, s => let (x, s) := a.evalV s; a.evalJ (c * df x) s
  | .bin _ dl dr a b, c, s =>
    let (x, s) := a.evalV s
    let (y, s) := b.evalV s
    let (j, s) := a.evalJ (c * dl x y) s
    let (j', s) := b.evalJ (c * dr x y) s
    (fun k => j k + j' k, s)
  | .pw p a b, c, s => if p s.env then a.evalJ c s else b.evalJ c s
  | .cache id a, c, s =>
    match s.cj id with
    | some j => (fun k => c * j k, s)
    | none => let (j, s) := a.evalJ 1 s; (fun k => c * j k, { s with cj := fun k => if k = id then some j else s.cj k })

/-- The calls.  `change`: `update`, `revertUpdate` or `setParameters` of a design variable (DV:18-32, 44-47): the registered
caches are invalidated (DV:80-87; CI:25-27), then the value changes.  `poke`: the value changes without that (a write to mapped
memory, `GenericScalar::setValue`).  `activate`: `setActive`. -/
inductive Op (V R : Type)
  | change (i : Nat) (v : V)
  | poke (i : Nat) (v : V)
  | activate (i : Nat) (b : Bool)
  | evalV (t : T V R)
  | evalJ (t : T V R) (c : R)

/-- One call: `change` is aslam_backend/src/DesignVariable.cpp:18-62 (the registered caches are invalidated), the evaluations are C:52-64 and `T.evalJ`. -/
def step (s : St V R) : Op V R → St V R
  | .change i v =>
    { s with
      env := fun k => if k = i then v else s.env k
      cv := fun id => if s.reg i id then none else s.cv id
      cj := fun id => if s.reg i id then none else s.cj id }
  | .poke i v => { s with env := fun k => if k = i then v else s.env k }
  | .activate i b => { s with act := fun k => if k = i then b else s.act k }
  | .evalV t => (t.evalV s).2
  | .evalJ t c => (t.evalJ c s).2

/-- Not code: a sequence of calls. -/
def run (s : St V R) : List (Op V R) → St V R
  | [] => s
  | o :: os => run (step s o) os

/-- The state after `toCacheExpression` (C:185-195) was called for the expressions `defs id`: each is registered with the design
variables it reports at that time; nothing is cached. -/
def start (defs : Nat → T V R) (env : Nat → V) (act : Nat → Bool) : St V R :=
  { env := env, act := act, cv := fun _ => none, cj := fun _ => none, reg := fun i id => ((defs id).dvs env).contains i }

/-!
Concurrent evaluations of one cache node (C:52-64; the Jacobian, C:85-97, has the same shape).  Every access to a shared member is one step;
writing the value takes two (the value is broken in between).  Steps of the threads interleave in any order.
-/

/-- Where a thread is. The steps of C:52-64. -/
inductive Pc (V : Type)
  /-- about to read the flag outside the lock (C:54) -/
  | check
  /-- about to acquire the lock (C:56) -/
  | lock
  /-- holds the lock, about to read the flag again (C:57) -/
  | check2
  /-- about to start writing the value (C:59) -/
  | compute
  /-- the value is being written (C:59) -/
  | writing
  /-- about to set the flag (C:60) -/
  | setFlag
  /-- about to release the lock (C:62) -/
  | unlock
  /-- about to read the value (C:63) -/
  | read
  /-- returned the value (`none`: a broken value was read) -/
  | done (r : Option V)

/-- The shared members and the threads. C:52-64 (the flag, the mutex, the value). -/
structure Con (V : Type) where
  flag : Bool
  v : Option V
  holder : Option Nat
  pc : Nat → Pc V

/-- Not code: thread `t` goes on at `p`. -/
def Con.set (s : Con V) (t : Nat) (p : Pc V) : Con V := { s with pc := fun u => if u = t then p else s.pc u }

/-- One step of thread `t`; `value` is what the wrapped expression evaluates to.  `none`: the thread cannot move. C:52-64. -/
def Con.step (value : V) (s : Con V) (t : Nat) : Option (Con V) :=
  match s.pc t with
  | .check => some (s.set t (if s.flag then .read else .lock))
  | .lock => if s.holder = none then some ({ s with holder := some t }.set t .check2) else none
  | .check2 => some (s.set t (if s.flag then .unlock else .compute))
  | .compute => some ({ s with v := none }.set t .writing)
  | .writing => some ({ s with v := some value }.set t .setFlag)
  | .setFlag => some ({ s with flag := true }.set t .unlock)
  | .unlock => some ({ s with holder := none }.set t .read)
  | .read => some (s.set t (.done s.v))
  | .done _ => none

/-- Threads that cannot move are skipped by the schedule. Schedules of C:52-64; a schedule has no counterpart in the code. -/
def Con.run (value : V) (s : Con V) : List Nat → Con V
  | [] => s
  | t :: ts => ((s.step value t).getD s).run value ts

/-- All threads start; the cache is invalid or holds the value. Before C:52. -/
def Con.start (cached : Option V) : Con V := { flag := cached.isSome, v := cached, holder := none, pc := fun _ => .check }

end Verif.Cache
