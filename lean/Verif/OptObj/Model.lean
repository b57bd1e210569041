import Verif.Prelude

/-!
C147: which options and which problem a BFGS optimizer works with. Model of the ownership inside `OptimizerBFGS` (`OptimizerBFGS.hpp`, BH, `OptimizerBFGS.cpp`, B), of the cost function that its line search
evaluates (`util/ProblemManager.hpp`, PM), of the line search's own options (`LineSearch.hpp`, LH, `LineSearch.cpp`, L) and of the callback registry (`OptimizerCallbackManager.cpp`, CM). The objects are numbered in
the order of their creation. `B'` stands for the options common to all optimizers (convergence limits, number of threads; OptimizerBase.hpp:59-64), `L'` for those of the line search (LH:177-194).
-/
namespace Verif.OptObj

variable {B' L' : Type}

/-- `OptimizerOptionsBFGS`, BH:19-31, without the regularizer, which is not used by the line search. -/
structure Opts (B' L' : Type) where
  base : B'
  dense : Bool
  ls : L'
  deriving DecidableEq

/-- An `OptimizerBFGS`: `_options` (BH:92); `_linesearch._options` (LH:368); `target`, the object whose problem manager, `useDenseJacobianContainer` and thread numbers the cost function of the line search refers to
(B:53, PM:203-208: references, since the flags of `getCostFunction<false,true,false,true,true>` ask for them); the problem in the problem manager (OptimizerProblemManagerBase.hpp:27, 43); `registry`, the heap object of
the callback registry (CM:16-18), named by the optimizer that allocated it. -/
structure Obj (B' L' : Type) where
  opts : Opts B' L'
  search : L'
  target : Nat
  problem : Option Nat
  registry : Nat
  deriving DecidableEq

/-- The objects created so far, `none` after the destructor, and the registries that were deleted (CM:20-22). -/
structure World (B' L' : Type) where
  objs : List (Option (Obj B' L'))
  freed : List Nat
  deriving DecidableEq

/-- Calls: the constructors (B:51-69), both `setOptions` (BH:67, BH:70), `setProblem` (OptimizerProblemManagerBase.hpp:27), the implicit copy constructor and the destructor (B:71-73). -/
inductive Op (B' L' : Type) where
  | make (o : Opts B' L')
  | setOptions (i : Nat) (o : Opts B' L')
  | setBase (i : Nat) (b : B')
  | setProblem (i : Nat) (p : Nat)
  | copy (i : Nat)
  | destroy (i : Nat)

/-- The object `i`; using one that does not exist or was destroyed is undefined behaviour. Stands for the C++ object, BH:42-103. -/
def World.get (w : World B' L') (i : Nat) : Res (Obj B' L') :=
  match w.objs[i]? with
  | some (some x) => .ok x
  | _ => .ub

/-- Replacing the object `i`, BH:67-70. -/
def World.put (w : World B' L') (i : Nat) (x : Obj B' L') : World B' L' := { w with objs := w.objs.set i (some x) }

/-- One call. `okB` and `okL` are the checks of the options, OptimizerBase.cpp:37-44 and L:406-416. The constructor makes the line search, which checks its options (L:440), and then checks all of them (B:55). `setOptions` checks
nothing. The implicit copy copies the members, also the shared pointer to the cost function (LH:335) and the raw pointer of the registry (OptimizerCallbackManager.hpp:47). The destructor deletes the registry (CM:20-22). -/
def step (okB : B' → Bool) (okL : L' → Bool) (w : World B' L') : Op B' L' → Res (World B' L')
  | .make o =>
    if okL o.ls = false then .exc else if okB o.base = false then .exc
    else .ok { w with objs := w.objs ++ [some ⟨o, o.ls, w.objs.length, none, w.objs.length⟩] }
  | .setOptions i o => (w.get i).bind fun x => .ok (w.put i { x with opts := o, search := o.ls })
  | .setBase i b => (w.get i).bind fun x => .ok (w.put i { x with opts := { x.opts with base := b } })
  | .setProblem i p => (w.get i).bind fun x => .ok (w.put i { x with problem := some p })
  | .copy i => (w.get i).bind fun x => .ok { w with objs := w.objs ++ [some x] }
  | .destroy i => (w.get i).bind fun x => if x.registry ∈ w.freed then .ub else .ok ⟨w.objs.set i none, x.registry :: w.freed⟩

/-- A program that catches the exceptions of the constructors; a constructor that throws leaves no object. B:51-58. -/
def run (okB : B' → Bool) (okL : L' → Bool) : World B' L' → List (Op B' L') → Res (World B' L')
  | w, [] => .ok w
  | w, o :: os =>
    match step okB okL w o with
    | .ok w' => run okB okL w' os
    | .exc => run okB okL w os
    | .ub => .ub

/-- What a run of an optimizer depends on: the limits that stop it (`getOptions()`, OptimizerBase.cpp:130-160), the options of its line search (L:603-789), and, for every evaluation of the cost and the gradient, the problem, the
thread numbers and the kind of the Jacobian container. -/
structure Setting (B' L' : Type) where
  limits : B'
  search : L'
  problem : Option Nat
  threads : B'
  dense : Bool
  deriving DecidableEq

/-- The setting of `optimize()` of object `i`, B:80-175; the evaluations follow the references of the cost function, PM:199-201. -/
def setting (w : World B' L') (i : Nat) : Res (Setting B' L') :=
  (w.get i).bind fun x => (w.get x.target).bind fun t => .ok ⟨x.opts.base, x.search, t.problem, t.opts.base, t.opts.dense⟩

end Verif.OptObj
