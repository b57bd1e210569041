/-
Outcomes of C++ calls: normal return, thrown exception, or undefined behaviour.
-/
namespace Verif

/-- Result of a call. `exc` is a thrown C++ exception (`SM_ASSERT_*`, `SM_THROW`); `ub` is undefined
behaviour (out-of-bounds access, signed overflow, division by zero, ...). -/
inductive Res (α : Type _) where
  | ok (a : α)
  | exc
  | ub
  deriving DecidableEq, Repr

namespace Res

/-- Sequencing: the first abnormal outcome wins. -/
def bind {α β} : Res α → (α → Res β) → Res β
  | ok a, f => f a
  | exc, _ => exc
  | ub, _ => ub

instance : Monad Res where
  pure := ok
  bind := bind

@[simp] theorem pure_eq {α} (a : α) : (pure a : Res α) = ok a := rfl
@[simp] theorem bind_ok {α β} (a : α) (f : α → Res β) : (ok a >>= f) = f a := rfl
@[simp] theorem bind_exc {α β} (f : α → Res β) : ((exc : Res α) >>= f) = exc := rfl
@[simp] theorem bind_ub {α β} (f : α → Res β) : ((ub : Res α) >>= f) = ub := rfl

/-- Run a list of steps from a state. -/
def run {σ ω} (step : σ → ω → Res σ) : σ → List ω → Res σ
  | s, [] => ok s
  | s, o :: os => (step s o) >>= fun s' => run step s' os

@[simp] theorem run_nil {σ ω} (step : σ → ω → Res σ) (s : σ) : run step s [] = ok s := rfl
@[simp] theorem run_cons {σ ω} (step : σ → ω → Res σ) (s : σ) (o : ω) (os : List ω) :
    run step s (o :: os) = (step s o) >>= fun s' => run step s' os := rfl

end Res
end Verif
