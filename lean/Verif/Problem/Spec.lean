import Verif.Problem.Model

/-! Specification of an optimization problem: three plain lists. -/
namespace Verif.Problem

/-- What a user sees: the lists of variables and terms. -/
structure View where
  dvs : List Nat
  ets : List Nat
  ns : List Nat

/-- The intended effect of each call on the lists. Removing a variable is meant to drop every squared
term that lists it. -/
def View.step (w : World) (v : View) : Op → View
  | .addDV d => if d ∈ v.dvs then v else { v with dvs := v.dvs ++ [d] }
  | .addET t => { v with ets := v.ets ++ [t] }
  | .addNS t => { v with ns := v.ns ++ [t] }
  | .removeET t => { v with ets := v.ets.erase t }
  | .removeDV d => { v with dvs := v.dvs.erase d, ets := v.ets.filter fun t => d ∉ w.dvsOf t }
  | .clear => ⟨[], [], []⟩

/-- The lists of a state. -/
def State.view (s : State) : View := ⟨s.dvs, s.ets, s.ns⟩

/-- Histories from a new problem without undefined behaviour, continuing after caught exceptions of
`addDesignVariable`; adding a term must not throw (in debug builds: its variables must have been added). -/
inductive Reach (debug : Bool) (w : World) : List Op → State → Prop
  | init : Reach debug w [] init
  | step {ops s o s' threw} : Reach debug w ops s → Problem.step debug w s o = .ok (s', threw) →
      (∀ t, o = .addET t ∨ o = .addNS t → threw = false) → Reach debug w (ops ++ [o]) s'

end Verif.Problem
