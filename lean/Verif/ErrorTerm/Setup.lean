import Verif.Prelude
import Mathlib.Data.Finset.Basic
import Mathlib.Data.List.Basic
import Mathlib.Data.List.ReduceOption
import Mathlib.Tactic.Common

/-!
C146: setting up an error term. Model of the design variables and the M-estimator policy of `ErrorTerm` (`aslam_backend/src/ErrorTerm.cpp`, called E,
`include/aslam/backend/ErrorTerm.hpp`, EH, `implementation/ErrorTerm.hpp`, EI) and `ScalarNonSquaredErrorTerm` (`src/ScalarNonSquaredErrorTerm.cpp`, N,
`implementation/ScalarNonSquaredErrorTerm.hpp`, NI). A design variable is its address, `none` is the null pointer. Policies are values of an arbitrary type.
-/
namespace Verif.ErrorTerm.Setup

variable {P : Type}

/-- The two base classes of error terms. E:8-12, N:9-12. -/
inductive Class where
  | squared | nonSquared
  deriving DecidableEq

/-- `_designVariables` and `_mEstimatorPolicy`, EH:192, EH:199; `ScalarNonSquaredErrorTerm.hpp`:146, 156. -/
structure Obj (P : Type) where
  dvs : List Nat
  policy : Option P

/-- The constructors, E:8-12, N:9-12; `noM` is a `NoMEstimator`. -/
def Obj.new (noM : P) : Obj P := ⟨[], some noM⟩

/-- The calls that change them: E:32-54, EI:13-24, N:36-46, N:68-77. The overloads for one to four pointers (E:56-86) build a vector and call the first one. -/
inductive Op (P : Type) where
  | set (v : List (Option Nat))
  | setIterator (v : List (Option Nat))
  | setPolicy (p : Option P)
  | clearPolicy

/-- The check for null pointers, E:50-52, N:73-75, and of the iterator version, EI:19-22, NI:17-20: the loop throws at the first null. -/
def noNull : List (Option Nat) → Res (List Nat)
  | [] => .ok []
  | none :: _ => .exc
  | some d :: v => (noNull v).bind fun r => .ok (d :: r)

/-- `setDesignVariables(vector)`, E:45-54, N:68-77. -/
def setDvs (t : Obj P) (v : List (Option Nat)) : Res (Obj P) :=
  if t.dvs.length ≠ 0 then .exc else (noNull v).bind fun r => .ok { t with dvs := r }

/-- `setDesignVariablesIterator`, EI:13-24, NI:11-22: the range is inserted at the beginning. -/
def setDvsIterator (t : Obj P) (v : List (Option Nat)) : Res (Obj P) :=
  if t.dvs.length ≠ 0 then .exc else (noNull v).bind fun r => .ok { t with dvs := r ++ t.dvs }

/-- `setMEstimatorPolicy`, E:32-35 (any pointer) and N:36-40 (throws for null). -/
def setPolicy (c : Class) (t : Obj P) (p : Option P) : Res (Obj P) :=
  match c, p with
  | .nonSquared, none => .exc
  | _, _ => .ok { t with policy := p }

/-- One call, E:32-54, EI:13-24, N:36-46. -/
def step (c : Class) (noM : P) (t : Obj P) : Op P → Res (Obj P)
  | .set v => setDvs t v
  | .setIterator v => setDvsIterator t v
  | .setPolicy p => setPolicy c t p
  | .clearPolicy => .ok { t with policy := some noM }

/-- A sequence of calls whose exceptions are caught: a call that throws leaves the term as it was (all checks come first, E:48-52, N:71-75). -/
def after (c : Class) (noM : P) (ops : List (Op P)) : Obj P :=
  ops.foldl (fun t o => match step c noM t o with | .ok t' => t' | _ => t) (Obj.new noM)

/-- `designVariable(i)`, EH:105-109, EH:112-116, N:54-66. -/
def designVariable (debug : Bool) (t : Obj P) (i : Nat) : Res Nat :=
  match t.dvs[i]? with
  | some d => .ok d
  | none => if debug then .exc else .ub

/-- `getDesignVariables(dvs)`, E:94-97, N:116-119: inserts into a set. -/
def getDesignVariables (t : Obj P) (s : Finset Nat) : Finset Nat := t.dvs.foldl (fun s d => insert d s) s

/-- `getMEstimatorName()`, E:89-92, N:111-114, and every evaluation of the weight (EH:87): the policy is dereferenced. -/
def policyOf (t : Obj P) : Res P := match t.policy with
  | some p => .ok p
  | none => .ub

/-! ### Specification -/

/-- The list that a call (E:45, EI:13) assigns if it is the first: some pointers, none of them null. -/
def Op.assigns : Op P → Option (List Nat)
  | .set v => if v ≠ [] ∧ none ∉ v then some v.reduceOption else none
  | .setIterator v => if v ≠ [] ∧ none ∉ v then some v.reduceOption else none
  | _ => none

/-- Is it a call of `setDesignVariables` (E:45, EI:13)? -/
def Op.isSet : Op P → Bool
  | .set _ => true
  | .setIterator _ => true
  | _ => false

/-- What a call (E:32, E:39, N:36, N:43) makes of the policy. -/
def Op.chooses (c : Class) (noM : P) : Op P → Option (Option P)
  | .setPolicy p => if c = .nonSquared ∧ p = none then none else some p
  | .clearPolicy => some (some noM)
  | _ => none

theorem noNull_ok (v : List (Option Nat)) : noNull v = if none ∈ v then .exc else .ok v.reduceOption := by
  induction v with
  | nil => rfl
  | cons a v ih =>
    cases a with
    | none => simp [noNull]
    | some d =>
      rw [noNull, ih]
      by_cases h : none ∈ v
      · simp [h, Res.bind]
      · simp [h, Res.bind, List.reduceOption_cons_of_some]

theorem reduce_nil {v : List (Option Nat)} (h : none ∉ v) (hv : v ≠ []) : v.reduceOption ≠ [] := by
  cases v with
  | nil => exact absurd rfl hv
  | cons a v =>
    cases a with
    | none => simp at h
    | some d => simp [List.reduceOption_cons_of_some]

/-- The step as seen by the list of design variables. -/
theorem step_dvs (c : Class) (noM : P) (t : Obj P) (o : Op P) :
    (match step c noM t o with | .ok t' => t' | _ => t).dvs = if t.dvs = [] then o.assigns.getD [] else t.dvs := by
  have hlen : t.dvs.length ≠ 0 ↔ t.dvs ≠ [] := by rw [ne_eq, List.length_eq_zero_iff]
  cases o with
  | set v =>
    simp only [step, setDvs, noNull_ok, Op.assigns]
    by_cases h : t.dvs = []
    · rw [if_neg (by simp [h]), if_pos h]
      by_cases hn : none ∈ v
      · simp [hn, Res.bind, h]
      · by_cases hv : v = []
        · subst hv; simp [Res.bind]
        · simp [hn, hv, Res.bind]
    · rw [if_pos (hlen.2 h), if_neg h]
  | setIterator v =>
    simp only [step, setDvsIterator, noNull_ok, Op.assigns]
    by_cases h : t.dvs = []
    · rw [if_neg (by simp [h]), if_pos h]
      by_cases hn : none ∈ v
      · simp [hn, Res.bind, h]
      · by_cases hv : v = []
        · subst hv; simp [Res.bind, h]
        · simp [hn, hv, Res.bind, h]
    · rw [if_pos (hlen.2 h), if_neg h]
  | setPolicy p =>
    cases c <;> cases p <;> simp [step, setPolicy, Op.assigns] <;> first | done | exact fun h => h
  | clearPolicy => simp [step, Op.assigns]

theorem assigns_ne {o : Op P} {l : List Nat} (h : o.assigns = some l) : l ≠ [] := by
  cases o with
  | set v =>
    simp only [Op.assigns] at h
    split_ifs at h with h1
    cases h
    exact reduce_nil h1.2 h1.1
  | setIterator v =>
    simp only [Op.assigns] at h
    split_ifs at h with h1
    cases h
    exact reduce_nil h1.2 h1.1
  | setPolicy p => cases h
  | clearPolicy => cases h

/-- **C146, design variables.** After any history of calls, with exceptions caught, the design variables of an error term are those of the first call that named at least one and no null
pointer, in the given order; before there is none. From then on every further call throws. A call with a null pointer always throws. -/
theorem C146_design_variables (c : Class) (noM : P) (ops : List (Op P)) :
    (after c noM ops).dvs = (ops.findSome? Op.assigns).getD [] ∧
    (∀ o : Op P, (after c noM ops).dvs ≠ [] → o.isSet = true → step c noM (after c noM ops) o = .exc) ∧
    (∀ v, none ∈ v → step c noM (after c noM ops) (.set v) = .exc ∧ step c noM (after c noM ops) (.setIterator v) = .exc) := by
  refine ⟨?_, fun o h hs => ?_, fun v hv => ⟨?_, ?_⟩⟩
  · have key : ∀ (ops : List (Op P)) (t : Obj P),
        (ops.foldl (fun t o => match step c noM t o with | .ok t' => t' | _ => t) t).dvs = if t.dvs = [] then (ops.findSome? Op.assigns).getD [] else t.dvs := by
      intro ops
      induction ops with
      | nil => intro t; by_cases h : t.dvs = [] <;> simp [h]
      | cons o ops ih =>
        intro t
        rw [List.foldl_cons, ih, step_dvs, List.findSome?_cons]
        by_cases h : t.dvs = []
        · rw [if_pos h]
          cases ha : o.assigns with
          | none => simp [h]
          | some l =>
            have := assigns_ne ha
            simp [this, h]
        · simp [h]
    exact (key ops _).trans (if_pos rfl)
  · have hl : (after c noM ops).dvs.length ≠ 0 := by rwa [ne_eq, List.length_eq_zero_iff]
    cases o with
    | set v => exact if_pos hl
    | setIterator v => exact if_pos hl
    | setPolicy p => cases hs
    | clearPolicy => cases hs
  · simp only [step, setDvs, noNull_ok, if_pos hv]
    split <;> rfl
  · simp only [step, setDvsIterator, noNull_ok, if_pos hv]
    split <;> rfl

/-- **C146, access.** Valid indices give the design variables in order; an index out of range throws in debug builds and is undefined behaviour in release builds. Collecting them adds exactly
them to the set, however often they occur. -/
theorem C146_access (debug : Bool) (t : Obj P) (i : Nat) (s : Finset Nat) :
    (∀ h : i < t.dvs.length, designVariable debug t i = .ok t.dvs[i]) ∧
    (t.dvs.length ≤ i → designVariable debug t i = if debug then .exc else .ub) ∧
    ∀ d, d ∈ getDesignVariables t s ↔ d ∈ t.dvs ∨ d ∈ s := by
  refine ⟨fun h => ?_, fun h => ?_, fun d => ?_⟩
  · unfold designVariable
    rw [List.getElem?_eq_getElem h]
  · unfold designVariable
    rw [List.getElem?_eq_none h]
  · unfold getDesignVariables
    generalize t.dvs = l
    induction l generalizing s with
    | nil => simp
    | cons a l ih =>
      rw [List.foldl_cons, ih]
      simp only [Finset.mem_insert, List.mem_cons]
      tauto

theorem step_policy (c : Class) (noM : P) (t : Obj P) (o : Op P) :
    (match step c noM t o with | .ok t' => t' | _ => t).policy = (o.chooses c noM).getD t.policy := by
  cases o with
  | set v =>
    simp only [step, setDvs, noNull_ok, Op.chooses]
    by_cases h : t.dvs.length ≠ 0
    · rw [if_pos h]; rfl
    · rw [if_neg h]
      by_cases hn : none ∈ v <;> simp [hn, Res.bind]
  | setIterator v =>
    simp only [step, setDvsIterator, noNull_ok, Op.chooses]
    by_cases h : t.dvs.length ≠ 0
    · rw [if_pos h]; rfl
    · rw [if_neg h]
      by_cases hn : none ∈ v <;> simp [hn, Res.bind]
  | setPolicy p => cases c <;> cases p <;> simp [step, setPolicy, Op.chooses]
  | clearPolicy => rfl

/-- **C146, policy.** After any history the policy is the one of the last call that was accepted, at first none at all (`NoMEstimator`). A non-squared term never holds a null policy. -/
theorem C146_policy (c : Class) (noM : P) (ops : List (Op P)) :
    (after c noM ops).policy = (ops.reverse.findSome? (Op.chooses c noM)).getD (some noM) ∧
    (c = .nonSquared → ∃ p, policyOf (after c noM ops) = .ok p) := by
  have key : (after c noM ops).policy = (ops.reverse.findSome? (Op.chooses c noM)).getD (some noM) := by
    unfold after
    induction ops using List.reverseRecOn with
    | nil => rfl
    | append_singleton ops o ih =>
      rw [List.foldl_append, List.foldl_cons, List.foldl_nil, step_policy, ih, List.reverse_append, List.reverse_singleton, List.singleton_append, List.findSome?_cons]
      cases o.chooses c noM <;> rfl
  refine ⟨key, ?_⟩
  rintro rfl
  have : ∀ l : List (Op P), (l.findSome? (Op.chooses .nonSquared noM)).getD (some noM) ≠ none := by
    intro l
    induction l with
    | nil => simp
    | cons o l ih =>
      rw [List.findSome?_cons]
      cases o with
      | setPolicy p => cases p with
        | none => simpa [Op.chooses] using ih
        | some p => simp [Op.chooses]
      | clearPolicy => simp [Op.chooses]
      | set v => exact ih
      | setIterator v => exact ih
  cases h : (after .nonSquared noM ops).policy with
  | none => exact absurd (key.symm.trans h) (this _)
  | some p => exact ⟨p, by unfold policyOf; rw [h]⟩

/-- **C146 fails for squared terms.** `ErrorTerm::setMEstimatorPolicy` accepts a null pointer; the next use of the policy is undefined behaviour. -/
theorem C146_null_policy_counterexample (noM : P) (ops : List (Op P)) : policyOf (after .squared noM (ops ++ [.setPolicy none])) = .ub := by
  unfold policyOf
  rw [(C146_policy .squared noM _).1, List.reverse_append, List.reverse_singleton, List.singleton_append, List.findSome?_cons]
  rfl

/-- A history: an empty call, one with a null, the one that counts, one too many. -/
example : (after .squared "none" [.set [], .set [some 3, none], .setIterator [some 7, some 3], .set [some 1], .setPolicy (some "cauchy")]) = ⟨[7, 3], some "cauchy"⟩ := rfl

end Verif.ErrorTerm.Setup
