import Verif.Prelude
import Mathlib.Data.List.Basic

/-!
Model of the callback registry (`aslam_backend/src/OptimizerCallbackManager.cpp`, CM below). Property C33.
-/
namespace Verif.Callbacks

/-- `ProceedInstruction`, OptimizerCallback.hpp:80-84. -/
inductive Proceed where
  | cont | succeed | fail
  deriving DecidableEq, Repr

/-- The map from event types to vectors of callbacks, CM:11-14. A callback is identified by the pointer to its
implementation (`operator ==`, OptimizerCallback.hpp:142); what it returns depends on its history, modelled
by the answer function of `issue`. A missing entry of the map is the empty vector: all functions access
it by `operator[]`. -/
abbrev Registry := Nat → List Nat

/-- `add(events, callback)`, CM:24-28. -/
def add (r : Registry) (events : List Nat) (c : Nat) : Registry :=
  events.foldl (fun r e => fun x => if x = e then r x ++ [c] else r x) r

/-- `remove(events, callback)`, CM:29-35: `std::remove` and `erase`, for every event of the list. -/
def remove (r : Registry) (events : List Nat) (c : Nat) : Registry :=
  events.foldl (fun r e => fun x => if x = e then (r x).filter (· ≠ c) else r x) r

/-- `clear()`, CM:36-38. -/
def clearAll (_ : Registry) : Registry := fun _ => []

/-- `clear(event)`, CM:40-42. -/
def clear (r : Registry) (e : Nat) : Registry := fun x => if x = e then [] else r x

/-- `numCallbacks(event)`, CM:44-46. -/
def numCallbacks (r : Registry) (e : Nat) : Nat := (r e).length

/-- The loop of `issueCallback`, CM:49-55: returns the callbacks called, in order, and the instruction. -/
def issueLoop (answer : Nat → Proceed) : List Nat → List Nat × Proceed
  | [] => ([], .cont)
  | c :: cs =>
    if answer c ≠ .cont then ([c], answer c)
    else (c :: (issueLoop answer cs).1, (issueLoop answer cs).2)

/-- `issueCallback(arg)`, CM:48-56. Simplified: callbacks do not change the registry while they run (in the code that would invalidate the iterators of the loop). -/
def issue (r : Registry) (answer : Nat → Proceed) (e : Nat) : List Nat × Proceed := issueLoop answer (r e)

/-- Operations on the registry. CM:20-56. -/
inductive Op where
  | add (events : List Nat) (c : Nat)
  | remove (events : List Nat) (c : Nat)
  | clearAll
  | clear (e : Nat)

/-- One operation, CM:24-42. -/
def step (r : Registry) : Op → Registry
  | .add es c => add r es c
  | .remove es c => remove r es c
  | .clearAll => clearAll r
  | .clear e => clear r e

/-- Specification of an operation seen by one event `x`: how its list changes. -/
def stepAt (x : Nat) (l : List Nat) : Op → List Nat
  | .add es c => l ++ List.replicate (es.count x) c
  | .remove es c => if x ∈ es then l.filter (· ≠ c) else l
  | .clearAll => []
  | .clear e => if x = e then [] else l

theorem add_at (r : Registry) (es : List Nat) (c x : Nat) : add r es c x = r x ++ List.replicate (es.count x) c := by
  unfold add
  induction es generalizing r with
  | nil => simp
  | cons e es ih =>
    rw [List.foldl_cons, ih]
    by_cases h : x = e
    · subst h
      rw [if_pos rfl, List.count_cons_self, List.append_assoc, List.replicate_succ]
      rfl
    · rw [if_neg h, List.count_cons_of_ne (Ne.symm h)]

theorem remove_at (r : Registry) (es : List Nat) (c x : Nat) :
    remove r es c x = if x ∈ es then (r x).filter (· ≠ c) else r x := by
  unfold remove
  induction es generalizing r with
  | nil => simp
  | cons e es ih =>
    rw [List.foldl_cons, ih]
    by_cases h : x = e
    · subst h
      simp only [if_true, List.mem_cons, true_or]
      split
      · rw [List.filter_filter]; simp
      · rfl
    · simp [h]

/-- **C33** (registry). After any history of operations, the callbacks of an event are what this event alone
has seen: an operation affects exactly the named events, additions go to the end (once per mention),
removals remove all copies of the callback and keep the order of the others. -/
theorem C33_registry (ops : List Op) (x : Nat) :
    ops.foldl step (fun _ => []) x = ops.foldl (stepAt x) [] ∧
    (∀ (r : Registry) (o : Op) (y : Nat), (match o with
      | .add es _ => y ∉ es | .remove es _ => y ∉ es | .clearAll => False | .clear e => y ≠ e) → step r o y = r y) := by
  constructor
  · have : ∀ (r : Registry) (l : List Nat), r x = l → ops.foldl step r x = ops.foldl (stepAt x) l := by
      induction ops with
      | nil => intro r l h; exact h
      | cons o ops ih =>
        intro r l h
        apply ih
        subst h
        cases o with
        | add es c => exact add_at r es c x
        | remove es c => exact remove_at r es c x
        | clearAll => rfl
        | clear e => rfl
    exact this _ _ rfl
  · intro r o y h
    cases o with
    | add es c =>
      have h' : y ∉ es := h
      show add r es c y = _
      rw [add_at, List.count_eq_zero_of_not_mem h']; simp
    | remove es c =>
      have h' : y ∉ es := h
      show remove r es c y = _
      rw [remove_at, if_neg h']
    | clearAll => exact absurd h id
    | clear e =>
      have h' : y ≠ e := h
      show clear r e y = _
      unfold clear; rw [if_neg h']

/-- **C33** (issuing). The callbacks called are a prefix of the registered ones in registration order; all but
the last returned CONTINUE; either all were called and the result is CONTINUE, or the last one called did
not return CONTINUE and its answer is the result. -/
theorem C33_issue_order (r : Registry) (answer : Nat → Proceed) (e : Nat) :
    ((∀ c ∈ r e, answer c = .cont) → issue r answer e = (r e, .cont)) ∧
    ∀ pre c post, r e = pre ++ c :: post → (∀ c' ∈ pre, answer c' = .cont) → answer c ≠ .cont →
      issue r answer e = (pre ++ [c], answer c) := by
  constructor
  · unfold issue
    induction r e with
    | nil => intro _; rfl
    | cons c cs ih =>
      intro h
      have h1 := h c List.mem_cons_self
      unfold issueLoop
      rw [if_neg (by simp [h1]), ih fun c' hc' => h c' (List.mem_cons_of_mem _ hc')]
  · intro pre c post he hpre hc
    unfold issue
    rw [he]
    clear he
    induction pre with
    | nil =>
      rw [List.nil_append]
      unfold issueLoop
      rw [if_pos hc]
      rfl
    | cons a pre ih =>
      rw [List.cons_append]
      unfold issueLoop
      rw [if_neg (by simp [hpre a List.mem_cons_self]), ih fun c' h => hpre c' (List.mem_cons_of_mem _ h)]
      rfl

example : issue (add (add (add (fun _ => []) [1, 2] 7) [2] 8) [2] 9) (fun c => if c = 8 then .fail else .cont) 2 =
    ([7, 8], .fail) := by decide

/-- `remove` names events 1 and 3, so event 2 keeps the callback. -/
example : (remove (add (add (fun _ => []) [1, 2, 1] 7) [1] 8) [1, 3] 7) 1 = [8] ∧
    (remove (add (add (fun _ => []) [1, 2, 1] 7) [1] 8) [1, 3] 7) 2 = [7] := by decide

/-- **C33** (counting). After any history of operations `numCallbacks` of an event is the number of callbacks this event has kept, which is the number of those called by an event to which all
answer CONTINUE. -/
theorem C33_counts (ops : List Op) (x : Nat) (answer : Nat → Proceed) :
    numCallbacks (ops.foldl step (fun _ => [])) x = (ops.foldl (stepAt x) []).length ∧
    ((∀ c ∈ ops.foldl step (fun _ => []) x, answer c = .cont) →
      (issue (ops.foldl step (fun _ => [])) answer x).1.length = numCallbacks (ops.foldl step (fun _ => [])) x) := by
  refine ⟨?_, fun h => ?_⟩
  · rw [← (C33_registry ops x).1]
    rfl
  · rw [(C33_issue_order _ answer x).1 h]
    rfl

/-- Two of three registrations are left after a removal. -/
example : numCallbacks ([Op.add [1, 2] 7, .add [2, 2] 8, .remove [2] 7].foldl step (fun _ => [])) 2 = 2 := by decide

end Verif.Callbacks
