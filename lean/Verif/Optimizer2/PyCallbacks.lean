import Verif.Optimizer2.Callbacks

/-!
Model of the Python interface of the callback registry (`aslam_backend_python/src/OptimizerCallback.cpp`, PC below).
Property C143.
Simplified: a callback is identified by the Python callable (Python has no function to remove a single callback, so the
identity of the C++ object made for it is not observable); the length and the items of a Python object do not change
during the call of `add`.
-/
namespace Verif.Callbacks.Py
open Verif.Callbacks

/-- What `event2typeid` (PC:19-24) and `addCallbackWrapper` (PC:26-42) look at in a Python object given as an event.
`typeId`: the attribute `__typeId`, if present and of the right type (all event classes have it,
ExportOptimizerCallbackEvent.hpp:21-38). `items`: `none` without an attribute `__getitem__`; otherwise what `len` gives
(`none`: raises) and what indexing gives (`none`: raises; otherwise the attribute `__typeId` of the item). -/
structure Obj where
  typeId : Option Nat
  items : Option (Option Nat × (Nat → Option (Option Nat)))

/-- A Python object given as a callback: its identity and whether the attribute `__call__` is there, PC:28. -/
structure Callable where
  id : Nat
  callable : Bool

/-- `event2typeid(event[i])`, PC:19-24 and PC:33: an exception if indexing raises or the item is no event. -/
def itemType (items : Nat → Option (Option Nat)) (i : Nat) : Option Nat :=
  match items i with
  | none => none
  | some t => t

/-- The loop PC:32-36 from index `i` with `m` items left; `false`: an exception left the loop. -/
def addLoop (items : Nat → Option (Option Nat)) (c : Nat) : Nat → Nat → Registry → Registry × Bool
  | _, 0, r => (r, true)
  | i, m + 1, r =>
    match itemType items i with
    | none => (r, false)
    | some e => addLoop items c (i + 1) m (add r [e] c)

/-- `addCallbackWrapper`, PC:26-42: the registry afterwards and whether it returned (`false`: exception). -/
def pyAdd (r : Registry) (event : Obj) (cb : Callable) : Registry × Bool :=
  if !cb.callable then (r, false)
  else match event.items with
    | some (none, _) => (r, false)
    | some (some n, items) => addLoop items cb.id 0 n r
    | none =>
      match event.typeId with
      | none => (r, false)
      | some e => (add r [e] cb.id, true)

/-- `clear(event)`, PC:78-82. -/
def pyClear (r : Registry) (event : Obj) : Registry × Bool :=
  match event.typeId with
  | none => (r, false)
  | some e => (clear r e, true)

/-- `numCallbacks(event)`, PC:84-88; `none`: exception. -/
def pyNum (r : Registry) (event : Obj) : Option Nat :=
  match event.typeId with
  | none => none
  | some e => some (numCallbacks r e)

/-- The loop of `issueCallback`, OptimizerCallbackManager.cpp:49-55, over functors without a return value
(OptimizerCallback.hpp:112-115: always CONTINUE) around Python callables (PC:33-35, 38-40). `raises before c`: does
the callable `c` raise, after the calls `before`. Result: the calls made, and the instruction or `none` if an exception
came out. -/
def pyIssueLoop (raises : List Nat → Nat → Bool) : List Nat → List Nat → List Nat × Option Proceed
  | before, [] => (before, some .cont)
  | before, c :: cs =>
    if raises before c then (before ++ [c], none) else pyIssueLoop raises (before ++ [c]) cs

/-- `issueCallback`, OptimizerCallbackManager.cpp:48-56, with Python callables. -/
def pyIssue (r : Registry) (raises : List Nat → Nat → Bool) (e : Nat) : List Nat × Option Proceed :=
  pyIssueLoop raises [] (r e)

/-- The operations exported to Python, PC:73-89. -/
inductive PyOp where
  | add (event : Obj) (cb : Callable)
  | clearAll
  | clear (event : Obj)

/-- One operation, PC:73-82. -/
def pyStep (r : Registry) : PyOp → Registry
  | .add ev cb => (pyAdd r ev cb).1
  | .clearAll => clearAll r
  | .clear ev => (pyClear r ev).1

/-! Specification. -/

/-- The list of the item types before the first item that is no event, and whether all items are events. -/
def validPrefix : List (Option Nat) → List Nat × Bool
  | [] => ([], true)
  | none :: _ => ([], false)
  | some e :: l => (e :: (validPrefix l).1, (validPrefix l).2)

/-- The event types named by an argument, up to the first that is none, and whether all are events. -/
def named (ev : Obj) : List Nat × Bool :=
  match ev.items with
  | some (none, _) => ([], false)
  | some (some n, items) => validPrefix ((List.range n).map fun i => (items i).join)
  | none => match ev.typeId with
    | none => ([], false)
    | some e => ([e], true)

/-- What a Python operation does, in operations of the C++ registry. -/
def translate : PyOp → List Op
  | .add ev cb => if cb.callable then [.add (named ev).1 cb.id] else []
  | .clearAll => [.clearAll]
  | .clear ev => match ev.typeId with
    | none => []
    | some e => [.clear e]

theorem itemType_eq (items : Nat → Option (Option Nat)) (i : Nat) : itemType items i = (items i).join := by
  unfold itemType; cases items i <;> rfl

theorem add_cons (r : Registry) (e : Nat) (es : List Nat) (c : Nat) : add r (e :: es) c = add (add r [e] c) es c := rfl

theorem addLoop_eq (items : Nat → Option (Option Nat)) (c : Nat) (m i : Nat) (r : Registry) :
    addLoop items c i m r =
      (add r (validPrefix ((List.range' i m).map fun j => (items j).join)).1 c,
        (validPrefix ((List.range' i m).map fun j => (items j).join)).2) := by
  induction m generalizing i r with
  | zero => rfl
  | succ m ih =>
    rw [addLoop, itemType_eq, List.range'_succ, List.map_cons]
    cases h : (items i).join with
    | none => rfl
    | some e => simp only [ih, validPrefix]; rw [← add_cons]

theorem pyAdd_eq (r : Registry) (ev : Obj) (cb : Callable) :
    pyAdd r ev cb = if cb.callable then (add r (named ev).1 cb.id, (named ev).2) else (r, false) := by
  unfold pyAdd named
  cases cb.callable with
  | false => rfl
  | true =>
    simp only [Bool.not_true, Bool.false_eq_true, if_false, if_true]
    rcases h : ev.items with _ | ⟨_ | n, items⟩
    · cases ev.typeId <;> rfl
    · rfl
    · simp only [addLoop_eq, List.range_eq_range']

theorem validPrefix_all (l : List (Option Nat)) (es : List Nat) (h : l = es.map some) : validPrefix l = (es, true) := by
  subst h
  induction es with
  | nil => rfl
  | cons e es ih => simp [validPrefix, ih]

theorem validPrefix_bad (es : List Nat) (l : List (Option Nat)) :
    validPrefix (es.map some ++ none :: l) = (es, false) := by
  induction es with
  | nil => rfl
  | cons e es ih => simp [validPrefix, ih]

/-- **C143** (adding). A callback that is not callable and an argument that is neither an event nor indexable throw, the registry does
not change. One event: the callback is appended to the callbacks of this event and of no other. A list of
events: it is appended once per mention. -/
theorem C143_add (r : Registry) (ev : Obj) (cb : Callable) :
    (cb.callable = false → pyAdd r ev cb = (r, false)) ∧
    (ev.items = none → ev.typeId = none → pyAdd r ev cb = (r, false)) ∧
    (cb.callable = true → ∀ e, ev.items = none → ev.typeId = some e →
      (pyAdd r ev cb).2 = true ∧ ∀ x, (pyAdd r ev cb).1 x = if x = e then r x ++ [cb.id] else r x) ∧
    (cb.callable = true → ∀ (es : List Nat) items, ev.items = some (some es.length, items) →
      (∀ i (h : i < es.length), items i = some (some es[i])) →
      (pyAdd r ev cb).2 = true ∧ ∀ x, (pyAdd r ev cb).1 x = r x ++ List.replicate (es.count x) cb.id) := by
  refine ⟨?_, ?_, ?_, ?_⟩
  · intro h; rw [pyAdd_eq, h]; rfl
  · intro h1 h2
    rw [pyAdd_eq]
    cases cb.callable with
    | false => rfl
    | true => simp only [if_true, named, h1, h2]; rfl
  · intro h e h1 h2
    rw [pyAdd_eq, h]
    simp only [if_true, named, h1, h2, true_and]
    intro x; rfl
  · intro h es items h1 h2
    have hl : (List.range es.length).map (fun i => (items i).join) = es.map some := by
      apply List.ext_getElem
      · simp
      · intro i hi hi'
        have : i < es.length := by simpa using hi
        simp [h2 i this]
    rw [pyAdd_eq, h]
    simp only [if_true, named, h1, validPrefix_all _ es hl, true_and]
    exact fun x => add_at r es cb.id x

/-- **C143** (adding to a list with an item that is no event). The call throws, but the callback stays registered for the items before it:
adding is not atomic. -/
theorem C143_add_not_atomic (r : Registry) (ev : Obj) (cb : Callable) (hc : cb.callable = true) (es : List Nat)
    (n : Nat) (items : Nat → Option (Option Nat)) (h : ev.items = some (some n, items)) (hn : es.length < n)
    (hi : ∀ i (h : i < es.length), items i = some (some es[i]))
    (hbad : items es.length = none ∨ items es.length = some none) :
    (pyAdd r ev cb).2 = false ∧ ∀ x, (pyAdd r ev cb).1 x = r x ++ List.replicate (es.count x) cb.id := by
  have hl : ∃ l, (List.range n).map (fun i => (items i).join) = es.map some ++ none :: l := by
    refine ⟨(List.range' (es.length + 1) (n - es.length - 1)).map fun i => (items i).join, ?_⟩
    apply List.ext_getElem
    · simp; omega
    · intro i h1 h2
      rcases Nat.lt_trichotomy i es.length with h3 | h3 | h3
      · simp [List.getElem_append_left, h3, hi i h3]
      · subst h3
        rcases hbad with hb | hb <;> simp [hb]
      · rw [List.getElem_append_right (by simpa using Nat.le_of_lt h3)]
        obtain ⟨d, rfl⟩ : ∃ d, i = es.length + 1 + d := ⟨i - es.length - 1, by omega⟩
        have : es.length + 1 + d - (List.map some es).length = d + 1 := by simp; omega
        simp only [this, List.getElem_cons_succ, List.getElem_map, List.getElem_range, List.getElem_range']
        congr 2
        omega
  obtain ⟨l, hl⟩ := hl
  rw [pyAdd_eq, hc]
  simp only [if_true, named, h, hl, validPrefix_bad, true_and]
  exact fun x => add_at r es cb.id x

/-- **C143** (clearing and counting). Both need a single event: a list of events (an object without a type of its own) throws and
changes nothing. -/
theorem C143_clear_num (r : Registry) (ev : Obj) :
    (ev.typeId = none → pyClear r ev = (r, false) ∧ pyNum r ev = none) ∧
    (∀ e, ev.typeId = some e → (pyClear r ev).2 = true ∧ (pyClear r ev).1 e = [] ∧
      (∀ x, x ≠ e → (pyClear r ev).1 x = r x) ∧ pyNum r ev = some (r e).length ∧
      pyNum (pyClear r ev).1 ev = some 0) := by
  constructor
  · intro h; simp [pyClear, pyNum, h]
  · intro e h
    simp only [pyClear, pyNum, h, clear, numCallbacks, if_true, true_and, List.length_nil, and_true]
    exact fun x hx => if_neg hx

/-- **C143** (histories). After any history of Python operations, including those that threw, the callbacks of an event are those of the
C++ registry after the additions actually made. -/
theorem C143_history (ops : List PyOp) (x : Nat) :
    ops.foldl pyStep (fun _ => []) x = (ops.flatMap translate).foldl (stepAt x) [] := by
  rw [← (C33_registry (ops.flatMap translate) x).1]
  have : ∀ r : Registry, ops.foldl pyStep r = (ops.flatMap translate).foldl step r := by
    induction ops with
    | nil => intro r; rfl
    | cons o ops ih =>
      intro r
      rw [List.foldl_cons, List.flatMap_cons, List.foldl_append, ih]
      congr 1
      cases o with
      | add ev cb =>
        show (pyAdd r ev cb).1 = _
        rw [pyAdd_eq, translate]
        split <;> rfl
      | clearAll => rfl
      | clear ev =>
        show (pyClear r ev).1 = _
        rw [pyClear, translate]
        cases ev.typeId <;> rfl
  rw [this]

theorem pyIssueLoop_eq (raises : List Nat → Nat → Bool) (cs before : List Nat) :
    (∃ pre c post, cs = pre ++ c :: post ∧ raises (before ++ pre) c = true ∧
      (∀ a c' b, pre = a ++ c' :: b → raises (before ++ a) c' = false) ∧
      pyIssueLoop raises before cs = (before ++ pre ++ [c], none)) ∨
    ((∀ a c' b, cs = a ++ c' :: b → raises (before ++ a) c' = false) ∧
      pyIssueLoop raises before cs = (before ++ cs, some .cont)) := by
  induction cs generalizing before with
  | nil => right; simp [pyIssueLoop]
  | cons c cs ih =>
    rw [pyIssueLoop]
    by_cases h : raises before c = true
    · left
      exact ⟨[], c, cs, rfl, by simpa using h, by simp, by rw [if_pos h]; simp⟩
    · rw [if_neg h]
      have step : ∀ l : List Nat, (∀ a c' b, l = a ++ c' :: b → raises (before ++ [c] ++ a) c' = false) →
          ∀ a c' b, c :: l = a ++ c' :: b → raises (before ++ a) c' = false := by
        intro l hl a c' b hab
        cases a with
        | nil =>
          simp only [List.nil_append, List.cons.injEq] at hab
          obtain ⟨rfl, _⟩ := hab
          simpa using h
        | cons d a =>
          simp only [List.cons_append, List.cons.injEq] at hab
          obtain ⟨rfl, hab⟩ := hab
          simpa using hl a c' b hab
      rcases ih (before ++ [c]) with ⟨pre, d, post, h1, h2, h3, h4⟩ | ⟨h1, h2⟩
      · left
        exact ⟨c :: pre, d, post, by rw [h1]; rfl, by simpa using h2, step pre h3, by rw [h4]; simp⟩
      · right
        exact ⟨step cs h1, by rw [h2]; simp⟩

/-- **C143** (issuing). Python callables cannot answer: either all callables of the event are called in the order of registration and the instruction is CONTINUE,
whatever they return, or the first that raises is the last that is called and its exception comes out. -/
theorem C143_issue (r : Registry) (raises : List Nat → Nat → Bool) (e : Nat) :
    ((∀ a c b, r e = a ++ c :: b → raises a c = false) → pyIssue r raises e = (r e, some .cont)) ∧
    (∀ a c b, r e = a ++ c :: b → raises a c = true → (∀ a' c' b', a = a' ++ c' :: b' → raises a' c' = false) →
      pyIssue r raises e = (a ++ [c], none)) ∧
    ∀ p, (pyIssue r raises e).2 = some p → p = .cont := by
  have key := pyIssueLoop_eq raises (r e) []
  simp only [List.nil_append] at key
  refine ⟨?_, ?_, ?_⟩
  · intro h
    rcases key with ⟨pre, c, post, h1, h2, _, _⟩ | ⟨_, h2⟩
    · rw [h pre c post h1] at h2; exact absurd h2 (by decide)
    · exact h2
  · intro a c b hab hr hpre
    rcases key with ⟨pre, d, post, h1, h2, h3, h4⟩ | ⟨h1, _⟩
    · have hlen : pre.length = a.length := by
        rcases Nat.lt_trichotomy pre.length a.length with h | h | h
        · exfalso
          have : a = pre ++ d :: (a.drop (pre.length + 1)) := by
            have e1 : (r e).take a.length = a := by rw [hab]; simp
            have e2 : (r e).take a.length = pre ++ d :: post.take (a.length - pre.length - 1) := by
              rw [h1, List.take_append, List.take_of_length_le (Nat.le_of_lt h),
                show a.length - pre.length = (a.length - pre.length - 1) + 1 by omega, List.take_succ_cons]
              rfl
            have e3 := e1.symm.trans e2
            rw [e3]; simp [List.drop_append]
          rw [hpre pre d _ this] at h2; exact absurd h2 (by decide)
        · exact h
        · exfalso
          have : pre = a ++ c :: (b.take (pre.length - a.length - 1)) := by
            have e1 : (r e).take pre.length = pre := by rw [h1]; simp
            have e2 : (r e).take pre.length = a ++ c :: b.take (pre.length - a.length - 1) := by
              rw [hab, List.take_append, List.take_of_length_le (Nat.le_of_lt h),
                show pre.length - a.length = (pre.length - a.length - 1) + 1 by omega, List.take_succ_cons]
              rfl
            exact e1.symm.trans e2
          rw [h3 a c _ this] at hr; exact absurd hr (by decide)
      obtain ⟨h5, h6⟩ := List.append_inj (h1.symm.trans hab) hlen
      simp only [List.cons.injEq] at h6
      show pyIssueLoop raises [] (r e) = _
      rw [h4, h5, h6.1]
    · rw [h1 a c b hab] at hr; exact absurd hr (by decide)
  · intro p hp
    have hp : (pyIssueLoop raises [] (r e)).2 = some p := hp
    rcases key with ⟨_, _, _, _, _, _, h4⟩ | ⟨_, h2⟩
    · rw [h4] at hp; cases hp
    · rw [h2] at hp; exact (Option.some.inj hp).symm

/-- The event class with the type `e`. -/
def eventClass (e : Nat) : Obj := ⟨some e, none⟩

/-- A Python list of such classes; `none` stands for another object. -/
def pyList (l : List (Option Nat)) : Obj := ⟨none, some (some l.length, fun i => l[i]?)⟩

/-- The hypotheses of `C143_add` and `C143_add_not_atomic`: a list with a wrong item in the middle throws, event 1 keeps the callback, event 2
is not reached; a correct list is registered for both; a list cannot be cleared or counted. -/
example :
    (pyAdd (fun _ => []) (pyList [some 1, none, some 2]) ⟨7, true⟩).2 = false ∧
    (pyAdd (fun _ => []) (pyList [some 1, none, some 2]) ⟨7, true⟩).1 1 = [7] ∧
    (pyAdd (fun _ => []) (pyList [some 1, none, some 2]) ⟨7, true⟩).1 2 = [] ∧
    (pyAdd (fun _ => []) (pyList [some 1, some 2, some 1]) ⟨7, true⟩).1 1 = [7, 7] ∧
    (pyAdd (fun _ => []) (eventClass 3) ⟨7, true⟩).1 3 = [7] ∧
    (pyAdd (fun _ => []) (eventClass 3) ⟨7, false⟩).2 = false ∧
    pyNum (fun _ => []) (pyList [some 1]) = none := by
  refine ⟨?_, ?_, ?_, ?_, ?_, ?_, ?_⟩ <;> rfl

/-- The hypotheses of `C143_issue`: three callables, the second raises. -/
example : pyIssue (fun _ => [7, 8, 9]) (fun before c => c == 8 && before == [7]) 2 = ([7, 8], none) ∧
    pyIssue (fun _ => [7, 8, 9]) (fun _ _ => false) 2 = ([7, 8, 9], some .cont) := by
  constructor <;> rfl

end Verif.Callbacks.Py
