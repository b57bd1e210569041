import Verif.Threads.Model
import Mathlib.Tactic.Ring
import Mathlib.Tactic.Linarith
import Mathlib.Data.List.Induction

/-! Property theorems C18 and C19. -/
namespace Verif.Threads

/-! ### C18 -/

/-- Entries of the index array. -/
theorem indices_getD (t n i : Nat) (hi : i ≤ t) :
    (indices t n).getD i 0 = if i = t then n else i * max 1 (n / t) := by
  have key : ∀ k, k ≤ t →
      (List.range k).foldl (fun (l : List Nat) i => l.set (i + 1) (l.getD i 0 + max 1 (n / t)))
        (List.replicate (t + 1) 0) =
      (List.range (t + 1)).map fun i => if i ≤ k then i * max 1 (n / t) else 0 := by
    intro k hk
    induction k with
    | zero =>
      apply List.ext_getElem
      · simp
      · intro j h1 h2
        simp
    | succ k ih =>
      rw [List.range_succ, List.foldl_append, ih (by omega)]
      simp only [List.foldl_cons, List.foldl_nil]
      apply List.ext_getElem
      · simp
      · intro j h1 h2
        have hj : j < t + 1 := by simpa using h2
        rw [List.getElem_set]
        simp only [List.getElem_map, List.getElem_range, List.getD_eq_getElem?_getD,
          List.getElem?_map, List.getElem?_range (show k < t + 1 by omega), Option.map_some,
          Option.getD_some, le_refl, if_true]
        by_cases hjk : k + 1 = j
        · subst hjk; simp; ring
        · rw [if_neg hjk]
          by_cases hle : j ≤ k
          · rw [if_pos hle, if_pos (by omega)]
          · rw [if_neg hle, if_neg (by omega)]
  unfold indices
  simp only []
  rw [key t (le_refl _)]
  simp only [List.getD_eq_getElem?_getD, List.getElem?_set]
  by_cases h : t = i
  · subst h; simp
  · have : i < t + 1 := by omega
    simp [h, this, hi, Ne.symm h]

theorem flatMap_consecutive (f : Nat → Nat) (t : Nat) (h : ∀ i, i < t → f i ≤ f (i + 1)) :
    ((List.range t).flatMap fun i => List.range' (f i) (f (i + 1) - f i)) =
      List.range' (f 0) (f t - f 0) := by
  induction t with
  | zero => simp
  | succ t ih =>
    have hm : f 0 ≤ f t := by
      have : ∀ k, k ≤ t → f 0 ≤ f k := by
        intro k hk
        induction k with
        | zero => exact le_refl _
        | succ k ihk => exact le_trans (ihk (by omega)) (h k (by omega))
      exact this t (le_refl _)
    have hs := h t (by omega)
    rw [List.range_succ, List.flatMap_append, ih (fun i hi => h i (by omega))]
    simp only [List.flatMap_cons, List.flatMap_nil, List.append_nil]
    have e1 : List.range' (f t) (f (t + 1) - f t) = List.range' (f 0 + (f t - f 0)) (f (t + 1) - f t) := by
      congr 1; omega
    rw [e1, List.range'_append_1]
    congr 1; omega

theorem split_bounds (t n : Nat) (ht : 0 < t) (htn : t ≤ n) (i : Nat) (hi : i < t) :
    (indices t n).getD i 0 < (indices t n).getD (i + 1) 0 := by
  rw [indices_getD _ _ _ (by omega), indices_getD _ _ _ (by omega), if_neg (by omega)]
  have hper : max 1 (n / t) = n / t := max_eq_right (Nat.div_pos htn ht)
  have hpos : 0 < n / t := Nat.div_pos htn ht
  rw [hper]
  by_cases h : i + 1 = t
  · rw [if_pos h]
    have h1 : t * (n / t) ≤ n := Nat.mul_div_le n t
    have h2 : (i + 1) * (n / t) ≤ n := by rw [h]; exact h1
    have h3 : (i + 1) * (n / t) = i * (n / t) + n / t := by ring
    omega
  · rw [if_neg h]
    have h3 : (i + 1) * (n / t) = i * (n / t) + n / t := by ring
    omega

/-- What the callers rely on: the jobs have the thread numbers `0, 1, ...`, their sub-ranges are
non-empty, and read in thread order they enumerate `0, ..., n-1`, each index once. -/
structure Partition (js : List Job) (n : Nat) : Prop where
  ids : js.map Job.id = List.range js.length
  nonempty : ∀ j ∈ js, j.first < j.last
  cover : (js.flatMap fun j => List.range' j.first (j.last - j.first)) = List.range n

theorem split_partition (t n : Nat) (ht : 0 < t) (htn : t ≤ n) : Partition (split t n) n where
  ids := by simp [split, Function.comp_def]
  nonempty := by
    intro j hj
    obtain ⟨i, hi, rfl⟩ := List.mem_map.1 hj
    exact split_bounds t n ht htn i (by simpa using hi)
  cover := by
    have h := flatMap_consecutive (fun i => (indices t n).getD i 0) t
      (fun i hi => le_of_lt (split_bounds t n ht htn i hi))
    simp only [split, List.flatMap_map]
    rw [h, indices_getD _ _ _ (by omega), indices_getD _ _ _ (le_refl _), if_pos rfl, if_neg (by omega),
      zero_mul, Nat.sub_zero, List.range_eq_range']

/-- **C18** (`runThreadedJob`). For every range length and every positive number of threads the jobs
started partition the range; there are at most `nThreads` of them. Zero threads is rejected. -/
theorem C18_range_partition (n nThreads : Nat) (h : 0 < nThreads) :
    (∃ js, runThreadedJob n nThreads = .ok js ∧ Partition js n ∧ js.length ≤ nThreads) ∧
    runThreadedJob n 0 = .exc := by
  refine ⟨?_, rfl⟩
  unfold runThreadedJob
  rw [if_neg (by omega)]
  by_cases hn : n = 0
  · subst hn
    exact ⟨[], by simp, ⟨rfl, by simp, rfl⟩, by simp⟩
  rw [if_neg hn]
  by_cases h1 : nThreads = 1
  · subst h1
    refine ⟨[⟨0, 0, n⟩], by simp, ⟨rfl, by simp; omega, by simp [List.range_eq_range']⟩, by simp⟩
  · rw [if_neg h1]
    exact ⟨_, rfl, split_partition _ _ (by omega) (by omega), by simp [split]⟩

/-- **C18** (`setupThreadedJob` of the linear solvers). For every non-empty list of error terms and every
number of threads (zero included) the jobs partition the list. -/
theorem C18_solver_partition_partial (n nThreads : Nat) (hn : 0 < n) :
    ∃ js, setupThreadedJob n nThreads = .ok js ∧ Partition js n ∧ js.length ≤ max 1 nThreads := by
  unfold setupThreadedJob
  by_cases h : nThreads ≤ 1
  · rw [if_pos h]
    exact ⟨[⟨0, 0, n⟩], rfl, ⟨rfl, by simp; omega, by simp [List.range_eq_range']⟩, by simp⟩
  · rw [if_neg h, if_neg (by omega)]
    exact ⟨_, rfl, split_partition _ _ (by omega) (by omega), by simp [split]⟩

/-- What is missing from `C18_solver_partition_partial`: with no error terms and more than one thread
the linear solvers divide by zero, whereas one thread is fine. -/
theorem C18_empty_range_counterexample :
    (∀ nThreads, 1 < nThreads → setupThreadedJob 0 nThreads = .ub) ∧
    setupThreadedJob 0 1 = .ok [⟨0, 0, 0⟩] := by
  refine ⟨?_, rfl⟩
  intro t ht
  unfold setupThreadedJob
  rw [if_neg (by omega), if_pos (by simp)]

/-- **C18** (exceptions). The caller gets no exception exactly when no job failed; otherwise it gets the
exception of the failing job with the smallest thread number. -/
theorem C18_exception_reported {ε : Type} (outcomes : List (Option ε)) :
    (join outcomes = none ↔ ∀ o ∈ outcomes, o = none) ∧
    (∀ x, join outcomes = some x ↔
      ∃ i : Nat, outcomes[i]? = some (some x) ∧ ∀ k : Nat, k < i → outcomes[k]? = some none) := by
  constructor
  · simp [join, List.findSome?_eq_none_iff]
  · intro x
    induction outcomes with
    | nil => simp [join]
    | cons o os ih =>
      cases o with
      | some y =>
        simp only [join, List.findSome?_cons, id]
        constructor
        · intro h
          exact ⟨0, by simpa using h, by omega⟩
        · rintro ⟨i, h1, h2⟩
          cases i with
          | zero => simpa using h1
          | succ i => have := h2 0 (by omega); simp at this
      | none =>
        have hj : join (none :: os) = join os := by simp [join]
        rw [hj, ih]
        constructor
        · rintro ⟨i, h1, h2⟩
          refine ⟨i + 1, by simpa using h1, ?_⟩
          intro k hk
          cases k with
          | zero => simp
          | succ k => simpa using h2 k (by omega)
        · rintro ⟨i, h1, h2⟩
          cases i with
          | zero => simp at h1
          | succ i =>
            refine ⟨i, by simpa using h1, ?_⟩
            intro k hk
            simpa using h2 (k + 1) (by omega)

example : runThreadedJob 7 3 = .ok [⟨0, 0, 2⟩, ⟨1, 2, 4⟩, ⟨2, 4, 7⟩] := by decide
example : runThreadedJob 2 5 = .ok [⟨0, 0, 1⟩, ⟨1, 1, 2⟩] := by decide
example : setupThreadedJob 5 4 = .ok [⟨0, 0, 1⟩, ⟨1, 1, 2⟩, ⟨2, 2, 3⟩, ⟨3, 3, 5⟩] := by decide
example : join [none, some 3, none, some 4] = some 3 := by decide

/-! ### C19 -/

variable {F : Type} [Add F] [Neg F] [Zero F]

/-- A schedule is an interleaving of the jobs' programs: each thread executes its actions in program
order, and nothing else is executed. -/
def Interleaving (terms : List (TermData F)) (js : List Job) (sched : List (Nat × Act)) : Prop :=
  (∀ j ∈ js, (sched.filter fun s => s.1 = j.id).map Prod.snd = program terms j) ∧
  ∀ s ∈ sched, ∃ j ∈ js, s.1 = j.id

/-- Contribution of an action to the slot of its thread. -/
def cost? (terms : List (TermData F)) : Act → Option F
  | .accumulate k => terms[k]?.map TermData.cost
  | .write _ _ => none

theorem execute_acc (terms : List (TermData F)) (sched : List (Nat × Act)) (m : Mem F) (i : Nat) :
    (execute terms m sched).acc i =
      (((sched.filter fun s => s.1 = i).map Prod.snd).filterMap (cost? terms)).foldl (· + ·) (m.acc i) := by
  induction sched generalizing m with
  | nil => rfl
  | cons s ss ih =>
    obtain ⟨tid, a⟩ := s
    show (execute terms (act terms m tid a) ss).acc i = _
    rw [ih]
    by_cases h : tid = i
    · subst h
      rw [List.filter_cons_of_pos (by simp)]
      cases a with
      | accumulate k =>
        simp only [List.map_cons, act]
        cases hk : terms[k]? with
        | none => simp [cost?, hk]
        | some t => simp [cost?, hk]
      | write k r =>
        simp only [List.map_cons, act]
        cases hk : terms[k]? with
        | none => simp only [List.filterMap_cons, cost?]
        | some t => simp only [List.filterMap_cons, cost?]
    · rw [List.filter_cons_of_neg (by simpa using h)]
      congr 1
      cases a with
      | accumulate k =>
        simp only [act]
        cases hk : terms[k]? with
        | none => rfl
        | some t => simp [Ne.symm h]
      | write k r =>
        simp only [act]
        cases hk : terms[k]? <;> rfl

/-- Rows of different terms do not overlap. -/
def RowsDisjoint (terms : List (TermData F)) : Prop :=
  ∀ (k l : Nat) (t u : TermData F), k ≠ l → terms[k]? = some t → terms[l]? = some u →
    ∀ r s, r < t.err.length → s < u.err.length → t.rowBase + r ≠ u.rowBase + s

theorem execute_e_unwritten (terms : List (TermData F)) (sched : List (Nat × Act)) (m : Mem F) (x : Nat)
    (h : ∀ s ∈ sched, ∀ (k r : Nat) t, s.2 = .write k r → terms[k]? = some t → t.rowBase + r ≠ x) :
    (execute terms m sched).e x = m.e x := by
  induction sched generalizing m with
  | nil => rfl
  | cons s ss ih =>
    obtain ⟨tid, a⟩ := s
    show (execute terms (act terms m tid a) ss).e x = _
    rw [ih _ (fun s hs => h s (List.mem_cons_of_mem _ hs))]
    cases a with
    | accumulate k => simp only [act]; cases terms[k]? <;> rfl
    | write k r =>
      simp only [act]
      cases hk : terms[k]? with
      | none => rfl
      | some t =>
        have := h _ (List.mem_cons_self) k r t rfl hk
        simp [Ne.symm this]

theorem execute_e_written (terms : List (TermData F)) (hd : RowsDisjoint terms)
    (sched : List (Nat × Act)) (m : Mem F) (k r : Nat) (t : TermData F) (hk : terms[k]? = some t)
    (hr : r < t.err.length) (hmem : ∃ tid, (tid, Act.write k r) ∈ sched)
    (hall : ∀ s ∈ sched, ∀ (l q : Nat) u, s.2 = .write l q → terms[l]? = some u → q < u.err.length) :
    (execute terms m sched).e (t.rowBase + r) = - t.err.getD r 0 := by
  induction sched generalizing m with
  | nil => obtain ⟨_, h⟩ := hmem; simp at h
  | cons s ss ih =>
    obtain ⟨tid', a⟩ := s
    show (execute terms (act terms m tid' a) ss).e _ = _
    by_cases hin : ∃ tid, (tid, Act.write k r) ∈ ss
    · exact ih _ hin (fun s hs => hall s (List.mem_cons_of_mem _ hs))
    · have ha : a = .write k r := by
        obtain ⟨tid, h⟩ := hmem
        rcases List.mem_cons.1 h with h | h
        · exact (Prod.mk.inj h).2.symm
        · exact absurd ⟨tid, h⟩ hin
      subst ha
      rw [execute_e_unwritten]
      · simp [act, hk]
      · intro s hs l q u h1 h2
        have hq := hall s (List.mem_cons_of_mem _ hs) l q u h1 h2
        by_cases hkl : l = k
        · subst hkl
          rw [hk] at h2
          cases h2
          intro hc
          have : q = r := by omega
          subst this
          exact hin ⟨s.1, by rw [← h1]; exact hs⟩
        · exact hd l k u t hkl h2 hk q r hq hr

theorem mem_program (terms : List (TermData F)) (j : Job) (a : Act) :
    a ∈ program terms j ↔ ∃ k, j.first ≤ k ∧ k < j.last ∧ (a = .accumulate k ∨
      ∃ r t, a = .write k r ∧ terms[k]? = some t ∧ r < t.err.length) := by
  unfold program
  simp only [List.mem_flatMap, List.mem_range'_1, List.mem_cons, List.mem_map, List.mem_range]
  constructor
  · rintro ⟨k, ⟨h1, h2⟩, h | ⟨r, hr, rfl⟩⟩
    · exact ⟨k, h1, by omega, Or.inl h⟩
    · refine ⟨k, h1, by omega, Or.inr ⟨r, ?_⟩⟩
      cases hk : terms[k]? with
      | none => simp [hk] at hr
      | some t => exact ⟨t, rfl, rfl, by simpa [hk] using hr⟩
  · rintro ⟨k, h1, h2, h | ⟨r, t, rfl, hk, hr⟩⟩
    · exact ⟨k, ⟨h1, by omega⟩, Or.inl h⟩
    · exact ⟨k, ⟨h1, by omega⟩, Or.inr ⟨r, by simpa [hk] using hr, rfl⟩⟩

theorem program_costs (terms : List (TermData F)) (j : Job) (hl : j.last ≤ terms.length) :
    (program terms j).filterMap (cost? terms) =
      (List.range' j.first (j.last - j.first)).filterMap fun k => terms[k]?.map TermData.cost := by
  unfold program
  rw [List.filterMap_flatMap]
  generalize List.range' j.first (j.last - j.first) = l
  induction l with
  | nil => rfl
  | cons k ks ih =>
    rw [List.flatMap_cons, List.filterMap_cons, ih]
    have hz : ((List.range ((terms[k]?.map fun t => t.err.length).getD 0)).map fun r =>
        Act.write k r).filterMap (cost? terms) = [] := by
      rw [List.filterMap_eq_nil_iff]
      intro a ha
      obtain ⟨r, _, rfl⟩ := List.mem_map.1 ha
      rfl
    rw [List.filterMap_cons, hz]
    simp only [cost?]
    cases terms[k]? with
    | none => rfl
    | some t => rfl

/-- Costs of the terms of a job, in order. -/
def jobCosts (terms : List (TermData F)) (j : Job) : List F :=
  (List.range' j.first (j.last - j.first)).filterMap fun k => terms[k]?.map TermData.cost

theorem assignRowBases_length (ts : List (List F × F)) (b : Nat) :
    (assignRowBases b ts).length = ts.length := by
  induction ts generalizing b with
  | nil => rfl
  | cons x xs ih => simp [assignRowBases, ih]

/-- Row bases assigned as prefix sums do not overlap. -/
theorem assignRowBases_disjoint (ts : List (List F × F)) (b : Nat) :
    RowsDisjoint (assignRowBases b ts) ∧
      ∀ (k : Nat) t, (assignRowBases b ts)[k]? = some t → b ≤ t.rowBase := by
  induction ts generalizing b with
  | nil => exact ⟨by intro k l t u _ h; simp [assignRowBases] at h, by intro k t h; simp [assignRowBases] at h⟩
  | cons x xs ih =>
    obtain ⟨err, cost⟩ := x
    obtain ⟨ih1, ih2⟩ := ih (b + err.length)
    constructor
    · intro k l t u hne hk hl r s hr hs
      cases k with
      | zero =>
        cases l with
        | zero => exact absurd rfl hne
        | succ l =>
          simp only [assignRowBases, List.getElem?_cons_zero, Option.some.injEq,
            List.getElem?_cons_succ] at hk hl
          have := ih2 l u hl
          subst hk
          simp only at hr ⊢
          omega
      | succ k =>
        cases l with
        | zero =>
          simp only [assignRowBases, List.getElem?_cons_zero, Option.some.injEq,
            List.getElem?_cons_succ] at hk hl
          have := ih2 k t hk
          subst hl
          simp only at hs ⊢
          omega
        | succ l =>
          simp only [assignRowBases, List.getElem?_cons_succ] at hk hl
          exact ih1 k l t u (by omega) hk hl r s hr hs
    · intro k t hk
      cases k with
      | zero => simp only [assignRowBases, List.getElem?_cons_zero, Option.some.injEq] at hk; subst hk; exact le_refl _
      | succ k =>
        simp only [assignRowBases, List.getElem?_cons_succ] at hk
        have := ih2 k t hk
        omega

/-- **C19.** For every partition of the error terms into jobs and *every* interleaving of the jobs'
memory actions: the slot of thread `i` holds the costs of its own terms added up in order, the row
block of every term in the error vector holds minus its weighted error, and all other rows are
untouched. Nothing on the right-hand sides depends on the schedule. No law of addition is used, so the
result is reproducible bit by bit for a given number of threads. -/
theorem C19_schedule_independent (ts : List (List F × F)) (js : List Job)
    (hp : Partition js ts.length) (e0 : Nat → F) (sched : List (Nat × Act))
    (hs : Interleaving (assignRowBases 0 ts) js sched) :
    let terms := assignRowBases 0 ts
    let m := execute terms (start e0) sched
    (∀ j ∈ js, m.acc j.id = (jobCosts terms j).foldl (· + ·) 0) ∧
    (∀ i, i ∉ js.map Job.id → m.acc i = 0) ∧
    (∀ (k : Nat) t, terms[k]? = some t → ∀ r, r < t.err.length → m.e (t.rowBase + r) = - t.err.getD r 0) ∧
    (∀ x, (∀ (k : Nat) t, terms[k]? = some t → ¬ (t.rowBase ≤ x ∧ x < t.rowBase + t.err.length)) →
      m.e x = e0 x) := by
  intro terms m
  have hlen : terms.length = ts.length := by
    exact assignRowBases_length ts 0
  have hlast : ∀ j ∈ js, j.last ≤ terms.length := by
    intro j hj
    have hne := hp.nonempty j hj
    have : j.last - 1 ∈ List.range ts.length := by
      rw [← hp.cover]
      exact List.mem_flatMap.2 ⟨j, hj, by rw [List.mem_range'_1]; omega⟩
    rw [List.mem_range] at this
    omega
  have hall : ∀ s ∈ sched, ∀ (l q : Nat) u, s.2 = .write l q → terms[l]? = some u → q < u.err.length := by
    intro s hmem l q u h1 h2
    obtain ⟨j, hj, hid⟩ := hs.2 s hmem
    have : s.2 ∈ program terms j := by
      rw [← hs.1 j hj]
      exact List.mem_map.2 ⟨s, List.mem_filter.2 ⟨hmem, by simpa using hid⟩, rfl⟩
    rw [mem_program] at this
    obtain ⟨k, _, _, h | ⟨r, t, h, hk, hr⟩⟩ := this
    · rw [h1] at h; cases h
    · rw [h1] at h
      cases h
      rw [h2] at hk
      cases hk
      exact hr
  refine ⟨?_, ?_, ?_, ?_⟩
  · intro j hj
    show (execute terms (start e0) sched).acc j.id = _
    rw [execute_acc, hs.1 j hj, program_costs _ _ (hlast j hj)]
    rfl
  · intro i hi
    show (execute terms (start e0) sched).acc i = _
    rw [execute_acc]
    have : (sched.filter fun s => s.1 = i) = [] := by
      rw [List.filter_eq_nil_iff]
      intro s hmem hc
      obtain ⟨j, hj, hid⟩ := hs.2 s hmem
      exact hi (List.mem_map.2 ⟨j, hj, by rw [← hid]; simpa using hc⟩)
    rw [this]
    rfl
  · intro k t hk r hr
    apply execute_e_written terms (assignRowBases_disjoint ts 0).1 sched _ k r t hk hr ?_ hall
    have hkl : k < ts.length := by
      rw [← hlen]
      by_contra hc
      rw [List.getElem?_eq_none (by omega)] at hk
      cases hk
    have : k ∈ js.flatMap fun j => List.range' j.first (j.last - j.first) := by
      rw [hp.cover]; exact List.mem_range.2 hkl
    obtain ⟨j, hj, hkj⟩ := List.mem_flatMap.1 this
    rw [List.mem_range'_1] at hkj
    have hm : Act.write k r ∈ program terms j :=
      (mem_program terms j _).2 ⟨k, hkj.1, by omega, Or.inr ⟨r, t, rfl, hk, hr⟩⟩
    rw [← hs.1 j hj] at hm
    obtain ⟨s, hs1, hs2⟩ := List.mem_map.1 hm
    exact ⟨s.1, by rw [← hs2]; exact (List.mem_filter.1 hs1).1⟩
  · intro x hx
    show (execute terms (start e0) sched).e x = _
    rw [execute_e_unwritten]
    · rfl
    · intro s hmem k r t h1 h2 hc
      have := hall s hmem k r t h1 h2
      exact hx k t h2 (by omega)

theorem foldl_add_sum {G : Type} [AddCommMonoid G] (l : List G) (a : G) :
    l.foldl (· + ·) a = a + l.sum := by
  induction l generalizing a with
  | nil => simp
  | cons x xs ih => simp [ih, add_assoc]

theorem all_costs (terms : List (TermData F)) :
    ((List.range terms.length).filterMap fun k => terms[k]?.map TermData.cost) = terms.map TermData.cost := by
  induction terms using List.reverseRecOn with
  | nil => rfl
  | append_singleton ts t ih =>
    rw [List.length_append, List.length_singleton, List.range_succ, List.filterMap_append, List.map_append]
    congr 1
    · rw [← ih]
      apply List.filterMap_congr
      intro k hk
      rw [List.getElem?_append_left (List.mem_range.1 hk)]
    · simp

theorem assignRowBases_cost (ts : List (List F × F)) (b : Nat) :
    (assignRowBases b ts).map TermData.cost = ts.map Prod.snd := by
  induction ts generalizing b with
  | nil => rfl
  | cons x xs ih => simp [assignRowBases, ih]

/-- **C19** (total). In exact arithmetic the gathered error is the sum of the costs of all error terms,
for every number of threads and every schedule. -/
theorem C19_gathered_total {G : Type} [AddCommGroup G] (ts : List (List G × G)) (nThreads : Nat)
    (js : List Job) (hjs : setupThreadedJob ts.length nThreads = .ok js) (hn : 0 < ts.length)
    (e0 : Nat → G) (sched : List (Nat × Act)) (hs : Interleaving (assignRowBases 0 ts) js sched) :
    gather (max 1 nThreads) (execute (assignRowBases 0 ts) (start e0) sched) = (ts.map Prod.snd).sum := by
  obtain ⟨js', h1, hp, hle⟩ := C18_solver_partition_partial ts.length nThreads hn
  rw [hjs] at h1
  cases h1
  obtain ⟨ha, hb, -, -⟩ := C19_schedule_independent ts js hp e0 sched hs
  generalize execute (assignRowBases 0 ts) (start e0) sched = m at ha hb
  have e1 : gather (max 1 nThreads) m = ((List.range (max 1 nThreads)).map m.acc).sum := by
    unfold gather
    rw [show (fun (s : G) i => s + m.acc i) = (fun s i => (· + ·) s (m.acc i)) from rfl,
      ← List.foldl_map (f := m.acc) (g := (· + ·)), foldl_add_sum, zero_add]
  have e2 : ((List.range (max 1 nThreads)).map m.acc).sum = ((List.range js.length).map m.acc).sum := by
    obtain ⟨d, hd⟩ := Nat.exists_eq_add_of_le hle
    rw [hd, List.range_add, List.map_append, List.sum_append]
    have : (((List.range d).map (js.length + ·)).map m.acc).sum = 0 := by
      apply List.sum_eq_zero
      intro x hx
      simp only [List.map_map, List.mem_map, List.mem_range, Function.comp] at hx
      obtain ⟨i, _, rfl⟩ := hx
      apply hb
      rw [hp.ids]
      simp
    rw [this, add_zero]
  have e3 : ((List.range js.length).map m.acc) = js.map fun j => (jobCosts (assignRowBases 0 ts) j).sum := by
    rw [← hp.ids, List.map_map]
    apply List.map_congr_left
    intro j hj
    rw [Function.comp, ha j hj, foldl_add_sum, zero_add]
  have e4 : (js.flatMap (jobCosts (assignRowBases 0 ts))) = ts.map Prod.snd := by
    rw [← assignRowBases_cost ts 0, ← all_costs, assignRowBases_length, ← hp.cover]
    unfold jobCosts
    rw [List.filterMap_flatMap]
  rw [e1, e2, e3, ← e4]
  rw [List.flatMap, List.sum_flatten, List.map_map]
  rfl

/-- Two threads, three terms (dimensions 2, 1, 1), a schedule that switches threads in the middle of a
term. -/
example : Interleaving (F := Int) (assignRowBases 0 [([1, 2], 5), ([3], 7), ([4], 11)])
    [⟨0, 0, 1⟩, ⟨1, 1, 3⟩]
    [(1, .accumulate 1), (0, .accumulate 0), (0, .write 0 0), (1, .write 1 0), (1, .accumulate 2),
     (0, .write 0 1), (1, .write 2 0)] := by
  constructor
  · intro j hj
    simp only [List.mem_cons, List.not_mem_nil, or_false] at hj
    rcases hj with rfl | rfl <;> decide
  · decide

example : setupThreadedJob 3 2 = .ok [⟨0, 0, 1⟩, ⟨1, 1, 3⟩] := by decide

end Verif.Threads
