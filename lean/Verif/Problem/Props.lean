import Verif.Problem.Spec
import Mathlib.Data.List.Count
import Mathlib.Data.List.Nodup
import Mathlib.Data.List.Lattice
import Mathlib.Tactic.Ring

/-! Property theorems C09, C10, C11. -/
namespace Verif.Problem

/-- Map and term list agree, counted with multiplicity; registered terms are alive. -/
structure Inv (w : World) (s : State) : Prop where
  nodup : s.dvs.Nodup
  emap : ∀ d t, s.emap.count (d, t) = s.ets.count t * (w.dvsOf t).count d
  nmap : ∀ d t, s.nmap.count (d, t) = s.ns.count t * (w.nsDvsOf t).count d
  alive : ∀ t ∈ s.ets, t ∉ s.dead
  held : ∀ t ∈ s.dead, w.heldOutside t = false

theorem fillMap_count (debug : Bool) (known : List Nat) (t : Nat) (ds : List Nat) (m m' : List (Nat × Nat))
    (h : fillMap debug known t ds m = (m', false)) (d u : Nat) :
    m'.count (d, u) = m.count (d, u) + if u = t then ds.count d else 0 := by
  induction ds generalizing m with
  | nil => simp only [fillMap, Prod.mk.injEq] at h; rw [← h.1]; simp
  | cons x ds ih =>
    simp only [fillMap] at h
    split at h
    · simp at h
    · rw [ih _ h, List.count_append, List.count_cons (l := ds)]
      simp only [List.count_cons, List.count_nil, beq_iff_eq, Prod.mk.injEq]
      by_cases hu : u = t
      · subst hu
        by_cases hx : x = d <;> simp [hx] <;> ring
      · have : ¬ (x = d ∧ t = u) := fun h => hu h.2.symm
        simp [hu, this]

theorem foldl_erase_count (t : Nat) (ds : List Nat) (m : List (Nat × Nat)) (d u : Nat) :
    (ds.foldl (fun m d => m.erase (d, t)) m).count (d, u) =
      m.count (d, u) - if u = t then ds.count d else 0 := by
  induction ds generalizing m with
  | nil => simp
  | cons x ds ih =>
    rw [List.foldl_cons, ih, List.count_erase, List.count_cons]
    by_cases hu : u = t
    · subst hu
      by_cases hx : x = d
      · subst hx; simp; omega
      · simp [hx]
    · have : ¬ (x = d ∧ t = u) := fun h => hu h.2.symm
      simp [hu, this]

theorem removeET_inv {w : World} {s : State} (h : Inv w s) (t : Nat) : Inv w (removeET w s t) where
  nodup := h.nodup
  emap d u := by
    simp only [removeET]
    rw [foldl_erase_count, h.emap, List.count_erase]
    by_cases hu : u = t
    · subst hu; simp [Nat.sub_mul]
    · have : ¬ (t = u) := fun e => hu e.symm
      simp [hu, this]
  nmap := h.nmap
  alive u hu := by
    simp only [removeET] at hu ⊢
    have hus := List.mem_of_mem_erase hu
    split
    · rename_i hd
      simp only [List.mem_cons, not_or]
      refine ⟨?_, h.alive u hus⟩
      rintro rfl; exact hd.2.1 hu
    · exact h.alive u hus
  held u hu := by
    simp only [removeET] at hu
    split at hu
    · rename_i hd
      rcases List.mem_cons.1 hu with rfl | hu
      · exact hd.2.2
      · exact h.held u hu
    · exact h.held u hu

theorem run_removeET {w : World} (L : List Nat) (s s' : State) (h : Inv w s)
    (hr : Res.run (removeETStep w) s L = .ok s') :
    Inv w s' ∧ s'.ets = s.ets.diff L ∧ s'.dvs = s.dvs ∧ s'.ns = s.ns := by
  induction L generalizing s with
  | nil => simp only [Res.run_nil, Res.ok.injEq] at hr; subst hr; exact ⟨h, by simp, rfl, rfl⟩
  | cons t L ih =>
    rw [Res.run_cons, removeETStep] at hr
    split at hr
    · simp at hr
    · simp only [Res.bind_ok] at hr
      obtain ⟨a, b, c, d⟩ := ih _ (removeET_inv h t) hr
      exact ⟨a, by rw [b]; simp [removeET], c, d⟩

theorem run_removeET_ok {w : World} (L : List Nat) (s : State) (h : Inv w s)
    (hL : ∀ t ∈ L, w.heldOutside t = true ∨ L.count t ≤ s.ets.count t) :
    ∃ s', Res.run (removeETStep w) s L = .ok s' := by
  induction L generalizing s with
  | nil => exact ⟨s, rfl⟩
  | cons t L ih =>
    rw [Res.run_cons, removeETStep, if_neg]
    · rw [Res.bind_ok]
      apply ih _ (removeET_inv h t)
      intro u hu
      rcases hL u (by simp [hu]) with h1 | h1
      · exact .inl h1
      · right
        simp only [removeET]
        rw [List.count_erase]
        rw [List.count_cons] at h1
        omega
    · intro hd
      rcases hL t (by simp) with h1 | h1
      · rw [h.held t hd] at h1; cases h1
      · rw [List.count_cons_self] at h1
        exact h.alive t (List.count_pos_iff.1 (by omega)) hd

theorem diff_eq_filter (l L : List Nat) (h : ∀ t ∈ L, l.count t ≤ L.count t) :
    l.diff L = l.filter fun t => t ∉ L := by
  induction l generalizing L with
  | nil => simp
  | cons a l ih =>
    rw [List.cons_diff]
    by_cases ha : a ∈ L
    · rw [if_pos ha, List.filter_cons_of_neg (by simpa using ha), ih]
      · apply List.filter_congr
        intro t ht
        by_cases hta : t = a
        · subst hta
          have h1 := h t ha
          rw [List.count_cons_self] at h1
          have h2 : 0 < l.count t := List.count_pos_iff.2 ht
          have : t ∈ L.erase t := List.count_pos_iff.1 (by rw [List.count_erase_self]; omega)
          simp [this, ha]
        · simp [List.mem_erase_of_ne hta]
      · intro t ht
        have h1 := h t (List.mem_of_mem_erase ht)
        rw [List.count_cons] at h1
        rw [List.count_erase]
        by_cases hta : a = t
        · subst hta; simp at h1 ⊢; omega
        · simp [hta] at h1 ⊢; exact h1
    · rw [if_neg ha, List.filter_cons_of_pos (by simpa using ha), ih]
      intro t ht
      have h1 := h t ht
      rw [List.count_cons] at h1
      omega

theorem terms_count (m : List (Nat × Nat)) (d t : Nat) :
    ((m.filter fun p => p.1 == d).map Prod.snd).count t = m.count (d, t) := by
  induction m with
  | nil => simp
  | cons p m ih =>
    obtain ⟨a, b⟩ := p
    by_cases ha : a = d
    · subst ha; simp [List.count_cons, ih]
    · simp [ha, ih, List.count_cons]

/-- Terms handed to `removeErrorTerm` by `removeDesignVariable`. -/
theorem removeDV_inv {w : World} {s s' : State} (h : Inv w s) (d : Nat) (hr : removeDV w s d = .ok s') :
    Inv w s' ∧ s'.dvs = s.dvs.erase d ∧ s'.ets = (s.ets.filter fun t => d ∉ w.dvsOf t) ∧ s'.ns = s.ns := by
  unfold removeDV at hr
  cases hrun : Res.run (removeETStep w) s ((s.emap.filter fun p => p.1 == d).map Prod.snd) with
  | exc => simp only [hrun, Res.bind_exc] at hr; cases hr
  | ub => simp only [hrun, Res.bind_ub] at hr; cases hr
  | ok s1 =>
    simp only [hrun, Res.bind_ok, Res.ok.injEq] at hr
    obtain ⟨a, b, c, e⟩ := run_removeET _ s s1 h hrun
    subst hr
    refine ⟨⟨?_, a.emap, a.nmap, a.alive, a.held⟩, by simp [c], ?_, e⟩
    · exact (a.nodup.erase d)
    · simp only [b]
      rw [diff_eq_filter]
      · apply List.filter_congr
        intro t ht
        have hc := terms_count s.emap d t
        rw [h.emap] at hc
        have hpos : 0 < s.ets.count t := List.count_pos_iff.2 ht
        by_cases hd : d ∈ w.dvsOf t
        · have : 0 < (w.dvsOf t).count d := List.count_pos_iff.2 hd
          have : t ∈ (s.emap.filter fun p => p.1 == d).map Prod.snd :=
            List.count_pos_iff.1 (by rw [hc]; exact Nat.mul_pos hpos this)
          simp only [this, hd, not_true_eq_false]
        · have h0 : (w.dvsOf t).count d = 0 := List.count_eq_zero.2 hd
          have : t ∉ (s.emap.filter fun p => p.1 == d).map Prod.snd :=
            List.count_eq_zero.1 (by rw [hc, h0, Nat.mul_zero])
          simp only [this, hd, not_false_eq_true]
      · intro t ht
        rw [terms_count, h.emap]
        have h1 : 0 < s.emap.count (d, t) := by
          rw [← terms_count]; exact List.count_pos_iff.2 ht
        rw [h.emap] at h1
        exact Nat.le_mul_of_pos_right _ (Nat.pos_of_mul_pos_left h1)

theorem step_inv {debug : Bool} {w : World} {s s' : State} {threw : Bool} {o : Op} (h : Inv w s)
    (hr : step debug w s o = .ok (s', threw))
    (ht : ∀ t, o = .addET t ∨ o = .addNS t → threw = false) :
    Inv w s' ∧ s'.view = s.view.step w o := by
  cases o with
  | addDV d =>
    simp only [step, Res.ok.injEq, addDV] at hr
    split at hr <;> cases hr
    · rename_i hd; exact ⟨h, by simp [State.view, View.step, hd]⟩
    · rename_i hd
      refine ⟨⟨?_, h.emap, h.nmap, h.alive, h.held⟩, by simp [State.view, View.step, hd]⟩
      rw [List.nodup_append]
      refine ⟨h.nodup, by simp, ?_⟩
      intro a ha b hb
      simp only [List.mem_singleton] at hb
      subst hb; rintro rfl; exact hd ha
  | addET t =>
    have hf := ht t (.inl rfl)
    subst hf
    simp only [step] at hr
    split at hr
    · cases hr
    · rename_i hd
      simp only [Res.ok.injEq, addET, Prod.mk.injEq] at hr
      obtain ⟨rfl, h2⟩ := hr
      refine ⟨⟨h.nodup, ?_, h.nmap, ?_, h.held⟩, rfl⟩
      · intro d u
        have := fillMap_count debug s.dvs t (w.dvsOf t) s.emap _ (Prod.ext rfl h2) d u
        simp only at this ⊢
        rw [this, h.emap, List.count_append, List.count_cons, List.count_nil]
        by_cases hu : u = t
        · subst hu; simp; ring
        · have : ¬ t = u := fun e => hu e.symm
          simp [hu, this]
      · intro u hu
        rcases List.mem_append.1 hu with hu | hu
        · exact h.alive u hu
        · simp only [List.mem_singleton] at hu; subst hu; exact hd
  | addNS t =>
    have hf := ht t (.inr rfl)
    subst hf
    simp only [step, Res.ok.injEq, addNS, Prod.mk.injEq] at hr
    obtain ⟨rfl, h2⟩ := hr
    refine ⟨⟨h.nodup, h.emap, ?_, h.alive, h.held⟩, rfl⟩
    intro d u
    have := fillMap_count debug s.dvs t (w.nsDvsOf t) s.nmap _ (Prod.ext rfl h2) d u
    simp only at this ⊢
    rw [this, h.nmap, List.count_append, List.count_cons, List.count_nil]
    by_cases hu : u = t
    · subst hu; simp; ring
    · have : ¬ t = u := fun e => hu e.symm
      simp [hu, this]
  | removeET t =>
    simp only [step, removeETStep] at hr
    split at hr
    · cases hr
    · simp only [Res.bind_ok, Res.ok.injEq, Prod.mk.injEq] at hr
      obtain ⟨rfl, _⟩ := hr
      exact ⟨removeET_inv h t, rfl⟩
  | removeDV d =>
    simp only [step] at hr
    cases hd : removeDV w s d with
    | exc => rw [hd] at hr; cases hr
    | ub => rw [hd] at hr; cases hr
    | ok s1 =>
      simp only [hd, Res.bind_ok, Res.ok.injEq, Prod.mk.injEq] at hr
      obtain ⟨rfl, _⟩ := hr
      obtain ⟨a, b, c, e⟩ := removeDV_inv h d hd
      exact ⟨a, by simp [State.view, View.step, b, c, e]⟩
  | clear =>
    simp only [step, Res.ok.injEq, Prod.mk.injEq] at hr
    obtain ⟨rfl, _⟩ := hr
    refine ⟨⟨by simp [clear, init], by simp [clear, init], by simp [clear, init], by simp [clear, init], ?_⟩, rfl⟩
    intro t ht
    simp only [clear, List.mem_append, List.mem_filter, Bool.not_eq_true'] at ht
    rcases ht with ht | ht
    · exact ht.2
    · exact h.held t ht

theorem init_inv (w : World) : Inv w init :=
  ⟨by simp [init], by simp [init], by simp [init], by simp [init], by simp [init]⟩

theorem reach_inv {debug : Bool} {w : World} {ops : List Op} {s : State} (h : Reach debug w ops s) :
    Inv w s ∧ s.view = ops.foldl (View.step w) ⟨[], [], []⟩ := by
  induction h with
  | init => exact ⟨init_inv w, rfl⟩
  | step _ hs ht ih =>
    obtain ⟨a, b⟩ := step_inv ih.1 hs ht
    exact ⟨a, by rw [b, ih.2, List.foldl_append]; rfl⟩

/-- **C09, partial.** After every history of add/remove/clear calls: the enumerations of variables and
terms are what the plain lists say (insertion order, dense indices), no variable is enumerated twice,
and asking a variable for its error terms returns exactly the registered terms that list it, for both
kinds of terms. Missing for C09: an error term that is already registered is not rejected
(`C09_duplicate_term_counterexample`), and in debug builds an `addErrorTerm` that throws leaves the term
registered (`C09_failed_add_counterexample`). -/
theorem C09_indices_consistent_partial (debug : Bool) (w : World) (ops : List Op) (s : State)
    (h : Reach debug w ops s) :
    s.view = ops.foldl (View.step w) ⟨[], [], []⟩ ∧ s.dvs.Nodup ∧
    (∀ d t, getErrors s d t ↔ t ∈ s.ets ∧ d ∈ w.dvsOf t) ∧
    (∀ d t, getNonSquaredErrors s d t ↔ t ∈ s.ns ∧ d ∈ w.nsDvsOf t) := by
  obtain ⟨i, hv⟩ := reach_inv h
  refine ⟨hv, i.nodup, ?_, ?_⟩
  · intro d t
    unfold getErrors
    rw [← List.count_pos_iff, i.emap, Nat.pos_iff_ne_zero, Nat.mul_ne_zero_iff, ← Nat.pos_iff_ne_zero, ← Nat.pos_iff_ne_zero, List.count_pos_iff, List.count_pos_iff]
  · intro d t
    unfold getNonSquaredErrors
    rw [← List.count_pos_iff, i.nmap, Nat.pos_iff_ne_zero, Nat.mul_ne_zero_iff, ← Nat.pos_iff_ne_zero, ← Nat.pos_iff_ne_zero, List.count_pos_iff, List.count_pos_iff]

/-- **C09 (re-adding a variable).** Adding a variable that is present throws and changes nothing; a
variable that is not present is accepted and enumerated last. -/
theorem C09_readd_rejected (debug : Bool) (w : World) (s : State) (d : Nat) :
    (d ∈ s.dvs → step debug w s (.addDV d) = .ok (s, true)) ∧
    (d ∉ s.dvs → step debug w s (.addDV d) = .ok ({ s with dvs := s.dvs ++ [d] }, false)) := by
  constructor <;> intro h <;> simp [step, addDV, h]

/-- **C09 (re-adding a term: false).** Adding the same term twice is accepted and the term is enumerated
twice, so its cost counts twice. -/
theorem C09_duplicate_term_counterexample :
    ∃ (w : World) (s : State), Reach true w [.addDV 0, .addET 7, .addET 7] s ∧ s.ets = [7, 7] := by
  refine ⟨⟨fun _ => [0], fun _ => [], fun _ => true⟩, _, (((Reach.init.step (o := .addDV 0) rfl (by simp)).step (o := .addET 7) rfl
      (by intros; rfl)).step (o := .addET 7) rfl (by intros; rfl)), ?_⟩
  rfl

/-- **C09 (failed add: false).** In a debug build adding a term that lists an unknown variable throws,
yet the term stays registered and the map lists it for the variables before the unknown one only. -/
theorem C09_failed_add_counterexample :
    ∃ (w : World) (s s' : State), Reach true w [.addDV 0] s ∧
      step true w s (.addET 7) = .ok (s', true) ∧ s'.ets = [7] ∧ 2 ∈ w.dvsOf 7 ∧ ¬ getErrors s' 2 7 := by
  refine ⟨⟨fun _ => [0, 1, 2], fun _ => [], fun _ => true⟩, _, _,
    Reach.init.step (o := .addDV 0) rfl (by simp), rfl, rfl, by simp, ?_⟩
  simp [getErrors, addET, fillMap, addDV, init]

/-- **C10, partial** (squared terms). Removing a variable from any reachable problem, where no
term that would die with the problem's reference lists the variable twice, returns normally; afterwards
no squared term left refers to the variable, all other terms and variables remain in order, and the
variable is gone. Missing for C10: non-squared terms (`C10_nonsquared_counterexample`) and terms listing
the variable twice (`C10_listed_twice_counterexample`). -/
theorem C10_removes_terms_partial (debug : Bool) (w : World) (ops : List Op) (s : State)
    (h : Reach debug w ops s) (d : Nat)
    (hd : ∀ t ∈ s.ets, w.heldOutside t = true ∨ (w.dvsOf t).count d ≤ 1) :
    ∃ s', step debug w s (.removeDV d) = .ok (s', false) ∧
      (∀ t ∈ s'.ets, d ∉ w.dvsOf t) ∧ d ∉ s'.dvs ∧
      s'.ets = (s.ets.filter fun t => d ∉ w.dvsOf t) ∧ s'.dvs = s.dvs.erase d ∧
      ∀ t, ¬ getErrors s' d t := by
  obtain ⟨i, _⟩ := reach_inv h
  obtain ⟨s1, h1⟩ := run_removeET_ok ((s.emap.filter fun p => p.1 == d).map Prod.snd) s i (by
    intro t ht
    have hpos : 0 < s.emap.count (d, t) := by rw [← terms_count]; exact List.count_pos_iff.2 ht
    rw [terms_count, i.emap]
    rw [i.emap] at hpos
    have hts : t ∈ s.ets := List.count_pos_iff.1 (Nat.pos_of_mul_pos_right hpos)
    rcases hd t hts with h2 | h2
    · exact .inl h2
    · right; calc _ ≤ s.ets.count t * 1 := Nat.mul_le_mul_left _ h2
        _ = _ := Nat.mul_one _)
  have h2 : removeDV w s d = .ok { s1 with dvs := s1.dvs.erase d } := by
    simp [removeDV, h1]
  obtain ⟨a, b, c, _⟩ := removeDV_inv i d h2
  refine ⟨_, by simp only [step, h2, Res.bind_ok], ?_, ?_, c, b, ?_⟩
  · intro t ht; rw [c] at ht; simpa using (List.mem_filter.1 ht).2
  · rw [b]; exact i.nodup.not_mem_erase
  · intro t ht
    have := List.count_pos_iff.2 ht
    rw [a.emap, c] at this
    have h3 := List.count_pos_iff.1 (Nat.pos_of_mul_pos_right this)
    have h4 := List.count_pos_iff.1 (Nat.pos_of_mul_pos_left this)
    simpa [h4] using (List.mem_filter.1 h3).2

/-- **C10 (non-squared terms: false).** After removing its only variable a non-squared term is still
enumerated and still refers to the removed variable. -/
theorem C10_nonsquared_counterexample :
    ∃ (w : World) (s : State), Reach true w [.addDV 0, .addNS 7, .removeDV 0] s ∧
      0 ∉ s.dvs ∧ s.ns = [7] ∧ 0 ∈ w.nsDvsOf 7 := by
  refine ⟨⟨fun _ => [], fun _ => [0], fun _ => true⟩, _, (((Reach.init.step (o := .addDV 0) rfl (by simp)).step (o := .addNS 7) rfl
      (by intros; rfl)).step (o := .removeDV 0) rfl (by simp)), ?_⟩
  decide

/-- **C10 (term listing the variable twice: undefined behaviour).** If a term owned by the problem lists
a variable twice, removing the variable reads the term after it has been destroyed. -/
theorem C10_listed_twice_counterexample :
    ∃ (w : World) (s : State), Reach true w [.addDV 0, .addET 7] s ∧
      step true w s (.removeDV 0) = .ub := by
  refine ⟨⟨fun _ => [0, 0], fun _ => [], fun _ => false⟩, _, ((Reach.init.step (o := .addDV 0) rfl (by simp)).step (o := .addET 7) rfl (by intros; rfl)), ?_⟩
  decide

/-- **C11.** After `clear()` every problem, whatever its history, enumerates nothing, answers every
query with the empty set, and any further calls that do not use destroyed terms act as on a new
problem. -/
theorem C11_clear_empties (debug : Bool) (w : World) (ops ops' : List Op) (s s' : State)
    (h : Reach debug w ops s) (h' : Reach debug w (ops ++ .clear :: ops') s') :
    (clear w s).view = ⟨[], [], []⟩ ∧ (∀ d t, ¬ getErrors (clear w s) d t) ∧
    (∀ d t, ¬ getNonSquaredErrors (clear w s) d t) ∧
    s'.view = ops'.foldl (View.step w) ⟨[], [], []⟩ := by
  refine ⟨rfl, by simp [getErrors, clear, init], by simp [getNonSquaredErrors, clear, init], ?_⟩
  rw [(reach_inv h').2, List.foldl_append, List.foldl_cons]
  rfl

/-- **C11** (`SimpleOptimizationProblem`, contents). Between two calls of `clear()` the squared terms are those added, in this order, every variable added is there exactly once, in the order of
first adding, and no other. `before` is any history that ends with `clear()`, or the empty one. -/
theorem C11_simple_contents (before after : List SOp) (hb : before = [] ∨ ∃ l, before = l ++ [.clear]) (ha : SOp.clear ∉ after) :
    let s := (before ++ after).foldl sstep ⟨[], [], []⟩
    s.ets = after.filterMap (fun | .addET t => some t | _ => none) ∧
    s.ns = (before ++ after).filterMap (fun | .addNS t => some t | _ => none) ∧
    s.dvs.Nodup ∧ (∀ d, d ∈ s.dvs ↔ SOp.addDV d ∈ after) ∧
    s.dvs.Sublist (after.filterMap fun | .addDV d => some d | _ => none) := by
  have hns : ∀ (l : List SOp) (s : Simple), (l.foldl sstep s).ns = s.ns ++ l.filterMap (fun | .addNS t => some t | _ => none) := by
    intro l
    induction l with
    | nil => intro s; simp
    | cons op l ih =>
      intro s
      rw [List.foldl_cons, ih]
      cases op with
      | addDV d => by_cases h : d ∈ s.dvs <;> simp [sstep, h]
      | addET t => simp [sstep]
      | addNS t => simp [sstep]
      | clear => simp [sstep]
  have hkey : ∀ (l : List SOp) (s : Simple), SOp.clear ∉ l → s.dvs.Nodup →
      (l.foldl sstep s).ets = s.ets ++ l.filterMap (fun | .addET t => some t | _ => none) ∧
      (l.foldl sstep s).dvs.Nodup ∧ (∀ d, d ∈ (l.foldl sstep s).dvs ↔ d ∈ s.dvs ∨ SOp.addDV d ∈ l) ∧
      (l.foldl sstep s).dvs.Sublist (s.dvs ++ l.filterMap fun | .addDV d => some d | _ => none) := by
    intro l
    induction l with
    | nil => intro s _ hs; simp [hs]
    | cons op l ih =>
      intro s hl hs
      have hl' : SOp.clear ∉ l := fun h => hl (List.mem_cons_of_mem _ h)
      rw [List.foldl_cons]
      cases op with
      | addDV d =>
        by_cases h : d ∈ s.dvs
        · have e : sstep s (.addDV d) = s := by simp [sstep, h]
          rw [e]
          obtain ⟨i1, i2, i3, i4⟩ := ih s hl' hs
          refine ⟨by simpa using i1, i2, fun d' => ?_, ?_⟩
          · rw [i3 d']
            simp only [List.mem_cons, SOp.addDV.injEq]
            constructor
            · rintro (h' | h')
              · exact Or.inl h'
              · exact Or.inr (Or.inr h')
            · rintro (h' | rfl | h')
              · exact Or.inl h'
              · exact Or.inl h
              · exact Or.inr h'
          · refine i4.trans ?_
            simp only [List.filterMap_cons]
            exact List.Sublist.append_left (List.sublist_cons_self _ _) _
        · have e : sstep s (.addDV d) = { s with dvs := s.dvs ++ [d] } := by simp [sstep, h]
          rw [e]
          obtain ⟨i1, i2, i3, i4⟩ := ih { s with dvs := s.dvs ++ [d] } hl'
            (by simpa [List.nodup_append] using ⟨hs, fun a ha he => h (he ▸ ha)⟩)
          refine ⟨by simpa using i1, i2, fun d' => ?_, by simpa using i4⟩
          rw [i3 d']
          simp only [List.mem_append, List.mem_cons, List.not_mem_nil, or_false, SOp.addDV.injEq, or_assoc]
      | addET t =>
        obtain ⟨i1, i2, i3, i4⟩ := ih (sstep s (.addET t)) hl' hs
        refine ⟨by simpa [sstep] using i1, i2, fun d' => ?_, by simpa [sstep] using i4⟩
        rw [i3 d']; simp [sstep]
      | addNS t =>
        obtain ⟨i1, i2, i3, i4⟩ := ih (sstep s (.addNS t)) hl' hs
        refine ⟨by simpa [sstep] using i1, i2, fun d' => ?_, by simpa [sstep] using i4⟩
        rw [i3 d']; simp [sstep]
      | clear => exact absurd List.mem_cons_self hl
  have h0 : (before.foldl sstep ⟨[], [], []⟩).dvs = [] ∧ (before.foldl sstep ⟨[], [], []⟩).ets = [] := by
    rcases hb with rfl | ⟨l, rfl⟩
    · exact ⟨rfl, rfl⟩
    · rw [List.foldl_append]; exact ⟨rfl, rfl⟩
  intro s
  have hs : s = after.foldl sstep (before.foldl sstep ⟨[], [], []⟩) := List.foldl_append
  obtain ⟨i1, i2, i3, i4⟩ := hkey after (before.foldl sstep ⟨[], [], []⟩) ha (by rw [h0.1]; exact List.nodup_nil)
  rw [h0.1] at i3 i4
  rw [h0.2] at i1
  refine ⟨by rw [hs]; simpa using i1, (hns (before ++ after) ⟨[], [], []⟩).trans (List.nil_append _), by rw [hs]; exact i2, ?_, by rw [hs]; simpa using i4⟩
  intro d
  rw [hs, i3 d]; simp

/-- A variable added twice, after a `clear()`: the hypotheses are met. -/
example : (([.addDV 4, .addET 1, .clear] ++ [.addDV 3, .addET 2, .addDV 5, .addDV 3] : List SOp).foldl sstep ⟨[], [], []⟩).dvs = [3, 5] ∧
    SOp.clear ∉ ([.addDV 3, .addET 2, .addDV 5, .addDV 3] : List SOp) := by
  refine ⟨rfl, by simp⟩

/-- **C11, partial** (`SimpleOptimizationProblem`). After `clear()` no variable and no squared term is
left, for every history. Missing: non-squared terms, see the counterexample. -/
theorem C11_simple_clear_partial (ops : List SOp) (s : Simple) :
    (sstep (ops.foldl sstep s) .clear).dvs = [] ∧ (sstep (ops.foldl sstep s) .clear).ets = [] :=
  ⟨rfl, rfl⟩

/-- **C11 (simple problem: false).** Non-squared terms survive `clear()`; a new problem has none. -/
theorem C11_simple_clear_counterexample :
    (([.addDV 0, .addNS 7, .clear] : List SOp).foldl sstep ⟨[], [], []⟩).ns = [7] := rfl

/-! ### Concrete instances -/

/-- A world with terms sharing variables. -/
def demoWorld : World := ⟨fun t => if t = 7 then [0, 1] else [1], fun _ => [0], fun t => t == 7⟩

example : ∃ s, Reach true demoWorld
    [.addDV 0, .addDV 1, .addET 7, .addET 8, .addNS 3, .addDV 1, .removeET 8, .removeDV 0] s ∧
    s.view.ets = [] ∧ s.view.dvs = [1] := by
  refine ⟨_, ((((((((Reach.init.step (o := .addDV 0) rfl (by simp)).step (o := .addDV 1) rfl (by simp)).step
      (o := .addET 7) rfl (by intros; rfl)).step (o := .addET 8) rfl (by intros; rfl)).step (o := .addNS 3) rfl
      (by intros; rfl)).step (o := .addDV 1) rfl (by simp)).step (o := .removeET 8) rfl (by simp)).step
      (o := .removeDV 0) rfl (by simp)), ?_⟩
  decide

end Verif.Problem
