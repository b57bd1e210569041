import Mathlib.Data.Finset.Card
import Verif.MatrixStack.Guard

/-!
Property theorems C03: guards release each factor exactly once.
-/
namespace Verif.PopGuard

/-- `owners` is the set of guards that own a factor; the stack is `base` plus one factor per owner. -/
def Inv {α} (base : List α) (s : State α) (owners : Finset Nat) : Prop :=
  (∀ g, g ∈ owners ↔ s.slot g = some true) ∧ ∃ ext, s.stack = ext ++ base ∧ ext.length = owners.card

theorem popGuard_inv {α} {base : List α} {s : State α} {W : Finset Nat} (h : Inv base s W) (g : Nat)
    (hg : s.slot g ≠ none) :
    ∃ s', popGuard s g = .ok s' ∧ Inv base s' (W.erase g) ∧ s'.slot g = some false ∧
      ∀ k, k ≠ g → s'.slot k = s.slot k := by
  obtain ⟨h1, ext, h2, h3⟩ := h
  unfold popGuard
  cases hs : s.slot g with
  | none => exact absurd hs hg
  | some b =>
    cases b with
    | false =>
      refine ⟨s, rfl, ⟨fun k => ?_, ext, h2, ?_⟩, hs, fun _ _ => rfl⟩
      · rw [Finset.mem_erase, h1]
        constructor
        · exact fun h => h.2
        · intro h; refine ⟨?_, h⟩; rintro rfl; rw [hs] at h; cases h
      · rw [Finset.erase_eq_of_notMem]
        · exact h3
        · rw [h1, hs]; simp
    | true =>
      have hm : g ∈ W := (h1 g).2 hs
      cases ext with
      | nil =>
        simp only [List.length_nil] at h3
        exact absurd (Finset.card_eq_zero.1 h3.symm ▸ hm) (Finset.notMem_empty _)
      | cons x ext =>
        rw [h2]
        refine ⟨_, rfl, ⟨fun k => ?_, ext, rfl, ?_⟩, by simp [setSlot], fun k hk => by simp [setSlot, hk]⟩
        · rw [Finset.mem_erase, h1]
          by_cases hk : k = g <;> simp [setSlot, hk]
        · rw [Finset.card_erase_of_mem hm, ← h3]; simp

theorem step_inv {α} {base : List α} {s s' : State α} {W : Finset Nat} (h : Inv base s W) {o : Op α}
    (hl : ¬ Leaky s o) (hs : step s o = .ok s') : ∃ W', Inv base s' W' := by
  cases o with
  | create g x =>
    simp only [step] at hs
    split at hs
    · rename_i hn
      cases hs
      obtain ⟨h1, ext, h2, h3⟩ := h
      refine ⟨insert g W, fun k => ?_, x :: ext, by simp [h2], ?_⟩
      · rw [Finset.mem_insert, h1]
        by_cases hk : k = g <;> simp [setSlot, hk]
      · rw [Finset.card_insert_of_notMem (by rw [h1, hn]; simp), ← h3]; simp
    · cases hs
  | moveConstruct d src =>
    simp only [step] at hs
    split at hs
    · cases hs
    · rename_i hd
      cases hsrc : s.slot src with
      | none => simp [hsrc] at hs
      | some p =>
        simp only [hsrc, Res.ok.injEq] at hs
        subst hs
        obtain ⟨h1, ext, h2, h3⟩ := h
        have hd' : s.slot d = none := by simpa using hd
        have hne : d ≠ src := by rintro rfl; rw [hd'] at hsrc; cases hsrc
        cases p with
        | false =>
          refine ⟨W, fun k => ?_, ext, h2, h3⟩
          rw [h1]
          by_cases hk : k = src
          · subst hk; simp [setSlot, hsrc]
          · by_cases hk' : k = d
            · subst hk'; simp [setSlot, hk, hd']
            · simp [setSlot, hk, hk']
        | true =>
          refine ⟨insert d (W.erase src), fun k => ?_, ext, h2, ?_⟩
          · rw [Finset.mem_insert, Finset.mem_erase, h1]
            by_cases hk : k = src
            · subst hk; simp [setSlot, Ne.symm hne]
            · by_cases hk' : k = d
              · subst hk'; simp [setSlot, hk]
              · simp [setSlot, hk, hk']
          · rw [Finset.card_insert_of_notMem, Finset.card_erase_of_mem ((h1 _).2 hsrc), h3]
            · have : 0 < W.card := Finset.card_pos.2 ⟨src, (h1 _).2 hsrc⟩
              omega
            · rw [Finset.mem_erase, h1, hd']; simp
  | moveAssign d src =>
    simp only [step] at hs
    split at hs
    · cases hs
    · rename_i hd
      simp only [Leaky] at hl
      cases hsrc : s.slot src with
      | none => simp [hsrc] at hs
      | some p =>
        simp only [hsrc, Res.ok.injEq] at hs
        subst hs
        obtain ⟨h1, ext, h2, h3⟩ := h
        cases p with
        | false =>
          refine ⟨W, fun k => ?_, ext, h2, h3⟩
          rw [h1]
          by_cases hk : k = src
          · subst hk; simp [setSlot, hsrc]
          · by_cases hk' : k = d
            · subst hk'; simp [setSlot, hk, hl]
            · simp [setSlot, hk, hk']
        | true =>
          have hne : d ≠ src := by rintro rfl; exact hl hsrc
          refine ⟨insert d (W.erase src), fun k => ?_, ext, h2, ?_⟩
          · rw [Finset.mem_insert, Finset.mem_erase, h1]
            by_cases hk : k = src
            · subst hk; simp [setSlot, Ne.symm hne]
            · by_cases hk' : k = d
              · subst hk'; simp [setSlot, hk]
              · simp [setSlot, hk, hk']
          · rw [Finset.card_insert_of_notMem, Finset.card_erase_of_mem ((h1 _).2 hsrc), h3]
            · have : 0 < W.card := Finset.card_pos.2 ⟨src, (h1 _).2 hsrc⟩
              omega
            · rw [Finset.mem_erase, h1]; simp [hl]
  | pop g =>
    simp only [step] at hs
    by_cases hg : s.slot g = none
    · simp [popGuard, hg] at hs
    · obtain ⟨s1, e, i, _, _⟩ := popGuard_inv h g hg
      rw [e] at hs; cases hs
      exact ⟨_, i⟩
  | destroy g =>
    simp only [step] at hs
    by_cases hg : s.slot g = none
    · simp [popGuard, hg] at hs
    · obtain ⟨s1, e, ⟨i1, ext, i2, i3⟩, j1, _⟩ := popGuard_inv h g hg
      rw [e] at hs
      simp only [Res.bind_ok, Res.ok.injEq] at hs
      subst hs
      refine ⟨W.erase g, fun k => ?_, ext, i2, i3⟩
      rw [i1]
      by_cases hk : k = g
      · subst hk; simp [setSlot, j1]
      · simp [setSlot, hk]

theorem run_inv {α} {base : List α} (os : List (Op α)) {s s' : State α} {W : Finset Nat}
    (h : Inv base s W) (hc : Clean s os) (hr : Res.run step s os = .ok s') : ∃ W', Inv base s' W' := by
  induction os generalizing s W with
  | nil => cases hr; exact ⟨W, h⟩
  | cons o os ih =>
    rw [Res.run_cons] at hr
    cases hs : step s o with
    | ok s1 =>
      rw [hs] at hr
      obtain ⟨W1, h1⟩ := step_inv h hc.1 hs
      exact ih h1 (hc.2 s1 hs) hr
    | exc => rw [hs] at hr; cases hr
    | ub => rw [hs] at hr; cases hr

/-- **C03.** Every program of guard creations, moves, early pops and destructions that is legal (no use
outside lifetime) and never move-assigns onto a guard still owning a factor: once every guard has been
destroyed, the chain is exactly what it was before the program started, for every initial chain. Hence
each pushed factor was popped exactly once and nothing else was popped. -/
theorem C03_guards_restore_chain {α} (base : List α) (os : List (Op α)) (s' : State α)
    (hc : Clean ⟨base, fun _ => none⟩ os)
    (hr : Res.run step ⟨base, fun _ => none⟩ os = .ok s')
    (hdead : ∀ g, s'.slot g = none) : s'.stack = base := by
  obtain ⟨W, h1, ext, h2, h3⟩ := run_inv (base := base) os (W := ∅) ⟨by simp, [], rfl, rfl⟩ hc hr
  have : W = ∅ := by
    apply Finset.eq_empty_of_forall_notMem
    intro g hg
    rw [h1, hdead] at hg; cases hg
  subst this
  simp only [Finset.card_empty, List.length_eq_zero_iff] at h3
  subst h3
  simpa using h2

/-- **C03** (never below). At every point of such a program the factors that were there before it
started are still there, and the number of extra factors is the number of owning guards. -/
theorem C03_base_always_intact {α} (base : List α) (os : List (Op α)) (s' : State α)
    (hc : Clean ⟨base, fun _ => none⟩ os)
    (hr : Res.run step ⟨base, fun _ => none⟩ os = .ok s') :
    ∃ ext, ∃ owners : Finset Nat, s'.stack = ext ++ base ∧ ext.length = owners.card ∧
      ∀ g, g ∈ owners ↔ s'.slot g = some true := by
  obtain ⟨W, h1, ext, h2, h3⟩ := run_inv (base := base) os (W := ∅) ⟨by simp, [], rfl, rfl⟩ hc hr
  exact ⟨ext, W, h2, h3, h1⟩

/-- **C03** (no exception). Such a program never makes a guard pop an empty stack. -/
theorem C03_no_throw {α} (base : List α) (os : List (Op α))
    (hc : Clean ⟨base, fun _ => none⟩ os) :
    Res.run step ⟨base, fun _ => none⟩ os ≠ .exc := by
  have key : ∀ (os : List (Op α)) (s : State α) (W : Finset Nat), Inv base s W → Clean s os →
      Res.run step s os ≠ .exc := by
    intro os
    induction os with
    | nil => intro s W _ _ h; cases h
    | cons o os ih =>
      intro s W hi hc
      rw [Res.run_cons]
      cases hs : step s o with
      | ok s1 =>
        obtain ⟨W1, h1⟩ := step_inv hi hc.1 hs
        simpa using ih s1 W1 h1 (hc.2 s1 hs)
      | ub => simp
      | exc =>
        exfalso
        cases o with
        | create g x => simp only [step] at hs; split at hs <;> cases hs
        | moveConstruct d src =>
          simp only [step] at hs
          split at hs
          · cases hs
          · split at hs <;> cases hs
        | moveAssign d src =>
          simp only [step] at hs
          split at hs
          · cases hs
          · split at hs <;> cases hs
        | pop g =>
          simp only [step] at hs
          by_cases hg : s.slot g = none
          · simp [popGuard, hg] at hs
          · obtain ⟨s1, e, _⟩ := popGuard_inv hi g hg
            rw [e] at hs; cases hs
        | destroy g =>
          simp only [step] at hs
          by_cases hg : s.slot g = none
          · simp [popGuard, hg] at hs
          · obtain ⟨s1, e, _⟩ := popGuard_inv hi g hg
            rw [e] at hs; cases hs
  exact key os _ ∅ ⟨by simp, [], rfl, rfl⟩ hc

/-- **C03, the one leaking use.** Move-assigning onto a guard that owns a factor drops the obligation to
pop: after destroying all guards a factor is left on the chain. -/
theorem C03_move_assign_leaks_counterexample :
    ∃ s', Res.run step (⟨[], fun _ => none⟩ : State Nat)
        [.create 0 10, .create 1 20, .moveAssign 0 1, .destroy 1, .destroy 0] = .ok s' ∧
      s'.slot 0 = none ∧ s'.slot 1 = none ∧ s'.stack = [10] :=
  ⟨_, rfl, rfl, rfl, rfl⟩

/-- Concrete program meeting the hypotheses: two guards, one moved, one popped early, destroyed out of
order. -/
example : ∃ s', Res.run step (⟨[7], fun _ => none⟩ : State Nat)
      [.create 0 10, .create 1 20, .moveConstruct 2 0, .pop 1, .destroy 0, .destroy 2, .destroy 1]
      = .ok s' ∧ s'.stack = [7] ∧
    Clean (⟨[7], fun _ => none⟩ : State Nat)
      [.create 0 10, .create 1 20, .moveConstruct 2 0, .pop 1, .destroy 0, .destroy 2, .destroy 1] := by
  refine ⟨_, rfl, rfl, ?_⟩
  refine ⟨id, fun _ h => ?_⟩; cases h
  refine ⟨id, fun _ h => ?_⟩; cases h
  refine ⟨id, fun _ h => ?_⟩; cases h
  refine ⟨id, fun _ h => ?_⟩; cases h
  refine ⟨id, fun _ h => ?_⟩; cases h
  refine ⟨id, fun _ h => ?_⟩; cases h
  refine ⟨id, fun _ h => ?_⟩; cases h
  trivial

end Verif.PopGuard
