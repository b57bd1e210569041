import Verif.Sampler.Model
import Mathlib.Tactic.SplitIfs
import Mathlib.Tactic.Ring
import Mathlib.Tactic.Linarith
import Mathlib.Tactic.NormNum
import Mathlib.Tactic.FieldSimp
import Mathlib.Algebra.Order.Ring.Rat
import Mathlib.Analysis.SpecialFunctions.Exp

/-!
C39 and C40: the Metropolis-Hastings sampler and the statistics of all samplers.
-/
namespace Verif.Sampler
open FloatLike

section mh
variable {K : Type} [LinearOrder K] [Field K] [IsStrictOrderedRing K] {X D P : Type}

/-- What is needed of the exponential function. -/
structure Expo (ex : K → K) : Prop where
  zero : ex 0 = 1
  pos : ∀ a, 0 < ex a
  mono : ∀ a b, a ≤ b → ex a ≤ ex b

theorem accProb_better {ex : K → K} (h0 : ex 0 = 1) {a b : K} (h : b ≤ a) : accProb ex (.fin a) (.fin b) = .fin 1 := by
  unfold accProb dmin
  have : ¬ Dbl.lt (dadd (dneg (.fin b)) (.fin a)) (.fin 0 : Dbl K) = true := by
    simp only [dneg, dadd, Dbl.lt_fin, not_lt]; linarith
  rw [if_neg this]
  show Dbl.fin (ex 0) = _
  rw [h0]

theorem accProb_worse {ex : K → K} {a b : K} (h : a < b) : accProb ex (.fin a) (.fin b) = .fin (ex (a - b)) := by
  unfold accProb dmin
  have : Dbl.lt (dadd (dneg (.fin b)) (.fin a)) (.fin 0 : Dbl K) = true := by
    simp only [dneg, dadd, Dbl.lt_fin]; linarith
  rw [if_pos this]
  show Dbl.fin (ex (-b + a)) = _
  rw [neg_add_eq_sub]

/-- The acceptance probability in cases: one for an improvement, a tie or an undefined difference, otherwise the exponential of the difference. -/
theorem accProb_cases (ex : K → K) (h : Expo ex) (old new : Dbl K) :
    accProb ex old new = .fin 1 ∨ accProb ex old new = .fin 0 ∨ ∃ a b, old = .fin a ∧ new = .fin b ∧ a < b ∧ accProb ex old new = .fin (ex (a - b)) := by
  cases old with
  | fin a =>
    cases new with
    | fin b =>
      rcases le_or_gt b a with h1 | h1
      · exact Or.inl (accProb_better h.zero h1)
      · exact Or.inr (Or.inr ⟨a, b, rfl, rfl, h1, accProb_worse h1⟩)
    | _ => simp [accProb, dmin, dadd, dneg, Dbl.lt, dexp, h.zero]
  | _ => cases new <;> simp [accProb, dmin, dadd, dneg, Dbl.lt, dexp, h.zero]

/-- The probability always lies in the unit interval, also for densities that are infinite or not a number. -/
theorem accProb_range (ex : K → K) (h : Expo ex) (old new : Dbl K) : ∃ p : K, accProb ex old new = .fin p ∧ 0 ≤ p ∧ p ≤ 1 := by
  rcases accProb_cases ex h old new with h1 | h1 | ⟨a, b, -, -, hab, h1⟩
  · exact ⟨1, h1, zero_le_one, le_rfl⟩
  · exact ⟨0, h1, le_rfl, zero_le_one⟩
  · refine ⟨_, h1, (h.pos _).le, ?_⟩
    rw [← h.zero]
    exact h.mono _ _ (by linarith)

/-- **C39, acceptance.** A step that evaluates both densities to numbers accepts a proposal that is not worse for every random number, and any other proposal exactly if the random number is
below `exp(old - new)`. An infinite new density is never accepted from a finite one. -/
theorem C39_acceptance_partial (ex : K → K) (hex : Expo ex) (Q : Prob K X D P) (s : MH K X) (d : D) (u : K) (hu0 : 0 ≤ u) (hu1 : u < 1)
    (a : K) (ha : s.nld = .fin a) :
    (∀ b, Q.dens (Q.obs (Q.upd s.x d)) = some (.fin b) → b ≤ a → (s.propose ex Q d u).1.last = true) ∧
    (∀ b, Q.dens (Q.obs (Q.upd s.x d)) = some (.fin b) → a < b → ((s.propose ex Q d u).1.last = true ↔ u < ex (a - b))) ∧
    (Q.dens (Q.obs (Q.upd s.x d)) = some .pinf → (s.propose ex Q d u).1.last = false) := by
  refine ⟨fun b hb hab => ?_, fun b hb hab => ?_, fun hb => ?_⟩
  · unfold MH.propose
    rw [hb, ha]
    have hp : accProb ex (.fin a) (.fin b) = .fin 1 := accProb_better hex.zero hab
    dsimp only
    rw [hp]
    simp [MH.decide, Dbl.lt, hu1]
  · unfold MH.propose
    rw [hb, ha]
    have hp : accProb ex (.fin a) (.fin b) = .fin (ex (a - b)) := accProb_worse hab
    dsimp only
    rw [hp]
    unfold MH.decide
    split_ifs with h1
    · simpa [Dbl.lt] using h1
    · simp only [Bool.false_eq_true, false_iff]
      simpa [Dbl.lt] using h1
  · unfold MH.propose
    rw [hb, ha]
    have hp : accProb ex (.fin a) .pinf = .fin 0 := by
      simp [accProb, dmin, dadd, dneg, Dbl.lt, dexp]
    dsimp only
    rw [hp]
    unfold MH.decide
    rw [if_neg]
    simp [Dbl.lt, not_lt.mpr hu0]

/-- Reverting the last update gives the parameters back (this is property C63 of the design variables). -/
def Reverts (Q : Prob K X D P) : Prop := ∀ x d, Q.obs (Q.rev (Q.upd x d)) = Q.obs x

/-- A step that ends normally in a state where the cached density, if it is going to be used, is the one of the current design variables; a rejected step leaves parameters and density. -/
theorem step_spec {debug : Bool} {ex : K → K} {Q : Prob K X D P} (hQ : Reverts Q) {s s' : MH K X} {d : D} {u : K} {p : Dbl K}
    (hc : s.need = false → Q.dens (Q.obs s.x) = some s.nld) (h : s.step debug ex Q d u = (s', some p)) :
    Q.dens (Q.obs s'.x) = some s'.nld ∧ (s'.last = false → Q.obs s'.x = Q.obs s.x) ∧ (s'.last = true → Q.obs s'.x = Q.obs (Q.upd s.x d)) ∧
    (s'.st = s.st ∧ s'.init = s.init ∧ s'.force = s.force) ∧ ∃ old new, p = accProb ex old new ∧ (s'.last = true ↔ Dbl.lt (.fin u) p = true) := by
  unfold MH.step at h
  dsimp only at h
  split_ifs at h with hb
  · -- the density of the state before the proposal
    have hbefore : Q.dens (Q.obs s.x) = some (s.before debug Q).1.nld ∧ (s.before debug Q).1.x = s.x ∧ (s.before debug Q).1.st = s.st ∧
        (s.before debug Q).1.init = s.init ∧ (s.before debug Q).1.force = s.force := by
      unfold MH.before at hb ⊢
      split_ifs at hb ⊢ with h1 h2
      · cases hv : Q.dens (Q.obs s.x) with
        | none => rw [hv] at hb; cases hb
        | some v => exact ⟨rfl, rfl, rfl, rfl, rfl⟩
      · have := hc (by simpa using h1)
        rw [this]; exact ⟨rfl, rfl, rfl, rfl, rfl⟩
      · exact ⟨hc (by simpa using h1), rfl, rfl, rfl, rfl⟩
    generalize (s.before debug Q).1 = t at *
    obtain ⟨b1, b2, b3, b4, b5⟩ := hbefore
    unfold MH.propose at h
    split at h
    · cases h
    · rename_i new hn
      simp only [Prod.mk.injEq, Option.some.injEq] at h
      obtain ⟨rfl, rfl⟩ := h
      rw [b2] at hn
      unfold MH.decide
      split_ifs with hacc
      · refine ⟨?_, (fun hx => absurd hx (by simp)), (fun _ => by rw [b2]), ⟨b3, b4, b5⟩, t.nld, new, rfl, by simp [hacc]⟩
        show Q.dens (Q.obs (Q.upd t.x d)) = some new
        rw [b2]; exact hn
      · refine ⟨?_, fun _ => ?_, (fun hx => absurd hx (by simp)), ⟨b3, b4, b5⟩, t.nld, new, rfl, by simp [hacc]⟩
        · show Q.dens (Q.obs (Q.rev (Q.upd t.x d))) = some t.nld
          rw [hQ, b2]; exact b1
        · show Q.obs (Q.rev (Q.upd t.x d)) = _
          rw [hQ, b2]
  · simp at h

/-- Calls of the sampler: `run`, `reset`, a change of the design variables by the user followed by `forceRecomputationNegLogDensity` as its
documentation asks for, a changed problem (B:103-105), another smoothing factor (B:142-146). -/
inductive Op (K X D : Type) where
  | run (ds : List (D × K))
  | reset
  | external (x : X)
  | changed
  | smoothing (a : K)

/-- One call; the result is absent if it throws. -/
def exec (debug : Bool) (ex : K → K) (Q : Prob K X D P) (s : MH K X) : Op K X D → Option (MH K X)
  | .run ds => let r := s.run debug ex Q ds; if r.2 then some r.1 else none
  | .reset => some s.reset
  | .external x => some { s with x := x, force := true }
  | .changed => some { s with init := false }
  | .smoothing a => (s.st.setAlpha a).map fun t => { s with st := t }

/-- A history of calls. -/
def hist (debug : Bool) (ex : K → K) (Q : Prob K X D P) : MH K X → List (Op K X D) → Option (MH K X)
  | s, [] => some s
  | s, o :: os => (exec debug ex Q s o).bind fun t => hist debug ex Q t os

/-- If the cached density would be used, it belongs to the design variables. -/
def Cached (Q : Prob K X D P) (s : MH K X) : Prop := s.need = false → Q.dens (Q.obs s.x) = some s.nld

theorem one_cached {debug : Bool} {ex : K → K} {Q : Prob K X D P} (hQ : Reverts Q) {s : MH K X} {d : D} {u : K} (hc : Cached Q s)
    (h : (s.one debug ex Q d u).2 = true) : Cached Q (s.one debug ex Q d u).1 := by
  unfold MH.one at h ⊢
  cases hs : s.step debug ex Q d u with
  | mk s1 p =>
    rw [hs] at h
    cases p with
    | none => cases h
    | some p =>
      dsimp only at h ⊢
      have := step_spec hQ hc hs
      split_ifs at h ⊢
      exact fun _ => this.1

theorem passes_cached {debug : Bool} {ex : K → K} {Q : Prob K X D P} (hQ : Reverts Q) : ∀ (ds : List (D × K)) (s : MH K X), Cached Q s →
    (s.passes debug ex Q ds).2 = true → Cached Q (s.passes debug ex Q ds).1 := by
  intro ds
  induction ds with
  | nil => intro s hc _; exact hc
  | cons a ds ih =>
    obtain ⟨d, u⟩ := a
    intro s hc h
    simp only [MH.passes] at h ⊢
    split_ifs at h ⊢ with h1
    · exact ih _ (one_cached hQ hc h1) h
    · exact absurd h h1

/-- **C39, cache.** After every history of calls that return normally, the density the next step would reuse is the density of the current design variables. -/
theorem C39_cached_density_partial (debug : Bool) (ex : K → K) (Q : Prob K X D P) (hQ : Reverts Q) (s0 s : MH K X) (h0 : s0.force = true) (os : List (Op K X D))
    (h : hist debug ex Q s0 os = some s) : s.need = false → Q.dens (Q.obs s.x) = some s.nld := by
  have key : ∀ (os : List (Op K X D)) (t : MH K X), Cached Q t → hist debug ex Q t os = some s → Cached Q s := by
    intro os
    induction os with
    | nil => intro t ht h; cases h; exact ht
    | cons o os ih =>
      intro t ht h
      simp only [hist] at h
      cases o with
      | run ds =>
        simp only [exec] at h
        split_ifs at h with hr
        · refine ih _ ?_ h
          unfold MH.run at hr ⊢
          dsimp only at hr ⊢
          refine passes_cached hQ _ _ ?_ hr
          split_ifs
          · exact ht
          · intro hn; simp [MH.need, MH.reset] at hn
        · cases h
      | reset => exact ih _ (by intro hn; simp [MH.need, MH.reset] at hn) h
      | external x => exact ih _ (by intro hn; simp [MH.need] at hn) h
      | changed => exact ih { t with init := false } ht h
      | smoothing a =>
        simp only [exec, Stats.setAlpha] at h
        split_ifs at h
        · exact ih { t with st := { t.st with alpha := a } } ht h
        · cases h
  exact key os s0 (by intro hn; simp [MH.need, h0] at hn) h

/-- **C39, rejection.** A rejected proposal leaves the parameters of all design variables as they were, and the stored density is the density of those parameters. -/
theorem C39_rejection (debug : Bool) (ex : K → K) (Q : Prob K X D P) (hQ : Reverts Q) (s s' : MH K X) (d : D) (u : K) (p : Dbl K)
    (hc : s.need = false → Q.dens (Q.obs s.x) = some s.nld) (h : s.step debug ex Q d u = (s', some p)) :
    (s'.last = false → Q.obs s'.x = Q.obs s.x) ∧ (s'.last = true → Q.obs s'.x = Q.obs (Q.upd s.x d)) ∧ Q.dens (Q.obs s'.x) = some s'.nld := by
  obtain ⟨a, b, c, -⟩ := step_spec hQ hc h
  exact ⟨b, c, a⟩

/-- **C39, the check of debug builds.** If the density is never NaN and does not throw, a run in a debug build throws exactly as little as in a release build: never. -/
theorem C39_debug_checks (ex : K → K) (hex : Expo ex) (Q : Prob K X D P) (hQ : Reverts Q) (hd : ∀ x, ∃ v, Q.dens x = some v ∧ v ≠ .nan) (debug : Bool)
    (s : MH K X) (hc : s.need = false → Q.dens (Q.obs s.x) = some s.nld) (ds : List (D × K)) : (s.run debug ex Q ds).2 = true := by
  have one : ∀ (s : MH K X) (d : D) (u : K), Cached Q s → (s.one debug ex Q d u).2 = true := by
    intro s d u hc
    have hb : (s.before debug Q).2 = true := by
      unfold MH.before
      obtain ⟨v, hv, hn⟩ := hd (Q.obs s.x)
      split_ifs with h1 h2
      · rw [hv]
      · rw [hv]
        have hc' := hc (by simpa using h1)
        rw [hv] at hc'
        cases hc'
        simp [deq, hn]
      · rfl
    obtain ⟨new, hn, -⟩ := hd (Q.obs (Q.upd (s.before debug Q).1.x d))
    unfold MH.one MH.step
    dsimp only
    rw [if_pos hb]
    unfold MH.propose
    rw [hn]
    dsimp only
    obtain ⟨q, hq, q0, q1⟩ := accProb_range ex hex (s.before debug Q).1.nld new
    rw [hq]
    have : probOk (Dbl.fin q) = true := by
      simp [probOk, Dbl.le, Dbl.lt, q0, q1]
    simp [this]
  have many : ∀ (ds : List (D × K)) (s : MH K X), Cached Q s → (s.passes debug ex Q ds).2 = true := by
    intro ds
    induction ds with
    | nil => intro s _; rfl
    | cons a ds ih =>
      obtain ⟨d, u⟩ := a
      intro s hc
      simp only [MH.passes]
      rw [if_pos (one s d u hc)]
      exact ih _ (one_cached hQ hc (one s d u hc))
  unfold MH.run
  dsimp only
  apply many
  split_ifs
  · exact hc
  · intro hn; simp [MH.need, MH.reset] at hn

/-- **C39 fails for NaN.** A proposal whose density is NaN is accepted whatever the random number is, and from then on every proposal with any density is accepted as well: `std::min(0.0, NaN)` is 0. -/
theorem C39_nan_counterexample (ex : K → K) (hex : Expo ex) (Q : Prob K X D P) (s : MH K X) (d : D) (u : K) (hu : u < 1) (v : Dbl K)
    (hv : Q.dens (Q.obs (Q.upd s.x d)) = some v) (h : v = .nan ∨ s.nld = .nan) : (s.propose ex Q d u).1.last = true := by
  unfold MH.propose
  rw [hv]
  have hp : accProb ex s.nld v = .fin 1 := by
    rcases h with rfl | h
    · cases s.nld <;> simp [accProb, dmin, dadd, dneg, Dbl.lt, dexp, hex.zero]
    · rw [h]
      cases v <;> simp [accProb, dmin, dadd, dneg, Dbl.lt, dexp, hex.zero]
  dsimp only
  rw [hp]
  simp [MH.decide, Dbl.lt, hu]

/-- **C39, the pass that throws.** A pass throws in exactly three situations, and what it leaves behind differs. (1) The density at the current
sample has to be evaluated and cannot be: nothing has changed. (2) A debug build re-evaluates a density that is kept from the last pass, and this
fails or gives another number: nothing has changed. (3) The density at the proposal cannot be evaluated: the design variables are left at the
proposal, the counters and flags are as before. The check of the acceptance probability in debug builds never throws. -/
theorem C39_failed_pass (debug : Bool) (ex : K → K) (hex : Expo ex) (Q : Prob K X D P) (s : MH K X) (d : D) (u : K) :
    let lost := (s.force = true ∨ s.last = false) ∧ Q.dens (Q.obs s.x) = none
    let stale := s.force = false ∧ s.last = true ∧ debug = true ∧ ∀ v, Q.dens (Q.obs s.x) = some v → v = .nan ∨ v ≠ s.nld
    let bad := Q.dens (Q.obs (Q.upd s.x d)) = none
    ((s.one debug ex Q d u).2 = false ↔ lost ∨ stale ∨ bad) ∧
    (lost ∨ stale → (s.one debug ex Q d u).1 = s) ∧
    (¬ (lost ∨ stale) → bad → (s.one debug ex Q d u).1.x = Q.upd s.x d ∧ (s.one debug ex Q d u).1.st = s.st ∧
      (s.one debug ex Q d u).1.last = s.last ∧ (s.one debug ex Q d u).1.force = s.force) := by
  intro lost stale bad
  have hb1 : (s.before debug Q).2 = false ↔ lost ∨ stale := by
    unfold MH.before MH.need
    simp only [lost, stale]
    cases hf : s.force <;> cases hl : s.last <;> cases debug <;> cases hq : Q.dens (Q.obs s.x) <;>
      simp [deq]
    rename_i v
    cases v <;> simp [deq]
  have hb2 : (s.before debug Q).2 = false → (s.before debug Q).1 = s := by
    unfold MH.before
    split_ifs
    · cases Q.dens (Q.obs s.x) <;> simp
    · cases Q.dens (Q.obs s.x) <;> simp
    · simp
  have hb3 : (s.before debug Q).1.x = s.x ∧ (s.before debug Q).1.st = s.st ∧ (s.before debug Q).1.last = s.last ∧
      (s.before debug Q).1.force = s.force := by
    unfold MH.before
    split_ifs
    · cases Q.dens (Q.obs s.x) <;> simp
    · cases Q.dens (Q.obs s.x) <;> simp
    · simp
  obtain ⟨x1, x2, x3, x4⟩ := hb3
  cases hb : (s.before debug Q).2 with
  | false =>
    have ho : s.one debug ex Q d u = (s, false) := by
      unfold MH.one MH.step
      simp only [hb, Bool.false_eq_true, if_false, hb2 hb]
    have := hb1.1 hb
    rw [ho]
    refine ⟨by simp only [true_iff]; tauto, fun _ => rfl, fun h => absurd this h⟩
  | true =>
    have hn : ¬ (lost ∨ stale) := by rw [← hb1, hb]; simp
    cases hq : Q.dens (Q.obs (Q.upd s.x d)) with
    | none =>
      have ho : s.one debug ex Q d u = ({ (s.before debug Q).1 with x := Q.upd s.x d }, false) := by
        unfold MH.one MH.step MH.propose
        simp only [hb, if_true, x1, hq]
      have hbad : bad := hq
      rw [ho]
      exact ⟨by simp only [true_iff]; tauto, fun h => absurd h hn, fun _ _ => ⟨rfl, x2, x3, x4⟩⟩
    | some new =>
      have hbad : ¬ bad := by simp [bad, hq]
      obtain ⟨q, hq', q0, q1⟩ := accProb_range ex hex (s.before debug Q).1.nld new
      have ho : (s.one debug ex Q d u).2 = true := by
        unfold MH.one MH.step MH.propose
        simp only [hb, if_true, x1, hq, hq']
        have : probOk (Dbl.fin q) = true := by
          simp [probOk, Dbl.le, Dbl.lt, q0, q1]
        simp [this]
      rw [ho]
      exact ⟨by simp; tauto, fun h => absurd h hn, fun _ h => absurd h hbad⟩

/-! ### C40 -/

/-- The outcomes of the passes of a run that returns normally. -/
def outcomes (debug : Bool) (ex : K → K) (Q : Prob K X D P) : MH K X → List (D × K) → List Bool
  | _, [] => []
  | s, (d, u) :: r => (s.one debug ex Q d u).1.last :: outcomes debug ex Q (s.one debug ex Q d u).1 r

/-- The accepted and rejected samples since the last `reset` or `initialize`, and those of the last run. -/
def record (debug : Bool) (ex : K → K) (Q : Prob K X D P) : MH K X → List (Op K X D) → List Bool × List Bool → List Bool × List Bool
  | _, [], r => r
  | s, .run ds :: os, r =>
    let s1 := if s.init then s else { s.reset with init := true }
    let o := outcomes debug ex Q { s1 with st := { s1.st with accRun := 0 } } ds
    record debug ex Q (s.run debug ex Q ds).1 os ((if s.init then r.1 else []) ++ o, o)
  | s, .reset :: os, _ => record debug ex Q s.reset os ([], [])
  | s, .external x :: os, r => record debug ex Q { s with x := x, force := true } os r
  | s, .changed :: os, r => record debug ex Q { s with init := false } os r
  | s, .smoothing a :: os, r => record debug ex Q { s with st := { s.st with alpha := a } } os r

/-- The mean acceptance probability is a number of the unit interval. -/
def MeanOk (t : Stats K) : Prop := ∃ m : K, t.mean = .fin m ∧ 0 ≤ m ∧ m ≤ 1

theorem one_stats {debug : Bool} {ex : K → K} (hex : Expo ex) {Q : Prob K X D P} {s : MH K X} {d : D} {u : K} (h : (s.one debug ex Q d u).2 = true) :
    (s.one debug ex Q d u).1.st.nIter = s.st.nIter + 1 ∧
    (s.one debug ex Q d u).1.st.accTotal = s.st.accTotal + (if (s.one debug ex Q d u).1.last then 1 else 0) ∧
    (s.one debug ex Q d u).1.st.accRun = s.st.accRun + (if (s.one debug ex Q d u).1.last then 1 else 0) ∧
    (s.one debug ex Q d u).1.st.alpha = s.st.alpha ∧
    (0 < s.st.alpha → s.st.alpha ≤ 1 → MeanOk s.st → MeanOk (s.one debug ex Q d u).1.st) := by
  unfold MH.one at h ⊢
  cases hs : s.step debug ex Q d u with
  | mk s1 p =>
    rw [hs] at h
    cases p with
    | none => cases h
    | some p =>
      dsimp only at h ⊢
      have hst : s1.st = s.st ∧ ∃ old new, p = accProb ex old new := by
        unfold MH.step at hs
        dsimp only at hs
        split_ifs at hs
        · have hb : (s.before debug Q).1.st = s.st := by
            unfold MH.before
            split_ifs
            · split <;> rfl
            · split <;> rfl
            · rfl
          unfold MH.propose at hs
          split at hs
          · cases hs
          · simp only [Prod.mk.injEq, Option.some.injEq] at hs
            obtain ⟨rfl, rfl⟩ := hs
            refine ⟨?_, _, _, rfl⟩
            unfold MH.decide
            split_ifs <;> exact hb
        · simp at hs
      obtain ⟨hst, old, new, rfl⟩ := hst
      split_ifs at h ⊢ <;> simp_all [Stats.step, Stats.update]
      all_goals
        intro a0 a1 hm
        obtain ⟨q, hq, q0, q1⟩ := accProb_range ex hex old new
        obtain ⟨m, hm, m0, m1⟩ := hm
        unfold MeanOk
        dsimp only
        split_ifs
        · exact ⟨q, hq, q0, q1⟩
        · rw [hm, hq]
          refine ⟨_, rfl, ?_, ?_⟩
          · nlinarith
          · nlinarith

/-- The statistics after some passes. -/
theorem passes_stats {debug : Bool} {ex : K → K} (hex : Expo ex) {Q : Prob K X D P} : ∀ (ds : List (D × K)) (s : MH K X), (s.passes debug ex Q ds).2 = true →
    (s.passes debug ex Q ds).1.st.nIter = s.st.nIter + ds.length ∧
    (s.passes debug ex Q ds).1.st.accTotal = s.st.accTotal + (outcomes debug ex Q s ds).count true ∧
    (s.passes debug ex Q ds).1.st.accRun = s.st.accRun + (outcomes debug ex Q s ds).count true ∧
    (outcomes debug ex Q s ds).length = ds.length ∧ (s.passes debug ex Q ds).1.st.alpha = s.st.alpha ∧
    (0 < s.st.alpha → s.st.alpha ≤ 1 → MeanOk s.st → MeanOk (s.passes debug ex Q ds).1.st) := by
  intro ds
  induction ds with
  | nil => intro s _; simp [MH.passes, outcomes]
  | cons a ds ih =>
    obtain ⟨d, u⟩ := a
    intro s h
    simp only [MH.passes] at h ⊢
    split_ifs at h ⊢ with h1
    · obtain ⟨a1, a2, a3, a4, a5, a6⟩ := ih _ h
      obtain ⟨b1, b2, b3, b4, b5⟩ := one_stats hex h1
      simp only [outcomes, List.count_cons, List.length_cons]
      refine ⟨by omega, ?_, ?_, by omega, a5.trans b4, fun h2 h3 h4 => a6 (b4 ▸ h2) (b4 ▸ h3) (b5 h2 h3 h4)⟩
      · rw [a2, b2]
        cases (s.one debug ex Q d u).1.last <;> simp <;> omega
      · rw [a3, b3]
        cases (s.one debug ex Q d u).1.last <;> simp <;> omega
    · exact absurd h h1

/-- **C40.** After every history of calls that return normally: the number of iterations is the number of samples since the last reset or initialization, the numbers of accepted samples are
the accepted ones among them and among those of the last run, the acceptance rate is their quotient and lies in `[0, 1]`, and so does the mean acceptance probability. -/
theorem C40_statistics (debug : Bool) (ex : K → K) (hex : Expo ex) (Q : Prob K X D P) (s0 s : MH K X) (ha0 : 0 < s0.st.alpha) (ha1 : s0.st.alpha ≤ 1)
    (os : List (Op K X D)) (h : hist debug ex Q s0.reset os = some s) :
    let r := record debug ex Q s0.reset os ([], [])
    s.st.nIter = r.1.length ∧ s.st.accTotal = r.1.count true ∧ s.st.accRun = r.2.count true ∧
    (s.st.rate * s.st.nIter = s.st.accTotal) ∧ 0 ≤ s.st.rate ∧ s.st.rate ≤ 1 ∧ MeanOk s.st := by
  have key : ∀ (os : List (Op K X D)) (t : MH K X) (r : List Bool × List Bool), t.st.nIter = r.1.length → t.st.accTotal = r.1.count true →
      t.st.accRun = r.2.count true → 0 < t.st.alpha → t.st.alpha ≤ 1 → MeanOk t.st → hist debug ex Q t os = some s →
      s.st.nIter = (record debug ex Q t os r).1.length ∧ s.st.accTotal = (record debug ex Q t os r).1.count true ∧
      s.st.accRun = (record debug ex Q t os r).2.count true ∧ MeanOk s.st := by
    intro os
    induction os with
    | nil => intro t r h1 h2 h3 _ _ h6 h; cases h; exact ⟨h1, h2, h3, h6⟩
    | cons o os ih =>
      intro t r h1 h2 h3 h4 h5 h6 h
      simp only [hist] at h
      have mz : MeanOk t.reset.st := ⟨0, rfl, le_rfl, zero_le_one⟩
      cases o with
      | run ds =>
        simp only [exec] at h
        split_ifs at h with hr
        · simp only [record]
          have hr' := hr
          unfold MH.run at hr'
          dsimp only at hr'
          obtain ⟨a1, a2, a3, a4, a5, a6⟩ := passes_stats hex ds _ hr'
          simp only [Option.bind_some] at h
          have e : t.run debug ex Q ds = MH.passes debug ex Q _ ds := rfl
          cases hi : t.init with
          | true =>
            simp only [hi, if_true] at a1 a2 a3 a4 a5 a6 e ⊢
            refine ih _ _ ?_ ?_ ?_ ?_ ?_ ?_ h
            · rw [e, a1, List.length_append, a4, h1]
            · rw [e, a2, List.count_append, h2]
            · rw [e, a3]; simp
            · rw [e, a5]; exact h4
            · rw [e, a5]; exact h5
            · rw [e]; exact a6 h4 h5 h6
          | false =>
            simp only [hi, Bool.false_eq_true, if_false, List.nil_append] at a1 a2 a3 a4 a5 a6 e ⊢
            refine ih _ _ ?_ ?_ ?_ ?_ ?_ ?_ h
            · rw [e, a1, a4]; simp [MH.reset, Stats.reset]
            · rw [e, a2]; simp [MH.reset, Stats.reset]
            · rw [e, a3]; simp
            · rw [e, a5]; exact h4
            · rw [e, a5]; exact h5
            · rw [e]; exact a6 h4 h5 mz
        · cases h
      | reset => exact ih t.reset ([], []) rfl rfl rfl h4 h5 mz h
      | external x => exact ih _ r h1 h2 h3 h4 h5 h6 h
      | changed => exact ih _ r h1 h2 h3 h4 h5 h6 h
      | smoothing a =>
        simp only [exec, Stats.setAlpha] at h
        split_ifs at h with ha
        · exact ih _ r h1 h2 h3 ha.1 ha.2 h6 h
        · cases h
  intro r
  obtain ⟨b1, b2, b3, b4⟩ := key os s0.reset ([], []) rfl rfl rfl ha0 ha1 ⟨0, rfl, le_rfl, zero_le_one⟩ h
  have hle : s.st.accTotal ≤ s.st.nIter := by rw [b1, b2]; exact List.count_le_length
  have hle' : (s.st.accTotal : K) ≤ (s.st.nIter : K) := by exact_mod_cast hle
  refine ⟨b1, b2, b3, ?_, ?_, ?_, b4⟩
  · unfold Stats.rate
    split_ifs with h0
    · have : (s.st.nIter : K) ≠ 0 := by exact_mod_cast h0.ne'
      field_simp
    · have h1 : s.st.nIter = 0 := by omega
      have h2 : s.st.accTotal = 0 := by omega
      simp [h1, h2]
  · unfold Stats.rate
    split_ifs
    · positivity
    · exact le_rfl
  · unfold Stats.rate
    split_ifs with h0
    · have : (0 : K) < (s.st.nIter : K) := by exact_mod_cast h0
      rw [div_le_one this]
      exact hle'
    · exact zero_le_one

omit [IsStrictOrderedRing K] in
/-- **C40** (smoothing factor). The factors that are accepted are exactly those above 0 and at most 1; the acceptance probabilities of the samples
that follow then enter the mean with geometrically decreasing weights: after a reset and the probabilities `p₀, …, pₙ` it is
`(1 - a)ⁿ p₀ + a ∑ (1 - a)ⁿ⁻ⁱ pᵢ`, whichever of the samples were accepted. -/
theorem C40_smoothing (t : Stats K) (a : K) :
    ((∃ t', t.setAlpha a = some t') ↔ 0 < a ∧ a ≤ 1) ∧
    ∀ t', t.setAlpha a = some t' → ∀ (p : K) (b : Bool) (ps : List (Bool × K)),
      (ps.foldl (fun t q => t.step q.1 (.fin q.2)) (t'.reset.step b (.fin p))).mean =
        .fin ((1 - a) ^ ps.length * p + a * ((ps.reverse.map Prod.snd).zipIdx.map fun q => (1 - a) ^ q.2 * q.1).sum) := by
  refine ⟨by unfold Stats.setAlpha; split_ifs with h <;> simp [h], fun t' ht p b ps => ?_⟩
  have ha : t'.alpha = a := by
    unfold Stats.setAlpha at ht
    split_ifs at ht
    cases ht; rfl
  have key : (ps.foldl (fun t q => t.step q.1 (.fin q.2)) (t'.reset.step b (.fin p))).mean =
        .fin ((1 - a) ^ ps.length * p + a * ((ps.reverse.map Prod.snd).zipIdx.map fun q => (1 - a) ^ q.2 * q.1).sum) ∧
      (ps.foldl (fun t q => t.step q.1 (.fin q.2)) (t'.reset.step b (.fin p))).alpha = a ∧
      1 ≤ (ps.foldl (fun t q => t.step q.1 (.fin q.2)) (t'.reset.step b (.fin p))).nIter := by
    induction ps using List.reverseRecOn with
    | nil => simp [Stats.step, Stats.update, Stats.reset, ha]
    | append_singleton ps q ih =>
      obtain ⟨h1, h2, h3⟩ := ih
      rw [List.foldl_append]
      simp only [List.foldl_cons, List.foldl_nil]
      set u := ps.foldl (fun t q => t.step q.1 (.fin q.2)) (t'.reset.step b (.fin p)) with hu
      refine ⟨?_, h2, by show 1 ≤ u.nIter + 1; omega⟩
      have hn : ¬ u.nIter + 1 < 2 := by omega
      have hs : (u.step q.1 (.fin q.2)).mean = dadd u.mean (dmul (dneg (.fin u.alpha)) (Dbl.sub u.mean (.fin q.2))) := by
        unfold Stats.step Stats.update
        simp only [hn, if_false]
      have hz : ((((ps ++ [q]).reverse.map Prod.snd).zipIdx.map fun q => (1 - a) ^ q.2 * q.1).sum : K) =
          q.2 + (1 - a) * ((ps.reverse.map Prod.snd).zipIdx.map fun q => (1 - a) ^ q.2 * q.1).sum := by
        rw [List.reverse_append, List.reverse_singleton, List.singleton_append, List.map_cons, List.zipIdx_cons]
        rw [List.map_cons, List.sum_cons, pow_zero, one_mul, zero_add, List.zipIdx_succ, List.map_map, ← List.sum_map_mul_left]
        congr 3
        funext ⟨v, i⟩
        simp [pow_succ]; ring
      rw [hs, h1, h2, hz]
      show Dbl.fin (_ + -a * (_ - q.2)) = _
      congr 1
      rw [List.length_append, List.length_singleton, pow_succ]
      ring
  exact key.1

end mh

/-! ### Concrete cases -/
section concrete

/-- The factor 1/2 is accepted, the factors 0 and 2 are not; the probabilities 1, 0, 1 then give the mean 3/4. -/
example (t : Stats ℚ) : (∃ t', t.setAlpha (1 / 2) = some t' ∧
      ([(false, 0), (true, 1)].foldl (fun t q => t.step q.1 (.fin q.2)) (t'.reset.step true (.fin 1))).mean = .fin (3 / 4)) ∧
    t.setAlpha 0 = none ∧ t.setAlpha 2 = none := by
  refine ⟨⟨_, if_pos (by norm_num), ?_⟩, if_neg (by norm_num), if_neg (by norm_num)⟩
  rw [(C40_smoothing t (1 / 2)).2 _ (if_pos (by norm_num))]
  norm_num

/-- One design variable with a backup. -/
def line (dens : ℚ → Option (Dbl ℚ)) : Prob ℚ (ℚ × ℚ) ℚ ℚ := ⟨Prod.fst, fun x d => (x.1 + d, x.1), fun x => (x.2, x.2), dens⟩

example (dens : ℚ → Option (Dbl ℚ)) : Reverts (line dens) := fun _ _ => rfl

/-- An exponential-like function on rational numbers. -/
def ex0 (a : ℚ) : ℚ := if 0 ≤ a then 1 + a else 1 / (1 - a)

example : Expo ex0 := by
  refine ⟨by norm_num [ex0], fun a => ?_, fun a b h => ?_⟩
  · unfold ex0
    split_ifs with h
    · linarith
    · exact one_div_pos.mpr (by linarith)
  · unfold ex0
    split_ifs with h1 h2 h2
    · linarith
    · linarith
    · rw [div_le_iff₀ (by linarith)]; nlinarith
    · exact one_div_le_one_div_of_le (by linarith) (by linarith)

/-- A sampler that has just been constructed. -/
def mh0 : MH ℚ (ℚ × ℚ) := ⟨(0, 0), .nan, ⟨0, 0, 0, .fin 0, 1/10⟩, false, true, false⟩

/-- Two runs with three samples, of which two are accepted. -/
example : (hist true ex0 (line fun x => some (.fin (x * x))) mh0.reset [.run [(1, 1/4), (1, 9/10)], .run [(-1, 1/2)]]).map
    (fun s => (s.st.nIter, s.st.accTotal, s.st.accRun, s.x.1)) = some (3, 2, 1, 0) := by decide +kernel

/-- The three situations occur: a density that cannot be evaluated at 2. -/
example :
    let Q := line fun x => if x = 2 then none else some (.fin x)
    ((⟨(2, 2), .fin 0, ⟨0, 0, 0, .fin 0, 1/10⟩, false, false, true⟩ : MH ℚ (ℚ × ℚ)).one false ex0 Q 1 0).2 = false ∧
    ((⟨(1, 1), .fin 7, ⟨0, 0, 0, .fin 0, 1/10⟩, true, false, true⟩ : MH ℚ (ℚ × ℚ)).one true ex0 Q (-1) 0).2 = false ∧
    ((⟨(1, 1), .fin 1, ⟨0, 0, 0, .fin 0, 1/10⟩, true, false, true⟩ : MH ℚ (ℚ × ℚ)).one true ex0 Q 1 0).1.x = (2, 1) ∧
    ((⟨(1, 1), .fin 1, ⟨0, 0, 0, .fin 0, 1/10⟩, true, false, true⟩ : MH ℚ (ℚ × ℚ)).one true ex0 Q (-1) 0).2 = true := by
  decide +kernel

/-- **C39 fails after an exception.** The first run accepts the state 1 with density 1. In the second run the density of the proposal 3 cannot be evaluated; the exception leaves the design
variable at 3 without marking the cached density as outdated. The third run then compares with the density of the state 1, so the proposal 4 with the lower density 2 (the density of 3 is 5 when
evaluated again) is treated as an increase. -/
theorem C39_exception_counterexample : ∃ s1 s2 : MH ℚ (ℚ × ℚ),
    hist false ex0 (line fun x => some (.fin (if x = 1 then 1 else 2))) mh0.reset [.run [(1, 0)]] = some s1 ∧
    s1.run false ex0 (line fun _ => none) [(2, 0)] = (s2, false) ∧ s2.need = false ∧ s2.x.1 = 3 ∧ s2.nld = .fin 1 ∧
    (s2.run false ex0 (line fun x => some (.fin (if x = 3 then 5 else 2))) [(1, 9/10)]).1.last = false := by
  refine ⟨((mh0.reset).run false ex0 (line fun x => some (.fin (if x = 1 then 1 else 2))) [(1, 0)]).1,
    (((mh0.reset).run false ex0 (line fun x => some (.fin (if x = 1 then 1 else 2))) [(1, 0)]).1.run false ex0 (line fun _ => none) [(2, 0)]).1, ?_⟩
  decide +kernel

/-- **C39, detailed balance.** With the exact exponential the acceptance probability of the code makes the transition between any two states of finite density equally likely in both directions
for a symmetric proposal: this is what makes the density invariant. -/
theorem C39_detailed_balance (a b : ℝ) : ∃ p q : ℝ, accProb Real.exp (.fin a) (.fin b) = .fin p ∧ accProb Real.exp (.fin b) (.fin a) = .fin q ∧
    Real.exp (-a) * p = Real.exp (-b) * q := by
  have cs : ∀ a b : ℝ, a < b → accProb Real.exp (.fin a) (.fin b) = .fin (Real.exp (a - b)) := fun _ _ h => accProb_worse h
  have c1 : ∀ a b : ℝ, b ≤ a → accProb Real.exp (.fin a) (.fin b) = .fin 1 := fun _ _ h => accProb_better Real.exp_zero h
  rcases lt_trichotomy a b with h | h | h
  · refine ⟨_, _, cs a b h, c1 b a h.le, ?_⟩
    rw [← Real.exp_add, mul_one]; congr 1; ring
  · subst h
    exact ⟨_, _, c1 a a le_rfl, c1 a a le_rfl, rfl⟩
  · refine ⟨_, _, c1 a b h.le, cs b a h, ?_⟩
    rw [← Real.exp_add, mul_one]; congr 1; ring

end concrete
end Verif.Sampler
