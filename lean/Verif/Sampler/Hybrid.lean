import Verif.Sampler.Props
import Mathlib.Algebra.Order.Archimedean.Basic
import Mathlib.MeasureTheory.Measure.Prod
import Mathlib.MeasureTheory.Group.Prod
import Mathlib.MeasureTheory.Measure.Haar.OfBasis

/-!
C41 and C79: the hybrid (Hamiltonian) sampler.
-/
namespace Verif.Sampler
open FloatLike

section hmc
variable {K : Type} [LinearOrder K] [Field K] [IsStrictOrderedRing K] {X P V : Type} [AddCommGroup V] [Module K V]

/-- Setting parameters sets them (property C63 of the design variables). -/
def Restores (Q : HProb K X V P) : Prop := ∀ x p, Q.obs (Q.restore x p) = p

/-- The step length is in the configured range. -/
def InRange (o : HOpt K) (e : K) : Prop := o.min ≤ e ∧ e ≤ o.max

theorem check_facts {o : HOpt K} (h : o.check = true) : 0 < o.min ∧ o.min ≤ o.max ∧ 0 < o.dec ∧ o.dec ≤ 1 ∧ o.min ≤ o.init ∧ o.init ≤ o.max := by
  simp only [HOpt.check, Bool.and_eq_true, decide_eq_true_eq] at h
  obtain ⟨⟨⟨⟨⟨⟨⟨⟨⟨⟨-, h1⟩, h2⟩, h3⟩, -⟩, h4⟩, -⟩, h5⟩, h6⟩, -⟩, -⟩ := h
  exact ⟨h3, h4, h5, h6, h1, h2⟩

theorem reduce_range {o : HOpt K} (ho : o.check = true) {e : K} (h : InRange o e) : InRange o (o.reduce e) := by
  obtain ⟨h1, h2, h3, h4, -, -⟩ := check_facts ho
  refine ⟨le_max_right _ _, max_le ?_ h2⟩
  have : 0 < e := lt_of_lt_of_le h1 h.1
  calc e * o.dec ≤ e * 1 := mul_le_mul_of_nonneg_left h4 this.le
    _ = e := mul_one e
    _ ≤ o.max := h.2

theorem adapt_range {o : HOpt K} (ho : o.check = true) {e : K} (h : InRange o e) (b : Bool) (m : Dbl K) : InRange o (o.adapt b m e) := by
  obtain ⟨-, h2, -⟩ := check_facts ho
  unfold HOpt.adapt
  split_ifs
  · exact ⟨le_max_right _ _, max_le (min_le_right _ _) h2⟩
  · exact ⟨le_max_right _ _, max_le (min_le_right _ _) h2⟩
  · exact h

theorem lastHalf_g {Q : HProb K X V P} {half : K} {t : Tr X V} (h : (lastHalf Q half t).diverged = false) :
    Q.grad (Q.obs (lastHalf Q half t).x) = some (lastHalf Q half t).g := by
  unfold lastHalf at h ⊢
  split_ifs at h ⊢ with h1
  · rw [h1] at h; cases h
  · cases hg : Q.grad (Q.obs t.x) with
    | none => rw [hg] at h; cases h
    | some g => exact hg

/-- The state at the start of an attempt: the parameters are the saved ones and cached values that will be used are right. -/
structure Ready (Q : HProb K X V P) (o : HOpt K) (saved : P) (s : HS K X V) : Prop where
  obs : Q.obs s.x = saved
  cache : s.force = false → s.last = true → Q.dens (Q.obs s.x) = some s.u ∧ Q.grad (Q.obs s.x) = some s.g
  eps : InRange o s.eps

/-- The state at the end: rejected means the saved parameters, accepted means that the cached values belong to the new ones. -/
structure Done (Q : HProb K X V P) (o : HOpt K) (saved : P) (s : HS K X V) : Prop where
  rejected : s.last = false → Q.obs s.x = saved
  cache : s.last = true → Q.dens (Q.obs s.x) = some s.u ∧ Q.grad (Q.obs s.x) = some s.g
  eps : InRange o s.eps

theorem attempt_spec {ex : K → K} {o : HOpt K} (ho : o.check = true) {tol half : K} {Q : HProb K X V P} (hQ : Restores Q) {saved : P} {s : HS K X V} {p : V} {r : K}
    (hr : 0 ≤ r) (h : Ready Q o saved s) :
    match attempt ex o tol Q half saved s p r with
    | .done s' _ => Done Q o saved s' ∧ s'.force = s.force ∧ s'.burnIn = s.burnIn
    | .running s' => (Ready Q o saved s' ∧ s'.last = false ∧ s'.force = s.force ∧ s'.burnIn = s.burnIn) ∧ s'.eps = o.reduce s.eps ∧ tol ≤ s'.eps - o.min
    | .exc s' => s' = s := by
  unfold attempt
  cases hv : startValues Q s with
  | none => rfl
  | some ug =>
    obtain ⟨u0, g0⟩ := ug
    dsimp only
    generalize ht : trajectory Q o.n s.eps half s.x p g0 = t
    have hrange : InRange o (if (energies Q t).2.isNone then o.reduce s.eps else s.eps) := by
      split_ifs
      · exact reduce_range ho h.eps
      · exact h.eps
    -- accepted states
    have hacc : ∀ e, (energies Q t).2 = some e → ∃ u, (energies Q t).1 = some u ∧ Q.dens (Q.obs t.x) = some u ∧ Q.grad (Q.obs t.x) = some t.g := by
      intro e he
      unfold energies at he ⊢
      split_ifs at he ⊢ with hdiv
      cases hd : Q.dens (Q.obs t.x) with
      | none => rw [hd] at he; cases he
      | some u =>
        refine ⟨u, rfl, rfl, ?_⟩
        rw [← ht]
        apply lastHalf_g
        have : t.diverged = false := by simpa using hdiv
        rw [← ht] at this
        exact this
    cases he : (energies Q t).2 with
    | none =>
      have hrej : ¬ Dbl.lt (.fin r) (hProb ex (dadd u0 (Q.kin p)) none) = true := by
        simp [hProb, Dbl.lt, hr]
      have hs1 : decideH o s Q saved u0 g0 t (energies Q t) (hProb ex (dadd u0 (Q.kin p)) none) r =
          { s with x := Q.restore t.x saved, u := u0, g := g0, eps := o.reduce s.eps, last := false } := by
        unfold decideH
        rw [if_neg hrej, he]
        rfl
      rw [hs1]
      simp only [Option.isSome_none, Bool.false_or, decide_eq_true_eq]
      have hre := reduce_range ho h.eps
      split
      · rename_i s' pr heq
        split_ifs at heq with h1
        · simp only [HOut.done.injEq] at heq
          obtain ⟨rfl, -⟩ := heq
          exact ⟨⟨fun _ => hQ _ _, (fun hl => by cases hl), hre⟩, rfl, rfl⟩
      · rename_i s' heq
        split_ifs at heq with h1
        simp only [HOut.running.injEq] at heq
        subst heq
        exact ⟨⟨⟨hQ _ _, (fun _ hl => by cases hl), hre⟩, rfl, rfl, rfl⟩, rfl, not_lt.mp h1⟩
      · rename_i s' heq
        split_ifs at heq
    | some e =>
      obtain ⟨u, hu1, hu2, hu3⟩ := hacc e he
      simp only [Option.isSome_some, Bool.true_or, if_true]
      unfold decideH
      split_ifs <;> first
        | exact absurd ‹(energies Q t).2.isNone = true› (by rw [he]; simp)
        | exact ⟨⟨(fun hl => by cases hl), fun _ => ⟨by rw [hu1]; exact hu2, hu3⟩, h.eps⟩, rfl, rfl⟩
        | exact ⟨⟨fun _ => hQ _ _, (fun hl => by cases hl), h.eps⟩, rfl, rfl⟩

theorem attempts_spec {ex : K → K} {o : HOpt K} (ho : o.check = true) {tol half : K} {Q : HProb K X V P} (hQ : Restores Q) {saved : P} :
    ∀ (l : List (V × K)) (s : HS K X V), (∀ a ∈ l, 0 ≤ a.2) → Ready Q o saved s →
    match attempts ex o tol Q half saved s l with
    | .done s' _ => Done Q o saved s' ∧ s'.force = s.force ∧ s'.burnIn = s.burnIn
    | .running s' => Ready Q o saved s'
    | .exc s' => Ready Q o saved s' := by
  intro l
  induction l with
  | nil => intro s _ h; exact h
  | cons a l ih =>
    obtain ⟨p, r⟩ := a
    intro s hl h
    have h1 := attempt_spec (ex := ex) (tol := tol) (half := half) (p := p) ho hQ (hl (p, r) (by simp)) h
    simp only [attempts]
    cases ha : attempt ex o tol Q half saved s p r with
    | done s' pr => rw [ha] at h1; exact h1
    | exc s' => rw [ha] at h1; dsimp only at h1 ⊢; rw [h1]; exact h
    | running s' =>
      rw [ha] at h1
      have h2 := ih s' (fun a ha => hl a (by simp [ha])) h1.1.1
      dsimp only at h1 h2 ⊢
      split <;> rename_i heq
      · rw [heq] at h2
        exact ⟨h2.1, h2.2.1.trans h1.1.2.2.1, h2.2.2.trans h1.1.2.2.2⟩
      · rw [heq] at h2; exact h2
      · rw [heq] at h2; exact h2

/-- **C41, one step.** Whatever the density, its gradient, the exceptions they throw and the random numbers are: if the step returns with the sample rejected, or throws, or is still repeating
diverged trajectories, the design variables have the parameters they had before the step. If it returns with the sample accepted, the potential energy and the gradient kept for the next step are
those of the new state. The step length stays between its bounds. -/
theorem C41_step (ex : K → K) (o : HOpt K) (ho : o.check = true) (tol : K) (Q : HProb K X V P) (hQ : Restores Q) (mean : Dbl K) (s : HS K X V) (l : List (V × K))
    (hl : ∀ a ∈ l, 0 ≤ a.2) (hc : s.force = false → s.last = true → Q.dens (Q.obs s.x) = some s.u ∧ Q.grad (Q.obs s.x) = some s.g) (he : InRange o s.eps) :
    match hStep ex o tol Q mean s l with
    | .done s' _ => (s'.last = false → Q.obs s'.x = Q.obs s.x) ∧
        (s'.last = true → Q.dens (Q.obs s'.x) = some s'.u ∧ Q.grad (Q.obs s'.x) = some s'.g) ∧ InRange o s'.eps
    | .running s' => Q.obs s'.x = Q.obs s.x ∧ InRange o s'.eps
    | .exc s' => Q.obs s'.x = Q.obs s.x ∧ InRange o s'.eps := by
  have h := attempts_spec (ex := ex) (tol := tol) (half := o.adapt s.burnIn mean s.eps / 2) ho hQ (saved := Q.obs s.x) l
    { s with eps := o.adapt s.burnIn mean s.eps } hl ⟨rfl, hc, adapt_range ho he _ _⟩
  unfold hStep
  dsimp only
  split <;> rename_i heq <;> rw [heq] at h
  · exact ⟨h.1.rejected, h.1.cache, h.1.eps⟩
  · exact ⟨h.obs, h.eps⟩
  · exact ⟨h.obs, h.eps⟩

/-- Calls that concern the hybrid sampler: steps of `run` with any mean acceptance probability, switching the burn-in phase, `reset`, a change of the design variables followed by
`forceRecomputationNegLogDensity`, `setOptions` (H:109-112) with the options `o` the sampler has. -/
inductive HOp (K X V : Type) where
  | step (mean : Dbl K) (l : List (V × K))
  | burnIn (b : Bool)
  | reset
  | external (x : X)
  | setOptions

/-- One call. A step that throws or does not end is not part of a history. -/
def hExec (ex : K → K) (o : HOpt K) (tol : K) (Q : HProb K X V P) (s : HS K X V) : HOp K X V → Option (HS K X V)
  | .step mean l => match hStep ex o tol Q mean s l with
    | .done s' _ => some { s' with force := false }
    | _ => none
  | .burnIn b => some { s with burnIn := b }
  | .reset => some { s with last := false, force := true }
  | .external x => some { s with x := x, force := true }
  | .setOptions => some { s with eps := o.init }

/-- A history of calls. -/
def hHist (ex : K → K) (o : HOpt K) (tol : K) (Q : HProb K X V P) : HS K X V → List (HOp K X V) → Option (HS K X V)
  | s, [] => some s
  | s, a :: l => (hExec ex o tol Q s a).bind fun t => hHist ex o tol Q t l

/-- The random numbers of a call are not negative. -/
def HOp.ok : HOp K X V → Prop
  | .step _ l => ∀ a ∈ l, 0 ≤ a.2
  | _ => True

/-- **C41, histories.** From construction with options accepted by `check()`, after every history of calls the step length is between its bounds and cached values that the next step would use
belong to the current design variables. -/
theorem C41_history (ex : K → K) (o : HOpt K) (ho : o.check = true) (tol : K) (Q : HProb K X V P) (hQ : Restores Q) (s0 s : HS K X V) (h0 : s0.eps = o.init) (hf : s0.force = true)
    (l : List (HOp K X V)) (hl : ∀ a ∈ l, a.ok) (h : hHist ex o tol Q s0 l = some s) :
    InRange o s.eps ∧ (s.force = false → s.last = true → Q.dens (Q.obs s.x) = some s.u ∧ Q.grad (Q.obs s.x) = some s.g) := by
  obtain ⟨-, -, -, -, i1, i2⟩ := check_facts ho
  have key : ∀ (l : List (HOp K X V)) (t : HS K X V), (∀ a ∈ l, a.ok) → InRange o t.eps →
      (t.force = false → t.last = true → Q.dens (Q.obs t.x) = some t.u ∧ Q.grad (Q.obs t.x) = some t.g) → hHist ex o tol Q t l = some s →
      InRange o s.eps ∧ (s.force = false → s.last = true → Q.dens (Q.obs s.x) = some s.u ∧ Q.grad (Q.obs s.x) = some s.g) := by
    intro l
    induction l with
    | nil => intro t _ h1 h2 h; cases h; exact ⟨h1, h2⟩
    | cons a l ih =>
      intro t hl h1 h2 h
      have hl' : ∀ a ∈ l, a.ok := fun a ha => hl a (by simp [ha])
      simp only [hHist] at h
      cases a with
      | step mean ds =>
        have h3 := C41_step ex o ho tol Q hQ mean t ds (hl (.step mean ds) (by simp)) h2 h1
        simp only [hExec] at h
        cases hs : hStep ex o tol Q mean t ds with
        | done s' p =>
          rw [hs] at h h3
          exact ih { s' with force := false } hl' h3.2.2 (fun _ hla => h3.2.1 hla) h
        | exc s' => rw [hs] at h; cases h
        | running s' => rw [hs] at h; cases h
      | burnIn b => exact ih { t with burnIn := b } hl' h1 h2 h
      | reset => exact ih { t with last := false, force := true } hl' h1 (fun hx => by cases hx) h
      | external x => exact ih { t with x := x, force := true } hl' h1 (fun hx => by cases hx) h
      | setOptions => exact ih { t with eps := o.init } hl' ⟨i1, i2⟩ h2 h
  exact key l s0 hl (by rw [h0]; exact ⟨i1, i2⟩) (fun hx => by rw [hf] at hx; cases hx) h

/-! ### Termination of the repeated trajectories -/

/-- The step length after `k` divergences, while the loop goes on, is at most the starting one times the `k`-th power of the reduction factor, or the loop has ended. -/
theorem running_eps {ex : K → K} {o : HOpt K} (ho : o.check = true) {tol half : K} (htol : 0 < tol) {Q : HProb K X V P} (hQ : Restores Q) {saved : P} :
    ∀ (l : List (V × K)) (s s' : HS K X V), (∀ a ∈ l, 0 ≤ a.2) → Ready Q o saved s → attempts ex o tol Q half saved s l = .running s' →
    l = [] ∨ (o.min < s'.eps - tol / 2 ∧ s'.eps ≤ s.eps * o.dec ^ l.length) := by
  intro l
  induction l with
  | nil => intro s s' _ _ _; exact Or.inl rfl
  | cons a l ih =>
    obtain ⟨p, r⟩ := a
    intro s s' hl h hrun
    right
    have h1 := attempt_spec (ex := ex) (tol := tol) (half := half) (p := p) ho hQ (hl (p, r) (by simp)) h
    simp only [attempts] at hrun
    obtain ⟨f1, -, f3, -⟩ := check_facts ho
    cases ha : attempt ex o tol Q half saved s p r with
    | done s1 pr => rw [ha] at hrun; cases hrun
    | exc s1 => rw [ha] at hrun; cases hrun
    | running s1 =>
      rw [ha] at hrun h1
      dsimp only at hrun h1
      obtain ⟨⟨hr1, -⟩, he1, he2⟩ := h1
      have hstep : s1.eps = s.eps * o.dec := by
        rw [he1] at he2 ⊢
        unfold HOpt.reduce at he2 ⊢
        rcases max_choice (s.eps * o.dec) o.min with hm | hm
        · exact hm
        · rw [hm] at he2; linarith
      rcases ih s1 s' (fun a ha => hl a (by simp [ha])) hr1 hrun with rfl | ⟨g1, g2⟩
      · simp only [attempts, HOut.running.injEq] at hrun
        subst hrun
        refine ⟨by linarith, ?_⟩
        simp [hstep]
      · refine ⟨g1, g2.trans ?_⟩
        rw [hstep, List.length_cons, pow_succ]
        apply le_of_eq
        ring

/-- **C41, termination.** If the reduction factor is smaller than one there is a number of attempts after which the step has ended, for every density, gradient, exceptions and random numbers. -/
theorem C41_terminates [Archimedean K] (ex : K → K) (o : HOpt K) (ho : o.check = true) (hdec : o.dec < 1) (tol : K) (htol : 0 < tol) :
    ∃ N : Nat, ∀ (Q : HProb K X V P), Restores Q → ∀ (mean : Dbl K) (s : HS K X V) (l : List (V × K)), (∀ a ∈ l, 0 ≤ a.2) → InRange o s.eps →
      (s.force = false → s.last = true → Q.dens (Q.obs s.x) = some s.u ∧ Q.grad (Q.obs s.x) = some s.g) → N ≤ l.length →
      ∀ s', hStep ex o tol Q mean s l ≠ .running s' := by
  obtain ⟨f1, f2, f3, f4, -, -⟩ := check_facts ho
  have hmax : 0 < o.max := lt_of_lt_of_le f1 f2
  obtain ⟨n, hn⟩ := exists_pow_lt_of_lt_one (div_pos f1 hmax) hdec
  refine ⟨n + 1, fun Q hQ mean s l hl he hc hlen s' hrun => ?_⟩
  unfold hStep at hrun
  have ha := adapt_range ho he s.burnIn mean
  rcases running_eps (half := o.adapt s.burnIn mean s.eps / 2) ho htol hQ (saved := Q.obs s.x) l { s with eps := o.adapt s.burnIn mean s.eps } s' hl
      ⟨rfl, hc, ha⟩ hrun with h0 | ⟨h1, h2⟩
  · rw [h0] at hlen; simp at hlen
  · have h3 : o.dec ^ l.length ≤ o.dec ^ n := pow_le_pow_of_le_one f3.le f4 (by omega)
    have h4 : o.dec ^ l.length < o.min / o.max := lt_of_le_of_lt h3 hn
    have h5 : s'.eps < o.min := by
      calc s'.eps ≤ o.adapt s.burnIn mean s.eps * o.dec ^ l.length := h2
        _ ≤ o.max * o.dec ^ l.length := mul_le_mul_of_nonneg_right ha.2 (pow_nonneg f3.le _)
        _ < o.max * (o.min / o.max) := mul_lt_mul_of_pos_left h4 hmax
        _ = o.min := by field_simp
    linarith

end hmc

section concrete

/-- A one-dimensional problem with quadratic potential energy. -/
def well : HProb ℚ ℚ ℚ ℚ := ⟨id, (· + ·), fun _ p => p, fun x => some (.fin (x * x / 2)), some, fun p => .fin (p * p / 2), fun _ => true⟩

/-- A problem whose gradient can be evaluated at 0 only. -/
def spike : HProb ℚ ℚ ℚ ℚ := ⟨id, (· + ·), fun _ p => p, fun x => some (.fin (x * x / 2)), fun x => if x = 0 then some 0 else none, fun p => .fin (p * p / 2), fun _ => true⟩

/-- The default options with a given reduction factor. -/
def hopt (dec : ℚ) : HOpt ℚ := ⟨1/10, 1/1000, 1/2, 51/50, dec, 9/10, 20⟩

/-- A sampler just constructed. -/
def hs0 : HS ℚ ℚ ℚ := ⟨0, .fin 0, 0, 1/10, false, true, false⟩

example : Restores well ∧ Restores spike ∧ (hopt (49/50)).check = true ∧ (hopt (49/50)).dec < 1 ∧ InRange (hopt (49/50)) hs0.eps := by
  refine ⟨fun _ _ => rfl, fun _ _ => rfl, by decide +kernel, by decide +kernel, ?_⟩
  constructor <;> norm_num [hopt, hs0]

/-- **C41: a reduction factor of one.** `check()` accepts the factor 1. If the trajectories diverge, the step length then never reaches its minimum and the step repeats forever: for every number of attempts it is
still running. -/
theorem C41_no_termination_counterexample : (hopt 1).check = true ∧
    ∀ n : Nat, ∃ s', hStep ex0 (hopt 1) (1/1000000000000) spike (.fin 0) hs0 (List.replicate n (1, 0)) = .running s' := by
  refine ⟨by decide +kernel, fun n => ?_⟩
  have ha : (hopt 1).adapt hs0.burnIn (.fin 0) hs0.eps = 1/10 := by decide +kernel
  unfold hStep
  dsimp only
  rw [ha]
  have key : ∀ (n : Nat) (s : HS ℚ ℚ ℚ), s.x = 0 → s.eps = 1/10 → s.force = true →
      ∃ s', attempts ex0 (hopt 1) (1/1000000000000) spike (1/10/2) (spike.obs hs0.x) s (List.replicate n (1, 0)) = .running s' := by
    intro n
    induction n with
    | zero => intro s _ _ _; exact ⟨s, rfl⟩
    | succ n ih =>
      intro s hx he hf
      rw [List.replicate_succ]
      obtain ⟨x, u, g, eps, last, force, b⟩ := s
      simp only at hx he hf
      subst hx he hf
      have h1 : attempt ex0 (hopt 1) (1/1000000000000) spike (1/10/2) (spike.obs hs0.x) ⟨0, u, g, 1/10, last, true, b⟩ 1 0 =
          .running ⟨0, .fin 0, 0, 1/10, false, true, b⟩ := by
        have ht : trajectory spike (hopt 1).n (1/10) (1/10/2) 0 1 0 = ⟨1/10, 1, 0, true⟩ := by
          have : ∀ n, full spike (1/10 : ℚ) (n + 1) ⟨1/10, 1, 0, false⟩ = ⟨1/10, 1, 0, true⟩ := by
            intro n
            simp [full, spike]
          show lastHalf spike _ (full spike _ (17 + 1) (first spike _ _ 0 1 0)) = _
          have hfirst : first spike (1/10 : ℚ) (1/10/2) 0 1 0 = ⟨1/10, 1, 0, false⟩ := by
            simp [first, spike]
          rw [hfirst, this]
          rfl
        have hsv : startValues spike (⟨0, u, g, 1/10, last, true, b⟩ : HS ℚ ℚ ℚ) = some (.fin 0, 0) := by
          simp [startValues, spike]
        unfold attempt
        rw [hsv]
        dsimp only
        rw [ht]
        have hen : energies spike (⟨1/10, 1, 0, true⟩ : Tr ℚ ℚ) = (none, none) := rfl
        rw [hen]
        have hdc : decideH (hopt 1) (⟨0, u, g, 1/10, last, true, b⟩ : HS ℚ ℚ ℚ) spike (spike.obs hs0.x) (.fin 0) 0 ⟨1/10, 1, 0, true⟩ (none, none)
            (hProb ex0 (dadd (.fin 0) (spike.kin 1)) none) 0 = ⟨0, .fin 0, 0, 1/10, false, true, b⟩ := by
          have hr : (hopt 1).reduce (1/10) = 1/10 := by decide +kernel
          simp only [decideH, hProb, Dbl.lt, lt_irrefl, decide_false, Bool.false_eq_true, if_false, Option.isNone_none, if_true, hr]
          rfl
        rw [hdc]
        rw [if_neg]
        simp only [Option.isSome_none, Bool.false_or, decide_eq_true_eq]
        norm_num [hopt]
      simp only [attempts, h1]
      exact ih _ rfl rfl rfl
  exact key n _ rfl rfl rfl

end concrete
end Verif.Sampler
