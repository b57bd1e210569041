import Verif.Sampler.Hybrid

/-!
C41, continued: the hybrid sampler (`aslam_backend/src/SamplerHybridMcmc.cpp`) never moves to a state whose density is zero or undefined, H:234-259.
-/
namespace Verif.Sampler
open FloatLike

section finite
variable {K : Type} [LinearOrder K] [Field K] {X P V : Type} [AddCommGroup V] [Module K V]

theorem attempt_finite {ex : K → K} {o : HOpt K} {tol : K} {Q : HProb K X V P} (hk : ∀ p, ∃ k, Q.kin p = .fin k) {half : K} {saved : P} {s s' : HS K X V} {p : V} {r : K} (hr : 0 ≤ r) {q : Dbl K}
    (h : attempt ex o tol Q half saved s p r = .done s' q) (hl : s'.last = true) : ∃ v, s'.u = .fin v ∧ Q.dens (Q.obs s'.x) = some (.fin v) := by
  unfold attempt at h
  split at h
  · cases h
  rename_i u0 g0 hs
  dsimp only at h
  generalize trajectory Q o.n s.eps half s.x p g0 = t at h
  have hd : ∀ e, e = energies Q t → decideH o s Q saved u0 g0 t e (hProb ex (dadd u0 (Q.kin p)) e.2) r = s' → ∃ v, s'.u = .fin v ∧ Q.dens (Q.obs s'.x) = some (.fin v) := by
    intro e he hs'
    unfold decideH at hs'
    by_cases hlt : Dbl.lt (.fin r) (hProb ex (dadd u0 (Q.kin p)) e.2) = true
    · rw [if_pos hlt] at hs'
      unfold energies at he
      by_cases hdv : t.diverged = true
      · rw [if_pos hdv] at he
        subst he
        simp only [hProb, Dbl.lt_fin] at hlt
        exact absurd hlt (not_lt.2 hr)
      · rw [if_neg hdv] at he
        cases hu : Q.dens (Q.obs t.x) with
        | none =>
          rw [hu] at he
          subst he
          simp only [hProb, Dbl.lt_fin] at hlt
          exact absurd hlt (not_lt.2 hr)
        | some u =>
          rw [hu] at he
          obtain ⟨k, hk'⟩ := hk t.p
          simp only [hk'] at he
          cases u with
          | fin v =>
            subst he
            rw [← hs']
            exact ⟨v, rfl, hu⟩
          | nan =>
            subst he
            simp only [dadd, isFinite, hProb, Bool.false_eq_true, if_false, Dbl.lt_fin] at hlt
            exact absurd hlt (not_lt.2 hr)
          | pinf =>
            subst he
            simp only [dadd, isFinite, hProb, Bool.false_eq_true, if_false, Dbl.lt_fin] at hlt
            exact absurd hlt (not_lt.2 hr)
          | ninf =>
            subst he
            simp only [dadd, isFinite, hProb, Bool.false_eq_true, if_false, Dbl.lt_fin] at hlt
            exact absurd hlt (not_lt.2 hr)
    · rw [if_neg hlt] at hs'
      rw [← hs'] at hl
      cases hl
  split at h
  · injection h with h1 h2
    exact hd _ rfl h1
  · cases h

/-- **C41, infinite energies.** Whatever the density, its gradient, their exceptions and the random numbers (not negative) are, and even if the current state has an infinite or undefined energy: if a step
returns with the sample accepted, the negative log density at the new state is finite, and it is the value kept for the next step. The kinetic energies must be finite. -/
theorem C41_accepted_finite (ex : K → K) (o : HOpt K) (tol : K) (Q : HProb K X V P) (hk : ∀ p, ∃ k, Q.kin p = .fin k) (mean : Dbl K) (s s' : HS K X V) (l : List (V × K)) (hl : ∀ a ∈ l, 0 ≤ a.2)
    (q : Dbl K) (h : hStep ex o tol Q mean s l = .done s' q) (ha : s'.last = true) : ∃ v, s'.u = .fin v ∧ Q.dens (Q.obs s'.x) = some (.fin v) := by
  unfold hStep at h
  dsimp only at h
  generalize o.adapt s.burnIn mean s.eps / 2 = half at h
  generalize ({ s with eps := o.adapt s.burnIn mean s.eps } : HS K X V) = s1 at h
  induction l generalizing s1 with
  | nil => cases h
  | cons a l ih =>
    obtain ⟨p, r⟩ := a
    unfold attempts at h
    cases hat : attempt ex o tol Q half (Q.obs s.x) s1 p r with
    | done t q' =>
      rw [hat] at h
      injection h with h1 h2
      subst h1
      exact attempt_finite hk (hl (p, r) (by simp)) hat ha
    | exc t => rw [hat] at h; cases h
    | running t =>
      rw [hat] at h
      exact ih (fun a ha' => hl a (by simp [ha'])) t h

end finite

/-- A density that is zero to the left of 0. -/
def wall : HProb ℚ ℚ ℚ ℚ := ⟨id, (· + ·), fun _ p => p, fun x => some (if x < 0 then .pinf else .fin (x * x / 2)), some, fun p => .fin (p * p / 2), fun _ => true⟩

/-- From a state without density a step to one with it is accepted. -/
example : (∀ p, ∃ k, wall.kin p = .fin k) ∧ (match hStep ex0 (hopt (49/50)) (1/1000000000000) wall (.fin 0) { hs0 with x := -1/10 } [(1, 0)] with
    | .done s' _ => s'.last && decide (s'.u ≠ .pinf)
    | _ => false) = true := by
  refine ⟨fun p => ⟨_, rfl⟩, ?_⟩
  decide +kernel

end Verif.Sampler
