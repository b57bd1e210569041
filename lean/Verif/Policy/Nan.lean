import Verif.Policy.Live

/-! C28: how the damping of the Levenberg-Marquardt policy becomes NaN in a run, and how it recovers. -/
namespace Verif.Policy
open Verif.Optimizer2 Verif.Trust

variable {K X D Q : Type} [LinearOrder K] [Field K]

/-- **C28** (NaN arises). If the cost has not changed at all and the predicted decrease is zero (the step was zero), and the step counts as accepted, the system is rebuilt, lambda becomes NaN
and the step is computed with a NaN conditioner. -/
theorem C28_nan_arises (E : Env K X D Q) (p : LMP K Q) (l : LM K) (hl : p.lm = some l) (hbig : 1 / 10 ^ 16 < l.lambda)
    (hf : p.base.first = false) (J : K) (hJ : p.base.J = .fin J) (x : X) (d : D) (hd : E.d2 p.built l.lambda d = 0) :
    (lmCall E p x d (.fin J) false).1.lm = none ∧ (lmCall E p x d (.fin J) false).1.built = E.val x ∧
    (lmCall E p x d (.fin J) false).2.2 = (E.sol (E.val x) none).getD d := by
  have hg : gainRatio (p.base.call (.fin J) false) (E.d2 p.built l.lambda d) = .nan := by
    simp [gainRatio, Base.call, Base.gain, hJ, hd, Dbl.sub, lmRho, Dbl.div]
  have hu : lmUpdate l (p.base.call (.fin J) false).first false .nan = none := by
    have : (p.base.call (.fin J) false).first = false := hf
    unfold lmUpdate
    simp only [this, Bool.false_eq_true, if_false, Dbl.le_nan_left]
    rw [if_pos hbig]
  unfold lmCall
  simp only [hl, hg, hu]
  trivial

/-- **C28** (cost that is not finite). Let the step count as accepted and lambda not be tiny. If the cost is NaN, lambda becomes NaN. If the cost was infinite and is finite now, and a decrease was
predicted, lambda is divided by gamma like after any very good step (`beta` above 1). Both rebuild the system. -/
theorem C28_nonfinite_cost (E : Env K X D Q) (p : LMP K Q) (l : LM K) (hl : p.lm = some l) (hbig : 1 / 10 ^ 16 < l.lambda) (hf : p.base.first = false) (x : X) (d : D) :
    ((lmCall E p x d .nan false).1.lm = none ∧ (lmCall E p x d .nan false).1.built = E.val x) ∧
    (∀ J : K, p.base.J = .pinf → 0 < E.d2 p.built l.lambda d → 1 < l.beta →
      (lmCall E p x d (.fin J) false).1.lm = some { l with lambda := l.lambda * (1 / l.gamma), mu := l.beta } ∧ (lmCall E p x d (.fin J) false).1.built = E.val x) := by
  refine ⟨?_, fun J hJ hd hb => ?_⟩
  · have hg : gainRatio (p.base.call .nan false) (E.d2 p.built l.lambda d) = .nan := by
      unfold gainRatio Base.call Base.gain
      cases p.base.J <;> simp [Dbl.sub]
    have hu : lmUpdate l (p.base.call .nan false).first false .nan = none := by
      have : (p.base.call .nan false).first = false := hf
      unfold lmUpdate
      simp only [this, Bool.false_eq_true, if_false, Dbl.le_nan_left]
      rw [if_pos hbig]
    unfold lmCall
    simp only [hl, hg, hu]
    trivial
  · have hg : gainRatio (p.base.call (.fin J) false) (E.d2 p.built l.lambda d) = .pinf := by
      simp [gainRatio, Base.call, Base.gain, hJ, Dbl.sub, not_lt.2 hd.le]
    have hu : lmUpdate l (p.base.call (.fin J) false).first false .pinf = some ({ l with lambda := l.lambda * (1 / l.gamma), mu := l.beta }, true) := by
      have : (p.base.call (.fin J) false).first = false := hf
      unfold lmUpdate
      simp only [this, Bool.false_eq_true, if_false]
      rw [if_neg (by simp [Dbl.le, Dbl.lt]), if_pos hbig, if_pos hb]
    unfold lmCall
    simp only [hl, hg, hu]
    trivial

/-- **C28** (infinite costs, signs). Let the step count as accepted. An infinite cost that becomes finite although an increase was predicted, and a finite cost that becomes infinite
although a decrease was predicted, count as a bad step: mu is multiplied by ten, lambda by the new mu, and the system is not rebuilt. -/
theorem C28_infinite_gain_sign (E : Env K X D Q) (p : LMP K Q) (l : LM K) (hl : p.lm = some l) (hf : p.base.first = false) (x : X) (d : D) (J : K) (J' : Dbl K)
    (h : (p.base.J = .pinf ∧ E.d2 p.built l.lambda d < 0 ∧ J' = .fin J) ∨ (p.base.J = .fin J ∧ 0 < E.d2 p.built l.lambda d ∧ J' = .pinf)) :
    (lmCall E p x d J' false).1.lm = some { l with lambda := l.lambda * (l.mu * 10), mu := l.mu * 10 } ∧ (lmCall E p x d J' false).1.built = p.built := by
  have hg : gainRatio (p.base.call J' false) (E.d2 p.built l.lambda d) = .ninf := by
    rcases h with ⟨hJ, hd, rfl⟩ | ⟨hJ, hd, rfl⟩
    · simp [gainRatio, Base.call, Base.gain, hJ, Dbl.sub, hd]
    · simp [gainRatio, Base.call, Base.gain, hJ, Dbl.sub, not_lt.2 hd.le]
  have hu : lmUpdate l (p.base.call J' false).first false .ninf = some ({ l with lambda := l.lambda * (l.mu * 10), mu := l.mu * 10 }, false) := by
    have : (p.base.call J' false).first = false := hf
    unfold lmUpdate
    simp only [this, Bool.false_eq_true, if_false]
    rw [if_pos (by simp [Dbl.le, Dbl.lt])]
  unfold lmCall
  simp only [hl, hg, hu]
  trivial

/-- **C28** (recovery). While lambda is NaN every rejected step leaves it NaN, with the system as it was; the next step that counts as accepted sets it to 1e-15, whatever it was before, and solves the
system of the current point with this damping. -/
theorem C28_nan_recovery (E : Env K X D Q) (p : LMP K Q) (hp : p.lm = none) (rejected : List (X × D × Dbl K)) (x : X) (d : D) (J : Dbl K) :
    let p' := rejected.foldl (fun p c => (lmCall E p c.1 c.2.1 c.2.2 true).1) p
    p'.lm = none ∧ p'.built = p.built ∧
    (∃ l, (lmCall E p' x d J false).1.lm = some l ∧ l.lambda = 1 / 10 ^ 15 ∧ l.mu = p.rest.mu * 2 ^ rejected.length ∧
      l.gamma = p.rest.gamma ∧ l.beta = p.rest.beta ∧ l.p = p.rest.p) ∧
    (lmCall E p' x d J false).1.built = E.val x ∧
    (lmCall E p' x d J false).2.2 = (E.sol (E.val x) (some (1 / 10 ^ 15))).getD d := by
  have key : ∀ (l : List (X × D × Dbl K)) (p : LMP K Q), p.lm = none →
      let p' := l.foldl (fun p c => (lmCall E p c.1 c.2.1 c.2.2 true).1) p
      p'.lm = none ∧ p'.built = p.built ∧ p'.rest = { p.rest with mu := p.rest.mu * 2 ^ l.length } := by
    intro l
    induction l with
    | nil => intro p hp; simp [hp]
    | cons c l ih =>
      intro p hp
      have h0 : (lmCall E p c.1 c.2.1 c.2.2 true).1.lm = none ∧ (lmCall E p c.1 c.2.1 c.2.2 true).1.built = p.built ∧
          (lmCall E p c.1 c.2.1 c.2.2 true).1.rest = { p.rest with mu := p.rest.mu * 2 } := by
        unfold lmCall; simp [hp]
      obtain ⟨h1, h2, h3⟩ := ih _ h0.1
      refine ⟨h1, h2.trans h0.2.1, h3.trans ?_⟩
      rw [h0.2.2]
      simp only [List.length_cons, pow_succ]
      congr 1
      ring
  intro p'
  obtain ⟨h1, h2, h3⟩ := key rejected p hp
  have h1' : p'.lm = none := h1
  have h3' : p'.rest = _ := h3
  refine ⟨h1, h2, ⟨{ p'.rest with lambda := 1 / 10 ^ 15 }, ?_, rfl, ?_, ?_, ?_, ?_⟩, ?_, ?_⟩
  · unfold lmCall; simp [h1']
  · rw [h3']
  · rw [h3']
  · rw [h3']
  · rw [h3']
  · unfold lmCall; simp [h1']
  · unfold lmCall; simp [h1']

/-- A cost at its minimum: the step is zero, so the predicted decrease is. -/
def flat : Env ℚ ℚ ℚ ℚ := ⟨id, fun x d => x + d, id, fun q => q * q, fun d => |d|, fun q m => m.map fun l => -q / (1 + l), fun q l d => d * (l * d - q)⟩

/-- The hypotheses of `C28_nan_arises` are met at the minimum after a zero step, and those of `C28_nan_recovery` in the state it leads to. -/
example : (lmCall flat ⟨⟨.fin 0, .fin 0, false⟩, some ⟨1 / 1000, 3, 2, 3, 2⟩, 0, ⟨0, 0, 0, 0, 0⟩⟩ 0 0 (.fin 0) false).1.lm = none :=
  (C28_nan_arises flat ⟨⟨.fin 0, .fin 0, false⟩, some ⟨1 / 1000, 3, 2, 3, 2⟩, 0, ⟨0, 0, 0, 0, 0⟩⟩ ⟨1 / 1000, 3, 2, 3, 2⟩ rfl (by norm_num) rfl 0 rfl 0 0
    (by simp [flat])).1

/-- The hypotheses of `C28_nonfinite_cost`: the cost was infinite, the step goes from 1 to 0. -/
example : (lmCall flat ⟨⟨.pinf, .pinf, false⟩, some ⟨1, 3, 2, 3, 2⟩, 1, ⟨0, 0, 0, 0, 0⟩⟩ 0 (-1 / 2) (.fin 0) false).1.lm = some ⟨1 / 3, 3, 2, 3, 2⟩ := by
  have := ((C28_nonfinite_cost flat ⟨⟨.pinf, .pinf, false⟩, some ⟨1, 3, 2, 3, 2⟩, 1, ⟨0, 0, 0, 0, 0⟩⟩ ⟨1, 3, 2, 3, 2⟩ rfl (by norm_num) rfl 0 (-1 / 2)).2 0 rfl
    (by norm_num [flat]) (by norm_num)).1
  rw [this]
  norm_num

/-- The hypotheses of `C28_infinite_gain_sign`: the step goes from 1 to 1/2 and the cost becomes infinite. -/
example : (lmCall flat ⟨⟨.fin 1, .fin 1, false⟩, some ⟨1, 3, 2, 3, 2⟩, 1, ⟨0, 0, 0, 0, 0⟩⟩ 0 (-1 / 2) .pinf false).1.lm = some ⟨20, 3, 2, 3, 20⟩ := by
  have := (C28_infinite_gain_sign flat ⟨⟨.fin 1, .fin 1, false⟩, some ⟨1, 3, 2, 3, 2⟩, 1, ⟨0, 0, 0, 0, 0⟩⟩ ⟨1, 3, 2, 3, 2⟩ rfl rfl 0 (-1 / 2) 1 .pinf (.inr ⟨rfl, by norm_num [flat], rfl⟩)).1
  rw [this]
  norm_num

end Verif.Policy
