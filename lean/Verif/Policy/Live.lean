import Verif.Policy.Fresh
import Mathlib.Analysis.Calculus.FDeriv.Basic
import Mathlib.Analysis.Calculus.Deriv.Add
import Mathlib.Analysis.Calculus.Deriv.Pow
import Mathlib.Analysis.InnerProductSpace.LinearMap
import Mathlib.Analysis.SpecificLimits.Basic
import Mathlib.Tactic.Linarith
import Mathlib.Tactic.Positivity

/-! Property C95: after a rejected step the policies shorten the step until one is accepted. -/
namespace Verif.Policy
open Verif.Optimizer2 Verif.Trust

variable {V : Type} [NormedAddCommGroup V] [InnerProductSpace ℝ V]

/-- Design variables with values in `V` (`X` is value and backup) and additive updates. -/
def additive (cost maxAbs : V → ℝ) (sol : V → Option ℝ → Option V) (d2 : V → ℝ → V → ℝ) : Env ℝ (V × V) V V where
  val x := x.1
  update x d := (x.1 + d, x.1)
  revert x := (x.2, x.2)
  cost := cost
  maxAbs := maxAbs
  sol := sol
  d2 := d2

/-- The right-hand side `r` is minus half the gradient of the cost at `q` (the cost is the squared norm of the residual, the
right-hand side minus the transposed Jacobian times the residual). -/
def HasRhs (cost : V → ℝ) (q r : V) : Prop := HasFDerivAt cost ((-2 : ℝ) • innerSL ℝ r) q

/-- Short steps with an angle to the gradient bounded away from ninety degrees lower the cost. -/
theorem descent {cost : V → ℝ} {q r : V} (h : HasRhs cost q r) {k : ℝ} (hk : 0 < k) :
    ∃ ε > 0, ∀ d : V, d ≠ 0 → ‖d‖ < ε → k * ‖d‖ ≤ inner ℝ r d → cost (q + d) < cost q := by
  have ho := (hasFDerivAt_iff_isLittleO_nhds_zero.1 h).def hk
  rw [Metric.eventually_nhds_iff] at ho
  obtain ⟨ε, hε, ho⟩ := ho
  refine ⟨ε, hε, fun d hd hn hin => ?_⟩
  have h1 := ho (show dist d 0 < ε by rwa [dist_zero_right])
  rw [Real.norm_eq_abs] at h1
  have h2 := (abs_le.1 h1).2
  have h3 : ((-2 : ℝ) • innerSL ℝ r) d = -2 * inner ℝ r d := by simp
  rw [h3] at h2
  have h4 : 0 < ‖d‖ := norm_pos_iff.2 hd
  nlinarith [mul_pos hk h4]

/-- Solutions of the damped system become short and turn towards the right-hand side as the damping grows. -/
theorem damped_descent {cost : V → ℝ} {q r : V} (h : HasRhs cost q r) (hr : r ≠ 0) (H : V →L[ℝ] V)
    (hpsd : ∀ d, 0 ≤ inner ℝ (H d) d) :
    ∃ L : ℝ, ∀ l d, L ≤ l → H d + (l * l) • d = r → cost (q + d) < cost q := by
  have hr0 : 0 < ‖r‖ := norm_pos_iff.2 hr
  obtain ⟨ε, hε, hd⟩ := descent h (k := ‖r‖ / 2) (by positivity)
  refine ⟨max 1 (max (2 * ‖r‖ / ε) (2 * ‖H‖)), fun l d hl hs => ?_⟩
  have hl1 : 1 ≤ l := le_trans (le_max_left _ _) hl
  have hl2 : 2 * ‖r‖ / ε ≤ l := le_trans (le_trans (le_max_left _ _) (le_max_right _ _)) hl
  have hl3 : 2 * ‖H‖ ≤ l := le_trans (le_trans (le_max_right _ _) (le_max_right _ _)) hl
  have hll : l ≤ l * l := by nlinarith
  have hd0 : d ≠ 0 := by
    rintro rfl
    rw [map_zero, smul_zero, add_zero] at hs
    exact hr hs.symm
  have hn : 0 < ‖d‖ := norm_pos_iff.2 hd0
  have hin : inner ℝ r d = inner ℝ (H d) d + l * l * (‖d‖ * ‖d‖) := by
    rw [← hs, inner_add_left, inner_smul_left, real_inner_self_eq_norm_mul_norm]; simp
  have hcs : inner ℝ r d ≤ ‖r‖ * ‖d‖ := real_inner_le_norm r d
  have hb : l * l * ‖d‖ ≤ ‖r‖ := by
    have := hpsd d
    have h1 : (l * l * ‖d‖) * ‖d‖ ≤ ‖r‖ * ‖d‖ := by nlinarith
    exact le_of_mul_le_mul_right h1 hn
  have hlow : ‖r‖ ≤ ‖H‖ * ‖d‖ + l * l * ‖d‖ := by
    calc ‖r‖ = ‖H d + (l * l) • d‖ := by rw [hs]
      _ ≤ ‖H d‖ + ‖(l * l) • d‖ := norm_add_le _ _
      _ ≤ ‖H‖ * ‖d‖ + l * l * ‖d‖ := by
        rw [norm_smul, Real.norm_eq_abs, abs_of_nonneg (by positivity)]
        exact add_le_add (H.le_opNorm d) le_rfl
  apply hd d hd0
  · have h1 : 2 * ‖r‖ ≤ l * ε := by rwa [div_le_iff₀ hε] at hl2
    have h2 : l * ‖d‖ ≤ ‖r‖ := le_trans (mul_le_mul_of_nonneg_right hll hn.le) hb
    have h3 : l * ‖d‖ < l * ε := by linarith
    exact lt_of_mul_lt_mul_left h3 (by linarith)
  · have h1 : ‖H‖ * ‖d‖ ≤ l * l * ‖d‖ / 2 := by
      have : ‖H‖ ≤ l * l / 2 := by linarith
      nlinarith
    have h2 : ‖r‖ / 2 ≤ l * l * ‖d‖ := by nlinarith
    have := hpsd d
    nlinarith

omit [NormedAddCommGroup V] [InnerProductSpace ℝ V] in
/-- Passes whose step is rejected as long as none is accepted. -/
theorem passes_until {P : Type} (S : Setup ℝ (V × V) V P) (G : St ℝ (V × V) V P → Prop) (I : Nat → St ℝ (V × V) V P → Prop)
    (hstep : ∀ n s, I n s → ∃ s', iter S s = .ok s' ∧ (G s' ∨ I (n + 1) s'))
    (N : Nat) (hN : ∀ s, I N s → ∃ s', iter S s = .ok s' ∧ G s') :
    ∀ n s, n ≤ N → I n s → ∃ m s', passes S m s = .ok s' ∧ G s' := by
  intro n s hn hI
  induction hk : N - n generalizing n s with
  | zero =>
    obtain rfl : n = N := by omega
    obtain ⟨s', h1, h2⟩ := hN s hI
    exact ⟨1, s', by unfold passes; rw [h1]; rfl, h2⟩
  | succ k ih =>
    obtain ⟨s1, h1, h2⟩ := hstep n s hI
    rcases h2 with h2 | h2
    · exact ⟨1, s1, by unfold passes; rw [h1]; rfl, h2⟩
    · obtain ⟨m, s', h3, h4⟩ := ih (n + 1) s1 (by omega) h2 (by omega)
      exact ⟨m + 1, s', by unfold passes; rw [h1]; exact h3, h4⟩

omit [NormedAddCommGroup V] [InnerProductSpace ℝ V] in
/-- A pass with a successful solve: rejected if and only if the cost at the trial point is larger. -/
theorem iter_of_solve {P : Type} (S : Setup ℝ (V × V) V P) (hrev : S.reverts = true) (hsz : ∀ d, S.size d = S.numOpt)
    (s : St ℝ (V × V) V P) (h : (S.solve s.p s.x s.dx s.error s.prevFailed).2.1 = true) :
    iter S s = .ok (if Dbl.lt (Dbl.sub s.pJ (S.cost (candidate S s))) (.fin 0) = true then afterReject S s
      else afterAccept S s) := by
  unfold iter
  simp only [hsz, ne_eq, not_true_eq_false, if_false, h, Bool.not_true, Bool.false_eq_true, hrev, if_true]
  split
  · rename_i hc
    rw [if_pos (by exact hc)]
    rfl
  · rename_i hc
    rw [if_neg (by exact hc)]
    simp only [afterAccept, hrev, if_true]
    rfl

/-! ### Levenberg-Marquardt -/

/-- A state after a rejected step at the values `q`: the system built there is still the one in use. -/
def LMRejected (cost : V → ℝ) (q : V) (lam : ℝ) (s : St ℝ (V × V) V (LMP ℝ V)) : Prop :=
  s.x.1 = q ∧ s.prevFailed = true ∧ s.p.base.first = false ∧ s.p.built = q ∧ s.pJ = .fin (cost q) ∧
    ∃ l, s.p.lm = some l ∧ lam ≤ l.lambda ∧ 1 ≤ l.mu

omit [InnerProductSpace ℝ V] in
theorem lm_rejected_pass (cost maxAbs : V → ℝ) (sol : V → Option ℝ → Option V) (d2 : V → ℝ → V → ℝ) (init : LM ℝ) (q : V)
    (hsucc : ∀ l, 0 < l → sol q (some l) ≠ none) (lam : ℝ) (hlam : 0 < lam) (s : St ℝ (V × V) V (LMP ℝ V))
    (hs : LMRejected cost q lam s) :
    ∃ l' d, 2 * lam ≤ l' ∧ sol q (some l') = some d ∧
      ((cost q < cost (q + d) ∧ ∃ s', iter (lm (additive cost maxAbs sol d2) init) s = .ok s' ∧
          LMRejected cost q (2 * lam) s') ∨
        (cost (q + d) ≤ cost q ∧ ∃ s', iter (lm (additive cost maxAbs sol d2) init) s = .ok s' ∧ s'.prevFailed = false ∧
          s'.x.1 = q + d)) := by
  obtain ⟨h1, h2, h3, h4, h5, l, h6, h7, h8⟩ := hs
  obtain ⟨d, hd⟩ := Option.ne_none_iff_exists'.1 (hsucc (l.lambda * (l.mu * 2)) (by nlinarith))
  have hsolve : (lm (additive cost maxAbs sol d2) init).solve s.p s.x s.dx s.error s.prevFailed =
      (⟨(s.p.base.call s.error s.prevFailed).done,
        some { l with mu := l.mu * 2, lambda := l.lambda * (l.mu * 2) }, q, s.p.rest⟩, true, d) := by
    show lmCall _ s.p s.x s.dx s.error s.prevFailed = _
    unfold lmCall
    have hf : (s.p.base.call s.error s.prevFailed).first = false := h3
    rw [h2] at hf
    simp only [h6, lmUpdate, h2, if_true, h4]
    rw [if_neg (by rw [hf]; exact Bool.false_ne_true)]
    simp only [Bool.false_eq_true, if_false]
    have : (additive cost maxAbs sol d2).sol q (some (l.lambda * (l.mu * 2))) = some d := hd
    rw [this]; rfl
  have hl2 : 2 * lam ≤ l.lambda * (l.mu * 2) := by nlinarith
  refine ⟨_, d, hl2, hd, ?_⟩
  have hit := iter_of_solve (lm (additive cost maxAbs sol d2) init) rfl (fun _ => rfl) s (by rw [hsolve])
  have hcand : candidate (lm (additive cost maxAbs sol d2) init) s = (q + d, q) := by
    unfold candidate
    rw [hsolve, ← h1]; rfl
  have hcost : (lm (additive cost maxAbs sol d2) init).cost (candidate (lm (additive cost maxAbs sol d2) init) s) =
      .fin (cost (q + d)) := by rw [hcand]; rfl
  rw [hcost, h5] at hit
  have hsub : Dbl.lt (Dbl.sub (.fin (cost q)) (.fin (cost (q + d)))) (.fin 0) = decide (cost q - cost (q + d) < 0) := rfl
  rw [hsub] at hit
  rcases lt_or_ge (cost q) (cost (q + d)) with hc | hc
  · left
    rw [if_pos (by rw [decide_eq_true_eq]; linarith)] at hit
    refine ⟨hc, _, hit, ?_⟩
    refine ⟨?_, rfl, ?_, ?_, h5, { l with mu := l.mu * 2, lambda := l.lambda * (l.mu * 2) }, ?_, hl2, by show 1 ≤ l.mu * 2; linarith⟩
    · show ((candidate (lm (additive cost maxAbs sol d2) init) s).2 = q)
      rw [hcand]
    · show ((lm (additive cost maxAbs sol d2) init).solve s.p s.x s.dx s.error s.prevFailed).1.base.first = false
      rw [hsolve]; rfl
    · show ((lm (additive cost maxAbs sol d2) init).solve s.p s.x s.dx s.error s.prevFailed).1.built = q
      rw [hsolve]
    · show ((lm (additive cost maxAbs sol d2) init).solve s.p s.x s.dx s.error s.prevFailed).1.lm = _
      rw [hsolve]
  · right
    rw [if_neg (by rw [decide_eq_true_eq]; linarith)] at hit
    refine ⟨hc, _, hit, rfl, ?_⟩
    show (candidate (lm (additive cost maxAbs sol d2) init) s).1 = q + d
    rw [hcand]

/-- **C95** (Levenberg-Marquardt). Take any run of the optimizer in which the linear solves succeed, with the documented kind of
parameters, and any point of it at which a step has just been rejected while the gradient is not zero. If the cost is
differentiable at the current values and the solver solves the damped systems there, then after finitely many further
passes of the loop a step that moves the design variables is accepted, and the cost does not rise. -/
theorem C95_levenberg_marquardt (cost maxAbs : V → ℝ) (sol : V → Option ℝ → Option V) (d2 : V → ℝ → V → ℝ)
    (hd2 : Predicts (additive cost maxAbs sol d2)) (init : LM ℝ) (hok : LMOk init) (o : Options ℝ)
    (hx : 0 ≤ o.convergenceDeltaX) (he : 0 ≤ o.convergenceDeltaError) (b : Obj ℝ (V × V) V (LMP ℝ V))
    (s : St ℝ (V × V) V (LMP ℝ V)) (hs : Reach (lm (additive cost maxAbs sol d2) init) o b s)
    (hl : s.lsf = false) (hp : s.prevFailed = true)
    (r : V) (hr : r ≠ 0) (hgrad : HasRhs cost s.x.1 r) (H : V →L[ℝ] V) (hpsd : ∀ d, 0 ≤ inner ℝ (H d) d)
    (hsol : ∀ l d, sol s.x.1 (some l) = some d → H d + (l * l) • d = r) (hsucc : ∀ l, 0 < l → sol s.x.1 (some l) ≠ none) :
    ∃ n s', passes (lm (additive cost maxAbs sol d2) init) n s = .ok s' ∧ s'.prevFailed = false ∧ s'.x.1 ≠ s.x.1 ∧
      cost s'.x.1 ≤ cost s.x.1 := by
  set E := additive cost maxAbs sol d2 with hE
  have hres : Restores E := fun _ _ => rfl
  have hI := reach_inv (S := lm E init) (o := o) (b := b)
    (fun s => LMInv E s ∧ s.pJ = .fin (cost s.x.1)) ?_ ?_ s hs
  · obtain ⟨h1, h3⟩ := hI
    obtain ⟨l, J, pJ, e, ⟨g1, hk⟩, _, _, _, gA, gB, _⟩ := h1 hl
    have hf : s.p.base.first = false := by
      cases hf : s.p.base.first with
      | false => rfl
      | true => rw [(gA hf).1] at hp; cases hp
    have h0 : LMRejected cost s.x.1 (l.lambda * 2 ^ 0) s :=
      ⟨rfl, hp, hf, (gB hf hp).1, h3, l, g1, by simp, hk.mu⟩
    obtain ⟨L, hL⟩ := damped_descent hgrad hr H hpsd
    obtain ⟨N, hN⟩ := pow_unbounded_of_one_lt (L / l.lambda) (one_lt_two (α := ℝ))
    have hne : ∀ l' d, sol s.x.1 (some l') = some d → s.x.1 + d ≠ s.x.1 := by
      intro l' d hd hq
      have h0 : d = 0 := by simpa using hq
      have := hsol l' d hd
      rw [h0, map_zero, smul_zero, add_zero] at this
      exact hr this.symm
    have hpos : ∀ n : Nat, 0 < l.lambda * 2 ^ n := fun n => by have := hk.lambda; positivity
    refine passes_until (lm E init) (fun s' => s'.prevFailed = false ∧ s'.x.1 ≠ s.x.1 ∧ cost s'.x.1 ≤ cost s.x.1)
      (fun n t => LMRejected cost s.x.1 (l.lambda * 2 ^ n) t) ?_ N ?_ 0 s (Nat.zero_le _) h0
    · intro n t ht
      obtain ⟨l', d, _, hs2, h⟩ := lm_rejected_pass cost maxAbs sol d2 init s.x.1 hsucc _ (hpos n) t ht
      rcases h with ⟨_, s', h1, h2⟩ | ⟨hc, s', h1, h2, h3⟩
      · refine ⟨s', h1, Or.inr ?_⟩
        have : l.lambda * 2 ^ (n + 1) = 2 * (l.lambda * 2 ^ n) := by rw [pow_succ]; ring
        rw [this]; exact h2
      · exact ⟨s', h1, Or.inl ⟨h2, by rw [h3]; exact hne _ _ hs2, by rw [h3]; exact hc⟩⟩
    · intro t ht
      obtain ⟨l', d, h1, h2, h⟩ := lm_rejected_pass cost maxAbs sol d2 init s.x.1 hsucc _ (hpos N) t ht
      have hge : L ≤ l' := by
        have := hk.lambda
        rw [div_lt_iff₀ this] at hN
        have := hpos N
        linarith
      have hlt := hL l' d hge (hsol _ _ h2)
      rcases h with ⟨hc, _⟩ | ⟨hc, s', h3, h4, h5⟩
      · exact absurd hlt (not_lt.2 hc.le)
      · exact ⟨s', h3, h4, by rw [h5]; exact hne _ _ h2, by rw [h5]; exact hc⟩
  · exact ⟨fun _ => ⟨init, _, _, _, ⟨rfl, hok⟩, rfl, rfl, rfl, fun _ => ⟨rfl, rfl⟩, (fun hf => by cases hf), (fun hf => by cases hf)⟩,
      rfl⟩
  · intro t t' hrun hi ⟨hA, hC⟩
    refine ⟨lm_pass E hres hd2 init o hx he t t' hA hrun hi, ?_⟩
    rcases iter_cases hi with ⟨_, rfl⟩ | ⟨_, _, _, rfl⟩ | ⟨_, _, rfl⟩
    · exact hC
    · exact hC
    · rfl

/-! ### Line search -/

/-- A state after a rejected step of the line search at the values `q` with the direction `g`. -/
def LSRejected (cost : V → ℝ) (q g : V) (c a : ℝ) (s : St ℝ (V × V) V (LSP ℝ)) : Prop :=
  s.x.1 = q ∧ s.prevFailed = true ∧ s.p.base.first = false ∧ s.pJ = .fin (cost q) ∧ s.p.ls.scaleStep = c ∧ s.dx = a • g

theorem ls_rejected_pass (cost maxAbs : V → ℝ) (sol : V → Option ℝ → Option V) (d2 : V → ℝ → V → ℝ) (q g : V) (c a : ℝ)
    (s : St ℝ (V × V) V (LSP ℝ)) (hs : LSRejected cost q g c a s) :
    (cost q < cost (q + (c * a) • g) ∧ ∃ s', iter (ls (additive cost maxAbs sol d2)) s = .ok s' ∧
        LSRejected cost q g c (c * a) s') ∨
      (cost (q + (c * a) • g) ≤ cost q ∧ ∃ s', iter (ls (additive cost maxAbs sol d2)) s = .ok s' ∧ s'.prevFailed = false ∧
        s'.x.1 = q + (c * a) • g) := by
  obtain ⟨h1, h2, h3, h4, h5, h6⟩ := hs
  have hsolve : (ls (additive cost maxAbs sol d2)).solve s.p s.x s.dx s.error s.prevFailed =
      (⟨(s.p.base.call s.error s.prevFailed).done, { s.p.ls with cur := s.p.ls.cur * s.p.ls.scaleStep }⟩, true, (c * a) • g) := by
    simp only [ls, Env.base, LS.call, Base.call, h3, h2, Bool.not_true, Bool.or_self, Bool.false_eq_true, if_false]
    rw [h5, h6, smul_smul]
  have hit := iter_of_solve (ls (additive cost maxAbs sol d2)) rfl (fun _ => rfl) s (by rw [hsolve])
  have hcand : candidate (ls (additive cost maxAbs sol d2)) s = (q + (c * a) • g, q) := by
    unfold candidate
    rw [hsolve, ← h1]; rfl
  have hcost : (ls (additive cost maxAbs sol d2)).cost (candidate (ls (additive cost maxAbs sol d2)) s) =
      .fin (cost (q + (c * a) • g)) := by rw [hcand]; rfl
  rw [hcost, h4] at hit
  have hsub : Dbl.lt (Dbl.sub (.fin (cost q)) (.fin (cost (q + (c * a) • g)))) (.fin 0) =
      decide (cost q - cost (q + (c * a) • g) < 0) := rfl
  rw [hsub] at hit
  rcases lt_or_ge (cost q) (cost (q + (c * a) • g)) with hc | hc
  · left
    rw [if_pos (by rw [decide_eq_true_eq]; linarith)] at hit
    refine ⟨hc, _, hit, ?_, rfl, ?_, h4, ?_, ?_⟩
    · show (candidate (ls (additive cost maxAbs sol d2)) s).2 = q
      rw [hcand]
    · show ((ls (additive cost maxAbs sol d2)).solve s.p s.x s.dx s.error s.prevFailed).1.base.first = false
      rw [hsolve]; rfl
    · show ((ls (additive cost maxAbs sol d2)).solve s.p s.x s.dx s.error s.prevFailed).1.ls.scaleStep = c
      rw [hsolve]; exact h5
    · show ((ls (additive cost maxAbs sol d2)).solve s.p s.x s.dx s.error s.prevFailed).2.2 = (c * a) • g
      rw [hsolve]
  · right
    rw [if_neg (by rw [decide_eq_true_eq]; linarith)] at hit
    refine ⟨hc, _, hit, rfl, ?_⟩
    show (candidate (ls (additive cost maxAbs sol d2)) s).1 = q + (c * a) • g
    rw [hcand]

/-- **C95** (line search). Take any run of the optimizer in which the linear solves succeed, with a policy accepted by its
constructor that resets the scale after success, and any point of it at which a step has just been rejected. If the cost is
differentiable at the current values and the solution of the system there points downhill (as it does when the Hessian
is positive definite), then after finitely many further passes a step is accepted, and the cost does not rise. Unless the
factor is zero (which the constructor lets through) that step moves the design variables. -/
theorem C95_line_search (cost maxAbs : V → ℝ) (sol : V → Option ℝ → Option V) (d2 : V → ℝ → V → ℝ) (o : Options ℝ)
    (b : Obj ℝ (V × V) V (LSP ℝ)) (c : ℝ) (hnew : LS.new c true = .ok b.p.ls) (s : St ℝ (V × V) V (LSP ℝ))
    (hs : Reach (ls (additive cost maxAbs sol d2)) o b s) (hl : s.lsf = false) (hp : s.prevFailed = true)
    (r : V) (hgrad : HasRhs cost s.x.1 r) (hdown : ∀ g, sol s.x.1 (some 0) = some g → 0 < inner ℝ r g) :
    ∃ n s', passes (ls (additive cost maxAbs sol d2)) n s = .ok s' ∧ s'.prevFailed = false ∧
      (c ≠ 0 → s'.x.1 ≠ s.x.1) ∧ cost s'.x.1 ≤ cost s.x.1 := by
  set E := additive cost maxAbs sol d2 with hE
  have hres : Restores E := fun _ _ => rfl
  obtain ⟨hc0, hc1, hb⟩ : 0 ≤ c ∧ c < 1 ∧ b.p.ls = ⟨c, true, 1⟩ := by
    unfold LS.new at hnew
    split at hnew
    · rename_i h
      exact ⟨h.1, h.2, (Res.ok.inj hnew).symm⟩
    · cases hnew
  have hI := reach_inv (S := ls E) (o := o) (b := b)
    (fun s => LSInv E c s ∧ (0 ≤ s.p.ls.cur ∧ (c ≠ 0 → 0 < s.p.ls.cur)) ∧ s.pJ = .fin (cost s.x.1)) ?_ ?_ s hs
  · obtain ⟨⟨i1, i2, i3⟩, ⟨i4, i5⟩, i6⟩ := hI
    obtain ⟨i7, g, hg, i8⟩ := i3 hl hp
    have hrg := hdown g hg
    have hg0 : g ≠ 0 := by rintro rfl; rw [inner_zero_right] at hrg; exact lt_irrefl _ hrg
    have hgn : 0 < ‖g‖ := norm_pos_iff.2 hg0
    have h0 : LSRejected cost s.x.1 g c (c ^ 0 * s.p.ls.cur) s := ⟨rfl, hp, i7, i6, i1, by rw [pow_zero, one_mul]; exact i8⟩
    have hstep : ∀ n t, LSRejected cost s.x.1 g c (c ^ n * s.p.ls.cur) t → ∃ t', iter (ls E) t = .ok t' ∧
        ((t'.prevFailed = false ∧ (c ≠ 0 → t'.x.1 ≠ s.x.1) ∧ cost t'.x.1 ≤ cost s.x.1) ∨
          (cost s.x.1 < cost (s.x.1 + (c ^ (n + 1) * s.p.ls.cur) • g) ∧
            LSRejected cost s.x.1 g c (c ^ (n + 1) * s.p.ls.cur) t')) := by
      intro n t ht
      have hpw : c * (c ^ n * s.p.ls.cur) = c ^ (n + 1) * s.p.ls.cur := by rw [pow_succ]; ring
      have h := ls_rejected_pass cost maxAbs sol d2 s.x.1 g c _ t ht
      rw [hpw] at h
      rcases h with ⟨h1, t', h2, h3⟩ | ⟨h1, t', h2, h3, h4⟩
      · exact ⟨t', h2, Or.inr ⟨h1, h3⟩⟩
      · refine ⟨t', h2, Or.inl ⟨h3, fun hc hq => ?_, by rw [h4]; exact h1⟩⟩
        rw [h4] at hq
        have h5 : (c ^ (n + 1) * s.p.ls.cur) • g = 0 := by simpa using hq
        have h6 : 0 < c ^ (n + 1) * s.p.ls.cur := mul_pos (pow_pos (lt_of_le_of_ne hc0 (Ne.symm hc)) _) (i5 hc)
        rcases smul_eq_zero.1 h5 with h | h
        · exact absurd h h6.ne'
        · exact hg0 h
    obtain ⟨ε, hε, hdes⟩ := descent hgrad (k := inner ℝ r g / ‖g‖) (by positivity)
    obtain ⟨N, hN⟩ := exists_pow_lt_of_lt_one (show 0 < ε / ((s.p.ls.cur + 1) * ‖g‖) by positivity) hc1
    refine passes_until (ls E) (fun t' => t'.prevFailed = false ∧ (c ≠ 0 → t'.x.1 ≠ s.x.1) ∧ cost t'.x.1 ≤ cost s.x.1)
      (fun n t => LSRejected cost s.x.1 g c (c ^ n * s.p.ls.cur) t) ?_ N ?_ 0 s (Nat.zero_le _) h0
    · intro n t ht
      obtain ⟨t', h1, h2⟩ := hstep n t ht
      exact ⟨t', h1, h2.imp id And.right⟩
    · intro t ht
      obtain ⟨t', h1, h2 | ⟨h2, _⟩⟩ := hstep N t ht
      · exact ⟨t', h1, h2⟩
      · exfalso
        rcases hc0.eq_or_lt with hc | hc
        · rw [← hc, pow_succ, mul_zero, zero_mul, zero_smul, add_zero] at h2
          exact lt_irrefl _ h2
        · have ha : 0 < c ^ (N + 1) * s.p.ls.cur := mul_pos (pow_pos hc _) (i5 hc.ne')
          refine absurd h2 (not_lt.2 (hdes _ (smul_ne_zero ha.ne' hg0) ?_ ?_).le)
          · rw [norm_smul, Real.norm_eq_abs, abs_of_pos ha]
            rw [lt_div_iff₀ (by positivity)] at hN
            have h3 : c ^ (N + 1) ≤ c ^ N := pow_le_pow_of_le_one hc0 hc1.le (Nat.le_succ N)
            have h4 : c ^ (N + 1) * s.p.ls.cur * ‖g‖ ≤ c ^ N * ((s.p.ls.cur + 1) * ‖g‖) := by
              rw [mul_assoc]
              exact mul_le_mul h3 (mul_le_mul_of_nonneg_right (by linarith) hgn.le) (by positivity) (by positivity)
            linarith
          · rw [norm_smul, Real.norm_eq_abs, abs_of_pos ha, inner_smul_right]
            have : inner ℝ r g / ‖g‖ * (c ^ (N + 1) * s.p.ls.cur * ‖g‖) = c ^ (N + 1) * s.p.ls.cur * inner ℝ r g := by
              field_simp
            exact this.le
  · refine ⟨⟨?_, ?_, fun _ h => by cases h⟩, ?_, rfl⟩
    · show b.p.ls.scaleStep = c; rw [hb]
    · show b.p.ls.reset = true; rw [hb]
    · show 0 ≤ b.p.ls.cur ∧ (c ≠ 0 → 0 < b.p.ls.cur)
      rw [hb]; exact ⟨zero_le_one, fun _ => one_pos⟩
  · intro t t' _ hi ⟨hA, ⟨hB1, hB2⟩, hC⟩
    have hcur : 0 ≤ ((ls E).solve t.p t.x t.dx t.error t.prevFailed).1.ls.cur ∧
        (c ≠ 0 → 0 < ((ls E).solve t.p t.x t.dx t.error t.prevFailed).1.ls.cur) := by
      simp only [ls, Env.base, LS.call]
      split
      · simp only [hA.2.1, Bool.or_true, if_true]; exact ⟨zero_le_one, fun _ => one_pos⟩
      · simp only [hA.1]
        exact ⟨mul_nonneg hB1 hc0, fun hc => mul_pos (hB2 hc) (lt_of_le_of_ne hc0 (Ne.symm hc))⟩
    refine ⟨(ls_pass E hres c t t' hA hi).1, ?_, ?_⟩
    · rcases iter_cases hi with ⟨_, rfl⟩ | ⟨_, _, _, rfl⟩ | ⟨_, _, rfl⟩ <;> exact hcur
    · rcases iter_cases hi with ⟨_, rfl⟩ | ⟨_, _, _, rfl⟩ | ⟨_, _, rfl⟩
      · exact hC
      · exact hC
      · rfl

omit [NormedAddCommGroup V] [InnerProductSpace ℝ V] in
/-- The state after a first pass whose step is rejected. -/
theorem reach_rejected {P : Type} (S : Setup ℝ (V × V) V P) (hrev : S.reverts = true) (hsz : ∀ d, S.size d = S.numOpt)
    (o : Options ℝ) (b : Obj ℝ (V × V) V P) (hrun : running o (enter S o b) = true)
    (h : (S.solve (enter S o b).p (enter S o b).x (enter S o b).dx (enter S o b).error (enter S o b).prevFailed).2.1 = true)
    (hrej : Dbl.lt (Dbl.sub (enter S o b).pJ (S.cost (candidate S (enter S o b)))) (.fin 0) = true) :
    Reach S o b (afterReject S (enter S o b)) := by
  have := iter_of_solve S hrev hsz (enter S o b) h
  rw [if_pos hrej] at this
  exact .pass .enter hrun this

/-- Residual `q^2 + 1`: its cost, right-hand side and damped step. -/
noncomputable def bowl : Env ℝ (ℝ × ℝ) ℝ ℝ :=
  additive (fun q => (q ^ 2 + 1) ^ 2) (fun d => |d|)
    (fun q m => m.bind fun l => if 0 < 4 * q ^ 2 + l * l ∧ 0 ≤ l then some (-(2 * q * (q ^ 2 + 1)) / (4 * q ^ 2 + l * l)) else none)
    (fun q l d => d * (l * d + -(2 * q * (q ^ 2 + 1))))

theorem bowl_rhs (q : ℝ) : HasRhs (fun q : ℝ => (q ^ 2 + 1) ^ 2) q (-(2 * q * (q ^ 2 + 1))) := by
  unfold HasRhs
  have h : HasDerivAt (fun q : ℝ => (q ^ 2 + 1) ^ 2) (2 * (q ^ 2 + 1) * (2 * q)) q := by
    have := HasDerivAt.pow (HasDerivAt.add_const (1 : ℝ) (hasDerivAt_pow 2 q)) 2
    have he : 2 * (q ^ 2 + 1) * (2 * q) = ((2 : ℕ) : ℝ) * (q ^ 2 + 1) ^ (2 - 1) * (((2 : ℕ) : ℝ) * q ^ (2 - 1)) := by norm_num
    rw [he]
    exact this
  refine h.hasFDerivAt.congr_fderiv ?_
  ext
  simp
  ring

/-- The hypotheses of C95 for the line search are met: started at 1/2 the full step to -3/4 is rejected. -/
example : ∃ s, Reach (ls bowl) ⟨0, 0, 9⟩ (fresh (1 / 2, 1 / 2) (⟨Base.start (.fin 0), ⟨1 / 2, true, 1⟩⟩ : LSP ℝ) 0) s ∧
    s.lsf = false ∧ s.prevFailed = true ∧ s.x.1 = 1 / 2 ∧
    (∀ g, bowl.sol s.x.1 (some 0) = some g → 0 < inner ℝ (-(2 * s.x.1 * (s.x.1 ^ 2 + 1))) g) := by
  have hsol : bowl.sol (1 / 2) (some 0) = some (-5 / 4) := by
    show (if (0 : ℝ) < 4 * (1 / 2) ^ 2 + 0 * 0 ∧ (0 : ℝ) ≤ 0 then some (-(2 * (1 / 2) * ((1 / 2) ^ 2 + 1)) / (4 * (1 / 2) ^ 2 + 0 * 0))
      else none : Option ℝ) = _
    norm_num
  refine ⟨_, reach_rejected (ls bowl) rfl (fun _ => rfl) _ _ ?_ ?_ ?_, rfl, rfl, rfl, ?_⟩
  · simp [running, enter, fresh, Dbl.lt, Dbl.abs]
  · show (bowl.sol (1 / 2) (some 0)).isSome = true
    rw [hsol]; rfl
  · have hc : candidate (ls bowl) (enter (ls bowl) ⟨0, 0, 9⟩ (fresh (1 / 2, 1 / 2) (⟨Base.start (.fin 0), ⟨1 / 2, true, 1⟩⟩ : LSP ℝ) 0)) =
        (1 / 2 + -5 / 4, 1 / 2) := by
      show ((1 / 2 + (bowl.sol (1 / 2) (some 0)).getD 0, 1 / 2) : ℝ × ℝ) = _
      rw [hsol]; rfl
    rw [hc]
    show decide ((((1 / 2 : ℝ) ^ 2 + 1) ^ 2) - (((1 / 2 : ℝ) + -5 / 4) ^ 2 + 1) ^ 2 < 0) = true
    rw [decide_eq_true_eq]; norm_num
  · intro g hg
    have : bowl.sol (1 / 2) (some 0) = some g := hg
    rw [hsol] at this
    cases this
    show (0 : ℝ) < inner ℝ (-(2 * (1 / 2) * ((1 / 2) ^ 2 + 1)) : ℝ) (-5 / 4 : ℝ)
    simp; norm_num

/-- The hypotheses of C95 for Levenberg-Marquardt are met: started at 1/2 with damping 1/4 the first step is rejected. -/
example : Predicts bowl ∧ LMOk (⟨1 / 4, 3, 2, 3, 2⟩ : LM ℝ) ∧ ∃ s,
    Reach (lm bowl ⟨1 / 4, 3, 2, 3, 2⟩) ⟨0, 0, 9⟩ (fresh (1 / 2, 1 / 2) (⟨Base.start (.fin 0), none, 0, ⟨0, 0, 0, 0, 0⟩⟩ : LMP ℝ ℝ) 0) s ∧
    s.lsf = false ∧ s.prevFailed = true ∧ s.x.1 = 1 / 2 ∧ (-(2 * s.x.1 * (s.x.1 ^ 2 + 1)) : ℝ) ≠ 0 ∧
    (∀ l d, bowl.sol s.x.1 (some l) = some d → (1 : ℝ →L[ℝ] ℝ) d + (l * l) • d = -(2 * s.x.1 * (s.x.1 ^ 2 + 1))) ∧
    (∀ l, 0 < l → bowl.sol s.x.1 (some l) ≠ none) := by
  have hb : ∀ q l, bowl.sol q (some l) = if 0 < 4 * q ^ 2 + l * l ∧ 0 ≤ l then
      some (-(2 * q * (q ^ 2 + 1)) / (4 * q ^ 2 + l * l)) else none := fun _ _ => rfl
  have hsol : bowl.sol (1 / 2) (some (1 / 4)) = some (-20 / 17) := by
    rw [hb]; norm_num
  refine ⟨?_, ⟨by norm_num, by norm_num, by norm_num, by norm_num, by norm_num⟩, _,
    reach_rejected (lm bowl ⟨1 / 4, 3, 2, 3, 2⟩) rfl (fun _ => rfl) _ _ ?_ ?_ ?_, rfl, rfl, rfl, ?_, ?_, ?_⟩
  · intro q l d _ h hd
    rw [hb] at h
    split at h
    · rename_i hc
      have h1 := Option.some.inj h
      have h2 : -(2 * q * (q ^ 2 + 1)) = d * (4 * q ^ 2 + l * l) := by rw [← h1, div_mul_cancel₀ _ hc.1.ne']
      have h0 : d ≠ 0 := by
        intro h0
        rw [h0] at hd
        exact absurd hd (by show ¬ (0 : ℝ) < |(0 : ℝ)|; simp)
      show 0 < d * (l * d + -(2 * q * (q ^ 2 + 1)))
      rw [h2]
      have : d * (l * d + d * (4 * q ^ 2 + l * l)) = d * d * (l + (4 * q ^ 2 + l * l)) := by ring
      rw [this]
      exact mul_pos (mul_self_pos.2 h0) (by linarith [hc.1, hc.2])
    · cases h
  · simp [running, enter, fresh, Dbl.lt, Dbl.abs]
  · show (bowl.sol (1 / 2) (some (1 / 4))).isSome = true
    rw [hsol]; rfl
  · have hc : candidate (lm bowl ⟨1 / 4, 3, 2, 3, 2⟩) (enter (lm bowl ⟨1 / 4, 3, 2, 3, 2⟩) ⟨0, 0, 9⟩
        (fresh (1 / 2, 1 / 2) (⟨Base.start (.fin 0), none, 0, ⟨0, 0, 0, 0, 0⟩⟩ : LMP ℝ ℝ) 0)) = (1 / 2 + -20 / 17, 1 / 2) := by
      show ((1 / 2 + (bowl.sol (1 / 2) (some (1 / 4))).getD 0, 1 / 2) : ℝ × ℝ) = _
      rw [hsol]; rfl
    rw [hc]
    show decide ((((1 / 2 : ℝ) ^ 2 + 1) ^ 2) - (((1 / 2 : ℝ) + -20 / 17) ^ 2 + 1) ^ 2 < 0) = true
    rw [decide_eq_true_eq]; norm_num
  · show (-(2 * (1 / 2) * ((1 / 2) ^ 2 + 1)) : ℝ) ≠ 0
    norm_num
  · intro l d h
    have h' : bowl.sol (1 / 2) (some l) = some d := h
    rw [hb] at h'
    split at h'
    · rename_i hc
      have h1 := Option.some.inj h'
      have h2 : -(2 * (1 / 2) * ((1 / 2) ^ 2 + 1)) = d * (4 * (1 / 2) ^ 2 + l * l) := by rw [← h1, div_mul_cancel₀ _ hc.1.ne']
      show d + (l * l) * d = -(2 * (1 / 2) * ((1 / 2) ^ 2 + 1))
      rw [h2]; ring
    · cases h'
  · intro l hl h
    have h' : bowl.sol (1 / 2) (some l) = none := h
    rw [hb, if_pos ⟨by positivity, hl.le⟩] at h'
    cases h'

end Verif.Policy
