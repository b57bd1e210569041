import Verif.Policy.Linear
import Mathlib.Tactic.FieldSimp
import Mathlib.Tactic.Module
import Mathlib.Analysis.InnerProductSpace.PiL2

/-!
The dog-leg policy with the special values of doubles: at a stationary point the right-hand side is zero and the
steepest-descent step is 0/0. Files: `DogLegTrustRegionPolicy.cpp` (DL), `Optimizer2.cpp` (O2). Property theorem C140.
-/
namespace Verif.Policy
open Verif.Optimizer2 Verif.Trust

variable {V W : Type} [NormedAddCommGroup V] [InnerProductSpace ℝ V] [NormedAddCommGroup W] [InnerProductSpace ℝ W]

/-! ### Model -/

/-- State of the dog-leg policy with the flag `nan` for a steepest-descent step (`_dx_sd`, `_dx_sd_norm`, `_sd_scale`) that is
NaN. -/
structure DLXP (V : Type) where
  base : Base (Dbl ℝ)
  dl : DL V
  nan : Bool

/-- The choice of the step, DL:104-136, when the steepest-descent step is NaN: a radius of zero is replaced by NaN, and then or
when the Gauss-Newton step is too long the comparison DL:110 is false and the step is NaN (`none`). -/
noncomputable def dlxGn (s : DL V) (nan : Bool) (J : ℝ) : DL V × Option V :=
  if nan then
    if s.delta ≠ 0 ∧ s.gnNorm ≤ s.delta then ({ s with dx := s.gn, L0 := J, step := .gn }, some s.gn)
    else ({ s with step := .dl }, none)
  else (dlGn s J, some (dlGn s J).dx)

/-- `solveSystemImplementation`, DL:25-142: state, flag, success and step. With a NaN the comparison DL:83 is false. Simplified:
`rhsJtJrhs()` is the squared norm of `J rhs`, so it vanishes only together with the right-hand side and the quotient DL:69 is
then NaN. After a NaN step the members `_dx`, `_L0` and a radius that became NaN are not tracked (the design variables are NaN
then and stay so). -/
noncomputable def dlxCall (s : DL V) (nan first prevFailed : Bool) (gain J : ℝ) (l : Lin V) :
    DL V × Bool × Bool × Option V :=
  let s := { s with delta := dlDelta s first gain }
  let nan := if prevFailed then nan else decide (l.rJJr = 0)
  let s := if prevFailed then s else (dlRebuild s l).getD s
  if nan = false ∧ s.sdNorm ≥ s.delta ∧ s.delta ≠ 0 then
    let dx := (s.delta / s.sdNorm) • s.sd
    let L0 := s.delta * (2 * s.sdNorm - s.delta) / (2 * s.scale)
    ({ s with dx := dx, L0 := L0, step := .sd }, nan, true, some dx)
  else if prevFailed then
    let r := dlxGn s nan J
    (r.1, nan, true, r.2)
  else match l.sol with
    | none => (s, nan, false, none)
    | some g =>
      let r := dlxGn { s with gn := g, gnNorm := ‖g‖ } nan J
      (r.1, nan, true, r.2)

/-- `Optimizer2` with the dog-leg policy, DL:11-142 inside TR:29-49 and O2:152-259. Design variables and steps that are NaN are
`none`; adding NaN gives NaN (O2:279-286), the cost there is NaN, and so is `maxCoeff` of a step of NaNs (O2:289). Simplified:
all variables become NaN together, and a system built at NaN has the solution NaN. -/
noncomputable def dlx (cost : V → ℝ) (maxAbs : V → ℝ) (lin : V → Lin V) : Setup ℝ (Option V × Option V) (Option V) (DLXP V) where
  cost x := match x.1 with
    | some q => .fin (cost q)
    | none => .nan
  update x d := (match x.1, d with
    | some q, some d => some (q + d)
    | _, _ => none, x.1)
  revert x := (x.2, x.2)
  maxAbs d := match d with
    | some d => .fin (maxAbs d)
    | none => .nan
  size _ := 1
  numOpt := 1
  start p J := ⟨Base.start J, p.dl.start, p.nan⟩
  solve p x d J f :=
    let b := p.base.call J f
    match b.gain, J, x.1 with
    | .fin g, .fin j, some q =>
      let r := dlxCall p.dl p.nan b.first f g j (lin q)
      (⟨b.done, r.1, r.2.1⟩, r.2.2.1, if r.2.2.1 then r.2.2.2 else d)
    | _, _, _ => (⟨b.done, p.dl, p.nan⟩, true, none)
  reverts := true

/-- A pass that is not taken back. -/
theorem dlx_accept {cost maxAbs : V → ℝ} {lin : V → Lin V} {s s' : St ℝ (Option V × Option V) (Option V) (DLXP V)}
    (hi : iter (dlx cost maxAbs lin) s = .ok s') {p' : DLXP V} {d : Option V}
    (hs : (dlx cost maxAbs lin).solve s.p s.x s.dx s.error s.prevFailed = (p', true, d))
    (hJ : Dbl.lt (Dbl.sub s.pJ ((dlx cost maxAbs lin).cost ((dlx cost maxAbs lin).update s.x d))) (.fin 0) = false) :
    s'.x = (dlx cost maxAbs lin).update s.x d ∧ s'.p = p' ∧ s'.dx = d ∧ s'.error = (dlx cost maxAbs lin).cost s'.x ∧
      s'.pJ = (dlx cost maxAbs lin).cost s'.x ∧ s'.deltaX = (dlx cost maxAbs lin).maxAbs d ∧
      s'.deltaJ = Dbl.sub s.pJ ((dlx cost maxAbs lin).cost s'.x) ∧ s'.prevFailed = false ∧ s'.lsf = s.lsf ∧
      s'.iterations = s.iterations + 1 ∧ s'.failed = s.failed := by
  have hc : candidate (dlx cost maxAbs lin) s = (dlx cost maxAbs lin).update s.x d := by
    unfold candidate; rw [hs]
  rcases iter_cases hi with ⟨h1, _⟩ | ⟨_, _, h1, _⟩ | ⟨_, _, rfl⟩
  · rw [hs] at h1; cases h1
  · rw [hc, hJ] at h1; cases h1
  · rw [← hc]
    refine ⟨rfl, ?_, ?_, rfl, rfl, ?_, rfl, rfl, rfl, rfl, rfl⟩
    · show ((dlx cost maxAbs lin).solve s.p s.x s.dx s.error s.prevFailed).1 = _; rw [hs]
    · show ((dlx cost maxAbs lin).solve s.p s.x s.dx s.error s.prevFailed).2.2 = _; rw [hs]
    · show (dlx cost maxAbs lin).maxAbs ((dlx cost maxAbs lin).solve s.p s.x s.dx s.error s.prevFailed).2.2 = _; rw [hs]

/-! ### At a stationary point -/

theorem dlx_running (o : Options ℝ) (hN : 1 ≤ o.maxIterations) {X D P : Type} (S : Setup ℝ X D P) (x : X) (p : P) (dx : D) :
    running o (enter S o (initObj (fresh x p dx))) = true := by
  unfold running
  have d1 : (enter S o (initObj (fresh x p dx))).deltaX = .fin (o.convergenceDeltaX + 1) := rfl
  have d2 : (enter S o (initObj (fresh x p dx))).deltaJ = .fin (o.convergenceDeltaError + 1) := rfl
  have d3 : (enter S o (initObj (fresh x p dx))).iterations = 0 := rfl
  have d4 : (enter S o (initObj (fresh x p dx))).failed = 0 := rfl
  rw [d1, d2, d3, d4]
  have l1 : Dbl.lt (.fin o.convergenceDeltaX) (.fin (o.convergenceDeltaX + 1)) = true := (Dbl.lt_fin _ _).2 (by linarith)
  have l2 : Dbl.lt (.fin o.convergenceDeltaError) (Dbl.abs (.fin (o.convergenceDeltaError + 1))) = true := by
    apply (Dbl.lt_fin _ _).2
    have := le_abs_self (o.convergenceDeltaError + 1)
    linarith
  rw [l1, l2]
  have : (0 : Int) < o.maxIterations := by omega
  simp [this]

/-- **C140** (start at a minimum). Start the optimizer with the dog-leg policy at values where the gradient vanishes, whatever the
cost function is, with a linear solver that works and any options that allow an iteration. The first step is NaN, is applied to
all design variables and not taken back; the run ends with a NaN cost, reports neither a failed iteration nor a failed linear
solve, and its status is `IN_PROGRESS` (or, with a budget of one, `MAX_ITERATIONS`, which counts as success). -/
theorem C140_start_at_minimum_counterexample (cost maxAbs : V → ℝ) (lin : V → Lin V) (q y : V) (g : V)
    (hl : lin q = ⟨0, 0, some g⟩) (o : Options ℝ) (hN : 1 ≤ o.maxIterations) (p : DLXP V) (dx : Option V) :
    ∃ r, optimize (dlx cost maxAbs lin) o (fresh (some q, some y) p dx) = .ok r ∧ r.x.1 = none ∧ r.jFinal = .nan ∧
      r.jStart = .fin (cost q) ∧ r.iterations = 1 ∧ r.failed = 0 ∧ r.linearSolverFailure = false ∧
      r.conv = (if o.maxIterations = 1 then .maxIterations else .inProgress) := by
  obtain ⟨r, hr⟩ := (C23_terminates_within_budget (dlx cost maxAbs lin) o (some q, some y) p dx).1 (fun _ _ _ _ _ => rfl)
  refine ⟨r, hr, ?_⟩
  obtain ⟨s, e, hr⟩ := run_ok (show run (dlx cost maxAbs lin) o (initObj (fresh (some q, some y) p dx)) = .ok r from hr)
  have hinv := loop_inv (S := dlx cost maxAbs lin) (o := o)
    (fun s => s = enter (dlx cost maxAbs lin) o (initObj (fresh (some q, some y) p dx)) ∨
      (s.x.1 = none ∧ s.pJ = .nan ∧ s.deltaX = .nan ∧ s.deltaJ = .nan ∧ s.iterations = 1 ∧ s.failed = 0 ∧ s.lsf = false)) ?_ _
    (.inl rfl) _ e
  · obtain ⟨h1 | ⟨i1, i2, i3, i4, i5, i6, i7⟩, hrun⟩ := hinv
    · rw [h1, dlx_running o hN] at hrun; cases hrun
    · rw [hr]
      refine ⟨i1, i2, rfl, i5, i6, i7, ?_⟩
      show classify o .inProgress s = _
      unfold classify
      rw [i3, i4, i5, i6, i7]
      by_cases h1 : o.maxIterations = 1
      · rw [if_pos (by omega), if_pos h1]
      · rw [if_neg (by omega), if_neg h1]
        have : decide (o.maxIterations ≤ (0 : Int)) = false := by rw [decide_eq_false_iff_not]; omega
        rw [this]
        simp [Dbl.le, Dbl.abs]
  · rintro t t' hrun hi (rfl | ⟨_, _, j3, j4, _, _, j7⟩)
    · right
      have hs : (dlx cost maxAbs lin).solve (enter (dlx cost maxAbs lin) o (initObj (fresh (some q, some y) p dx))).p
          (some q, some y) dx (.fin (cost q)) false = (⟨⟨.fin (cost q), .fin (cost q), false⟩,
            { p.dl.start with gn := g, gnNorm := ‖g‖, step := .dl }, true⟩, true, none) := by
        show (let r := dlxCall p.dl.start p.nan true false (cost q - cost q) (cost q) (lin q)
          ((⟨⟨.fin (cost q), .fin (cost q), false⟩, r.1, r.2.1⟩ : DLXP V), r.2.2.1, if r.2.2.1 then r.2.2.2 else dx)) = _
        rw [hl]
        simp [dlxCall, dlDelta, dlRebuild, dlxGn, DL.start]
      have hnan : ∀ a : Dbl ℝ, Dbl.sub a .nan = .nan := by intro a; cases a <;> rfl
      obtain ⟨k1, k2, k3, k4, k5, k6, k7, k8, k9, k10, k11⟩ := dlx_accept hi hs
        (by show Dbl.lt (Dbl.sub _ .nan) _ = false; rw [hnan]; rfl)
      refine ⟨by rw [k1]; rfl, by rw [k5, k1]; rfl, by rw [k6]; rfl, by rw [k7, k1]; exact hnan _, by rw [k10]; rfl, by rw [k11]; rfl,
        by rw [k9]; rfl⟩
    · unfold running at hrun
      rw [j3, j7, Dbl.lt_nan_right] at hrun
      simp at hrun

/-! ### Linear problems with a solution -/

/-- The linear solver works on the residual `A q - c`: right-hand side `-A^T (A q - c)`, squared norm of `A rhs`, and a solution
of the normal equations. -/
def SolvesLin (A : V →ₗ[ℝ] W) (c : W) (lin : V → Lin V) : Prop :=
  ∀ q, (∀ v, inner ℝ (lin q).rhs v = -inner ℝ (A q - c) (A v)) ∧ (lin q).rJJr = ‖A (lin q).rhs‖ ^ 2 ∧
    ∃ g, (lin q).sol = some g ∧ ∀ v, inner ℝ (A g) (A v) = inner ℝ (lin q).rhs v

/-- What the steps are at `q` when `m` solves the problem: `a` is the scale, `a • rhs` the steepest-descent step. -/
structure Steps (A : V →ₗ[ℝ] W) (m q : V) (l : Lin V) (a : ℝ) : Prop where
  nz : l.rJJr ≠ 0
  scale : a = ‖l.rhs‖ ^ 2 / l.rJJr
  sol : l.sol = some (m - q)
  proj : ‖a • l.rhs‖ ^ 2 ≤ inner ℝ (a • l.rhs) (m - q)
  drop : ‖A ((m - q) - a • l.rhs)‖ ^ 2 < ‖A (m - q)‖ ^ 2

theorem lin_steps {A : V →ₗ[ℝ] W} (hA : Function.Injective A) {m : V} {lin : V → Lin V} (h : SolvesLin A (A m) lin) {q : V}
    (hq : q ≠ m) : ∃ a, Steps A m q (lin q) a := by
  obtain ⟨h1, h2, g, h3, h4⟩ := h q
  set r := (lin q).rhs with hr
  have hrv : ∀ v, inner ℝ r v = inner ℝ (A (m - q)) (A v) := by
    intro v
    rw [h1, ← inner_neg_left, neg_sub, map_sub]
  have hg : g = m - q := by
    have : A (g - (m - q)) = 0 := by
      rw [← inner_self_eq_zero (𝕜 := ℝ), map_sub, inner_sub_left, ← map_sub, h4, hrv, sub_self]
    have := hA (this.trans (map_zero A).symm)
    exact sub_eq_zero.1 this
  have he : A (m - q) ≠ 0 := by
    intro h0
    have := hA (h0.trans (map_zero A).symm)
    exact hq (sub_eq_zero.1 this).symm
  have hr0 : r ≠ 0 := by
    intro h0
    have := hrv (m - q)
    rw [h0, inner_zero_left] at this
    exact he (inner_self_eq_zero.1 this.symm)
  have hAr : A r ≠ 0 := by
    intro h0
    exact hr0 (hA (h0.trans (map_zero A).symm))
  have hpos : 0 < ‖A r‖ ^ 2 := by have := norm_pos_iff.2 hAr; positivity
  have hrpos : 0 < ‖r‖ ^ 2 := by have := norm_pos_iff.2 hr0; positivity
  set a := ‖r‖ ^ 2 / (lin q).rJJr with ha
  have hj : (lin q).rJJr ≠ 0 := by rw [h2]; exact hpos.ne'
  have hapos : 0 < a := by rw [ha, h2]; positivity
  have haj : a * ‖A r‖ ^ 2 = ‖r‖ ^ 2 := by rw [ha, h2]; field_simp
  have hdrop : ‖A ((m - q) - a • r)‖ ^ 2 = ‖A (m - q)‖ ^ 2 - a * ‖r‖ ^ 2 := by
    rw [map_sub, map_smul, norm_sub_sq_real, inner_smul_right, ← hrv, real_inner_self_eq_norm_sq, norm_smul, mul_pow,
      Real.norm_eq_abs, sq_abs]
    have : a ^ 2 * ‖A r‖ ^ 2 = a * ‖r‖ ^ 2 := by rw [← haj]; ring
    rw [this]; ring
  refine ⟨a, hj, rfl, by rw [h3, hg], ?_, ?_⟩
  · rw [norm_smul, mul_pow, Real.norm_eq_abs, sq_abs, inner_smul_left, hrv, real_inner_self_eq_norm_sq]
    simp only [conj_trivial]
    have h0 : 0 ≤ ‖A ((m - q) - a • r)‖ ^ 2 := by positivity
    rw [hdrop] at h0
    nlinarith
  · rw [hdrop]
    have := mul_pos hapos hrpos
    linarith

/-- The interpolation of the first iteration is the midpoint. -/
theorem dlBeta_half (sd g : V) (hp : ‖sd‖ ^ 2 ≤ inner ℝ sd g) (hne : g ≠ sd) :
    dlBeta sd g ‖sd‖ ‖sd + (1 / 2 : ℝ) • (g - sd)‖ = 1 / 2 := by
  unfold dlBeta
  simp only
  set n := ‖g - sd‖ ^ 2 with hn
  set c := inner ℝ sd (g - sd) with hc
  have hn0 : 0 < n := by have := norm_pos_iff.2 (sub_ne_zero.2 hne); positivity
  have hc0 : 0 ≤ c := by rw [hc, inner_sub_right, real_inner_self_eq_norm_sq]; linarith
  have e1 : ‖sd + (1 / 2 : ℝ) • (g - sd)‖ * ‖sd + (1 / 2 : ℝ) • (g - sd)‖ - ‖sd‖ * ‖sd‖ = c + n / 4 := by
    rw [← pow_two, ← pow_two, norm_add_sq_real, inner_smul_right, norm_smul, mul_pow, ← hc, ← hn]
    norm_num
    ring
  rw [e1]
  have e2 : c * c + n * (c + n / 4) = (c + n / 2) ^ 2 := by ring
  rw [e2, Real.sqrt_sq (by positivity)]
  split_ifs with h
  · have : c = 0 := le_antisymm h hc0
    rw [this]; field_simp; ring
  · field_simp; ring

/-- The first call on a problem with the solution `m`, away from it: the Gauss-Newton step, or the midpoint between the
steepest-descent and the Gauss-Newton step. -/
theorem first_call {A : V →ₗ[ℝ] W} {m q : V} {l : Lin V} {a : ℝ} (hs : Steps A m q l a) (s : DL V) (nan : Bool) (gain J : ℝ) :
    ∃ t, dlxCall s.start nan true false gain J l = (t, false, true, some t.dx) ∧ 0 < t.delta ∧ t.delta ≤ 3 * ‖t.dx‖ ∧
      ((t.dx = m - q ∧ t.L0 = J) ∨
        (t.dx = (1 / 2 : ℝ) • (a • l.rhs + (m - q)) ∧ t.L0 = 3 / 4 * J ∧ ‖m - (q + t.dx)‖ ≤ ‖t.dx‖)) := by
  obtain ⟨h1, h2, h3, h4, h5⟩ := hs
  set g := m - q with hg
  set sd := a • l.rhs with hsd
  have hg0 : g ≠ 0 := by
    intro h0
    rw [h0, zero_sub, map_neg, norm_neg, map_zero, norm_zero] at h5
    have : 0 ≤ ‖A sd‖ ^ 2 := by positivity
    norm_num at h5
    linarith
  have hpos : ‖sd‖ ≤ ‖g‖ := by
    have := real_inner_le_norm sd g
    by_contra hlt
    push Not at hlt
    have h0 : 0 ≤ ‖g‖ := norm_nonneg _
    nlinarith
  have hmid : sd + (1 / 2 : ℝ) • (g - sd) = (1 / 2 : ℝ) • (sd + g) := by module
  have hmidn : ‖g - sd‖ ≤ ‖sd + g‖ := by
    apply (sq_le_sq₀ (norm_nonneg _) (norm_nonneg _)).1
    rw [norm_sub_sq_real, norm_add_sq_real, real_inner_comm]
    have : 0 ≤ ‖sd‖ ^ 2 := by positivity
    linarith
  have hsum : 0 < ‖sd + g‖ := by
    rw [norm_pos_iff]
    intro h0
    have h6 : inner ℝ sd g = -‖g‖ ^ 2 := by
      rw [eq_neg_of_add_eq_zero_left h0, inner_neg_left, real_inner_self_eq_norm_sq]
    have h7 : 0 < ‖g‖ ^ 2 := by have := norm_pos_iff.2 hg0; positivity
    have : 0 ≤ ‖sd‖ ^ 2 := by positivity
    linarith
  have hcall : dlxCall s.start nan true false gain J l =
      (dlGn { s.start with scale := a, sd := sd, sdNorm := ‖sd‖, gn := g, gnNorm := ‖g‖ } J, false, true,
        some (dlGn { s.start with scale := a, sd := sd, sdNorm := ‖sd‖, gn := g, gnNorm := ‖g‖ } J).dx) := by
    simp only [dlxCall, dlDelta, dlRebuild, h1, if_false, if_true, Bool.false_eq_true, Option.getD_some, DL.start, h3, dlxGn,
      decide_false, ← h2]
    simp [hsd]
  refine ⟨_, hcall, ?_⟩
  unfold dlGn
  simp only [DL.start, if_true, hmid]
  have hn : ‖(1 / 2 : ℝ) • (sd + g)‖ = 1 / 2 * ‖sd + g‖ := by rw [norm_smul]; norm_num
  split_ifs with hle
  · refine ⟨by rw [hn]; positivity, ?_, .inl ⟨rfl, rfl⟩⟩
    dsimp only
    rw [hn]
    have := norm_add_le sd g
    have : 0 ≤ ‖g‖ := norm_nonneg _
    linarith
  · have hne : g ≠ sd := by
      rintro h0
      apply hle
      rw [hn, ← h0]
      have : g + g = (2 : ℝ) • g := by module
      rw [this, norm_smul, Real.norm_eq_abs, abs_of_pos (by norm_num : (0 : ℝ) < 2)]
      linarith
    have hb : dlBeta sd g ‖sd‖ ‖(1 / 2 : ℝ) • (sd + g)‖ = 1 / 2 := by rw [← hmid]; exact dlBeta_half sd g h4 hne
    dsimp only
    rw [hb, hmid]
    refine ⟨by rw [hn]; positivity, by rw [hn]; linarith, .inr ⟨rfl, by ring, ?_⟩⟩
    have e : m - (q + (1 / 2 : ℝ) • (sd + g)) = (1 / 2 : ℝ) • (g - sd) := by rw [hg]; module
    rw [e, norm_smul, hn]
    norm_num
    exact hmidn

theorem dlDelta_good (t : DL V) {gain : ℝ} (hL : 0 < t.L0) (hg : 3 / 4 * t.L0 < gain) :
    dlDelta t false gain = if t.delta ≤ 3 * ‖t.dx‖ then 3 * ‖t.dx‖ else t.delta := by
  unfold dlDelta
  have h : Dbl.lt (.fin (3 / 4)) (Dbl.div gain t.L0) = true := by
    unfold Dbl.div
    rw [if_neg hL.ne']
    apply (Dbl.lt_fin _ _).2
    rw [lt_div_iff₀ hL]
    exact hg
  simp [h]

/-- A call after a good step, with a Gauss-Newton step that is not longer than the last step. -/
theorem second_call {A : V →ₗ[ℝ] W} {m q : V} {l : Lin V} {a : ℝ} (hs : Steps A m q l a) (t : DL V) (nan : Bool) {gain J : ℝ}
    (hL : 0 < t.L0) (hg : 3 / 4 * t.L0 < gain) (hd : 0 < t.delta) (hd3 : t.delta ≤ 3 * ‖t.dx‖) (hfit : ‖m - q‖ ≤ ‖t.dx‖) :
    ∃ u, dlxCall t nan false false gain J l = (u, false, true, some (m - q)) ∧ u.dx = m - q ∧ u.L0 = J ∧ 0 < u.delta := by
  obtain ⟨h1, h2, h3, h4, h5⟩ := hs
  have hdx : 0 < ‖t.dx‖ := by linarith
  have hpos : ‖a • l.rhs‖ ≤ ‖m - q‖ := by
    have := real_inner_le_norm (a • l.rhs) (m - q)
    by_contra hlt
    push Not at hlt
    have h0 : 0 ≤ ‖m - q‖ := norm_nonneg _
    nlinarith
  have hdel : dlDelta t false gain = 3 * ‖t.dx‖ := by rw [dlDelta_good t hL hg, if_pos hd3]
  refine ⟨{ t with scale := a, sd := a • l.rhs, sdNorm := ‖a • l.rhs‖, gn := m - q, gnNorm := ‖m - q‖,
                   delta := 3 * ‖t.dx‖, dx := m - q, L0 := J, step := .gn }, ?_, rfl, rfl, by dsimp only; linarith⟩
  simp only [dlxCall, hdel, dlRebuild, h1, if_false, Bool.false_eq_true, Option.getD_some, h3, dlxGn, decide_false, ← h2]
  rw [if_neg (by rintro ⟨-, h6, -⟩; linarith)]
  unfold dlGn
  dsimp only
  have e0 : 3 * ‖t.dx‖ ≠ 0 := by positivity
  simp only [if_neg e0]
  rw [if_pos (by linarith)]

/-- A call after a good step at the solution: the steepest-descent step is NaN, the zero Gauss-Newton step is taken. -/
theorem min_call {l : Lin V} (hj : l.rJJr = 0) (hsol : l.sol = some 0) (t : DL V) (nan : Bool) {gain J : ℝ}
    (hL : 0 < t.L0) (hg : 3 / 4 * t.L0 < gain) (hd : 0 < t.delta) :
    ∃ u, dlxCall t nan false false gain J l = (u, true, true, some 0) := by
  have hdel : 0 < dlDelta t false gain := by
    rw [dlDelta_good t hL hg]
    split_ifs with h
    · linarith
    · exact hd
  refine ⟨{ t with gn := 0, gnNorm := ‖(0 : V)‖, delta := dlDelta t false gain, dx := 0, L0 := J, step := .gn }, ?_⟩
  simp only [dlxCall, dlRebuild, hj, if_true, Bool.false_eq_true, if_false, Option.getD_none, hsol, dlxGn, decide_true]
  rw [if_neg (by simp), if_pos ⟨hdel.ne', by rw [norm_zero]; exact hdel.le⟩]

/-- What `solveSystem` does when the values and the costs are finite. -/
theorem dlx_solve (cost maxAbs : V → ℝ) (lin : V → Lin V) (p : DLXP V) (q : V) (y : Option V) (d : Option V) (j pj : ℝ)
    (hp : p.base.J = .fin pj) :
    (dlx cost maxAbs lin).solve p (some q, y) d (.fin j) false =
      (⟨⟨.fin j, .fin pj, false⟩, (dlxCall p.dl p.nan p.base.first false (pj - j) j (lin q)).1,
        (dlxCall p.dl p.nan p.base.first false (pj - j) j (lin q)).2.1⟩,
        (dlxCall p.dl p.nan p.base.first false (pj - j) j (lin q)).2.2.1,
        if (dlxCall p.dl p.nan p.base.first false (pj - j) j (lin q)).2.2.1 then
          (dlxCall p.dl p.nan p.base.first false (pj - j) j (lin q)).2.2.2 else d) := by
  have hg : (p.base.call (.fin j) false).gain = .fin (pj - j) := by
    unfold Base.gain Base.call
    simp only [Bool.false_eq_true, if_false, hp]
    rfl
  have hb : (p.base.call (.fin j) false).done = ⟨.fin j, .fin pj, false⟩ := by
    simp [Base.call, Base.done, hp]
  simp only [dlx]
  rw [hg, hb]
  rfl

/-- **C140** (linear problems with a solution). If the residual is linear in the design variables, its Jacobian has full column
rank and some values `m` make the residual zero, an optimizer with the dog-leg policy started anywhere else takes at most three
iterations, none of which fails, and never holds a NaN; it is at `m` after the second iteration, so it ends at `m` with cost zero
unless the first step already satisfies a convergence criterion or the budget is one. With a budget of at least four it reports
convergence. -/
theorem C140_consistent_linear (A : V →ₗ[ℝ] W) (hA : Function.Injective A) (m : V) (maxAbs : V → ℝ) (h0 : maxAbs 0 = 0)
    (lin : V → Lin V) (hlin : SolvesLin A (A m) lin) (o : Options ℝ) (hx : 0 ≤ o.convergenceDeltaX) (hN : 1 ≤ o.maxIterations)
    (q : V) (hq : q ≠ m) (y : Option V) (p : DLXP V) (dx : Option V) :
    ∃ r z, optimize (dlx (linCost A (A m)) maxAbs lin) o (fresh (some q, y) p dx) = .ok r ∧ r.x.1 = some z ∧
      r.jFinal = .fin (linCost A (A m) z) ∧ r.iterations ≤ 3 ∧ r.failed = 0 ∧
      (z = m ∨ r.iterations = 1 ∧ (o.maxIterations = 1 ∨ r.conv = .dx ∨ r.conv = .dObjective)) ∧
      (4 ≤ o.maxIterations → r.conv = .dx ∨ r.conv = .dObjective) := by
  have hcost : ∀ z, linCost A (A m) z = ‖A (m - z)‖ ^ 2 := by
    intro z
    unfold linCost
    rw [← map_sub, ← norm_neg, ← map_neg, neg_sub]
  have hcm : linCost A (A m) m = 0 := by rw [hcost]; simp
  have hmin : (lin m).rJJr = 0 ∧ (lin m).sol = some 0 := by
    obtain ⟨h1, h2, g, h3, h4⟩ := hlin m
    have hr : (lin m).rhs = 0 := by
      rw [← inner_self_eq_zero (𝕜 := ℝ), h1, sub_self, inner_zero_left, neg_zero]
    refine ⟨by rw [h2, hr, map_zero, norm_zero]; norm_num, ?_⟩
    have : A g = 0 := by rw [← inner_self_eq_zero (𝕜 := ℝ), h4, hr, inner_zero_left]
    rw [h3, hA (this.trans (map_zero A).symm)]
  have hcpos : ∀ z, z ≠ m → 0 < linCost A (A m) z := by
    intro z hz
    rw [hcost]
    have : A (m - z) ≠ 0 := by
      intro h
      exact hz (sub_eq_zero.1 (hA (h.trans (map_zero A).symm))).symm
    have := norm_pos_iff.2 this
    positivity
  set S := dlx (linCost A (A m)) maxAbs lin with hS
  obtain ⟨r, hr⟩ := (C23_terminates_within_budget S o (some q, y) p dx).1 (fun _ _ _ _ _ => rfl)
  obtain ⟨s, e, hrs⟩ := run_ok (show run S o (initObj (fresh (some q, y) p dx)) = .ok r from hr)
  have hinv := loop_inv (S := S) (o := o)
    (fun s => s.prevFailed = false ∧ s.lsf = false ∧ s.failed = 0 ∧ ∃ z, s.x.1 = some z ∧ s.error = .fin (linCost A (A m) z) ∧
      s.pJ = .fin (linCost A (A m) z) ∧
      ((s.iterations = 0 ∧ z ≠ m ∧ s.p.base.first = true ∧ s.p.base.J = .fin (linCost A (A m) z) ∧ s.p.dl = s.p.dl.start ∧
          running o s = true) ∨
        ((∃ dX dJ, s.deltaX = .fin dX ∧ s.deltaJ = .fin dJ) ∧
        ((s.p.base.first = false ∧ 0 < s.p.dl.delta ∧ 0 < s.p.dl.L0 ∧
          (∃ j, s.p.base.J = .fin j ∧ 3 / 4 * s.p.dl.L0 < j - linCost A (A m) z) ∧
          ((s.iterations = 1 ∧ z ≠ m ∧ s.p.dl.delta ≤ 3 * ‖s.p.dl.dx‖ ∧ ‖m - z‖ ≤ ‖s.p.dl.dx‖) ∨
            ((s.iterations = 1 ∨ s.iterations = 2) ∧ z = m))) ∨
        ((s.iterations = 2 ∨ s.iterations = 3) ∧ z = m ∧ s.deltaX = .fin 0))))) ?_ _ ?_ _ e
  · obtain ⟨⟨i1, i2, i3, z, i4, i5, i6, i7⟩, hrun⟩ := hinv
    have hconv : s.iterations < o.maxIterations → (∃ dX dJ, s.deltaX = .fin dX ∧ s.deltaJ = .fin dJ) →
        r.conv = .dx ∨ r.conv = .dObjective := by
      rintro hlt ⟨dX, dJ, i8, i9⟩
      rw [hrs]
      show classify o _ s = .dx ∨ classify o _ s = .dObjective
      unfold classify
      rw [if_neg (by omega), i2, i3]
      have : decide (o.maxIterations ≤ (0 : Int)) = false := by rw [decide_eq_false_iff_not]; omega
      rw [this]
      simp only [Bool.or_self, Bool.false_eq_true, if_false]
      unfold running at hrun
      have k1 : decide (s.iterations < o.maxIterations) = true := by rw [decide_eq_true_eq]; omega
      have k2 : decide (s.failed < o.maxIterations) = true := by rw [decide_eq_true_eq]; omega
      rw [k1, k2, i2] at hrun
      simp only [Bool.and_self, Bool.true_and, Bool.or_false, Bool.and_eq_false_iff] at hrun
      by_cases hd : Dbl.le s.deltaX (.fin o.convergenceDeltaX) = true
      · rw [if_pos hd]; exact .inl rfl
      · rw [if_neg hd]
        right
        rw [i8] at hd hrun
        rw [i9] at hrun ⊢
        rw [if_pos]
        rcases hrun with hrun | hrun
        · exfalso
          apply hd
          apply (Dbl.le_fin _ _).2
          by_contra hc
          rw [(Dbl.lt_fin _ _).2 (not_le.1 hc)] at hrun
          cases hrun
        · apply (Dbl.le_fin _ _).2
          by_contra hc
          have : Dbl.lt (.fin o.convergenceDeltaError) (Dbl.abs (.fin dJ)) = true := (Dbl.lt_fin _ _).2 (not_le.1 hc)
          rw [this] at hrun
          cases hrun
    have hri : r.iterations = s.iterations := by rw [hrs]; rfl
    refine ⟨r, z, hr, by rw [hrs]; exact i4, by rw [hrs]; exact i6, ?_, by rw [hrs]; exact i3, ?_, ?_⟩
    · rw [hri]
      rcases i7 with i7 | ⟨-, ⟨-, -, -, -, i7 | i7⟩ | i7⟩ <;> omega
    · rcases i7 with ⟨-, -, -, -, -, i7⟩ | ⟨hf, ⟨-, -, -, -, i7 | i7⟩ | i7⟩
      · rw [i7] at hrun; cases hrun
      · right
        refine ⟨by rw [hri]; exact i7.1, ?_⟩
        by_cases h1 : o.maxIterations = 1
        · exact .inl h1
        · exact .inr (hconv (by omega) hf)
      · exact .inl i7.2
      · exact .inl i7.2.1
    · intro h4
      rcases i7 with ⟨-, -, -, -, -, i7⟩ | ⟨hf, i7⟩
      · rw [i7] at hrun; cases hrun
      · exact hconv (by rcases i7 with ⟨-, -, -, -, i7 | i7⟩ | i7 <;> omega) hf
  · rintro t t' hrun hi ⟨j1, j2, j3, z, j4, j5, j6, j7⟩
    have hxt : t.x = (some z, t.x.2) := by rw [← j4]
    -- a pass with a finite step that does not raise the cost
    have hpass : ∀ (u : DL V) (nan : Bool) (d : V) (pj : ℝ), t.p.base.J = .fin pj →
        dlxCall t.p.dl t.p.nan t.p.base.first false (pj - linCost A (A m) z) (linCost A (A m) z) (lin z) = (u, nan, true, some d) →
        linCost A (A m) (z + d) ≤ linCost A (A m) z →
        t'.x.1 = some (z + d) ∧ t'.p = ⟨⟨.fin (linCost A (A m) z), .fin pj, false⟩, u, nan⟩ ∧
          t'.error = .fin (linCost A (A m) (z + d)) ∧ t'.pJ = .fin (linCost A (A m) (z + d)) ∧
          t'.deltaX = .fin (maxAbs d) ∧ t'.deltaJ = .fin (linCost A (A m) z - linCost A (A m) (z + d)) ∧
          t'.prevFailed = false ∧ t'.lsf = false ∧ t'.iterations = t.iterations + 1 ∧ t'.failed = 0 := by
      intro u nan d pj hpj hcall hle
      have hsolve : S.solve t.p t.x t.dx t.error t.prevFailed =
          (⟨⟨.fin (linCost A (A m) z), .fin pj, false⟩, u, nan⟩, true, some d) := by
        rw [hxt, j5, j1, hS, dlx_solve _ _ _ _ _ _ _ _ _ hpj, hcall]
        rfl
      have hup : S.update t.x (some d) = (some (z + d), some z) := by rw [hxt]; rfl
      obtain ⟨k1, k2, k3, k4, k5, k6, k7, k8, k9, k10, k11⟩ := dlx_accept hi hsolve (by
        rw [← hS, hup, j6]
        show decide (linCost A (A m) z - linCost A (A m) (z + d) < 0) = false
        rw [decide_eq_false_iff_not]
        linarith)
      rw [← hS, hup] at k1
      rw [k1] at k4 k5 k7
      exact ⟨by rw [k1], k2, k4, k5, k6, by rw [k7, j6]; rfl, k8, by rw [k9]; exact j2, k10, by rw [k11]; exact j3⟩
    rcases j7 with ⟨j7, j8, j9, j10, j11, -⟩ | ⟨hf, ⟨j7, j8, j9, ⟨j, j10, j11⟩, j12⟩ | ⟨j7, j8, j9⟩⟩
    · -- the first iteration
      obtain ⟨a, hst⟩ := lin_steps hA hlin j8
      obtain ⟨u, hu, hu1, hu2, hu3⟩ := first_call hst t.p.dl t.p.nan (linCost A (A m) z - linCost A (A m) z) (linCost A (A m) z)
      rw [← j11] at hu
      have hle : linCost A (A m) (z + u.dx) ≤ linCost A (A m) z ∧
          3 / 4 * u.L0 < linCost A (A m) z - linCost A (A m) (z + u.dx) ∧ 0 < u.L0 := by
        have hc := hcpos z j8
        rcases hu3 with ⟨h1, h2⟩ | ⟨h1, h2, h3⟩
        · have : z + u.dx = m := by rw [h1]; abel
          rw [this, hcm, h2]
          exact ⟨hc.le, by linarith, hc⟩
        · have e1 : m - (z + u.dx) = (1 / 2 : ℝ) • ((m - z) - a • (lin z).rhs) := by rw [h1]; module
          have e2 : linCost A (A m) (z + u.dx) = 1 / 4 * ‖A ((m - z) - a • (lin z).rhs)‖ ^ 2 := by
            rw [hcost, e1, map_smul, norm_smul, mul_pow]
            norm_num
          have := hst.drop
          rw [← hcost] at this
          have h5 : 0 ≤ ‖A ((m - z) - a • (lin z).rhs)‖ ^ 2 := by positivity
          rw [e2, h2]
          exact ⟨by linarith, by linarith, by linarith⟩
      obtain ⟨k1, k2, k3, k4, k5, k6, k7, k8, k9, k10⟩ := hpass u false u.dx _ j10 (by rw [j9]; exact hu) hle.1
      refine ⟨k7, k8, k10, z + u.dx, k1, k3, k4, .inr ⟨⟨_, _, k5, k6⟩, .inl ?_⟩⟩
      rw [k2]
      refine ⟨rfl, hu1, hle.2.2, ⟨_, rfl, hle.2.1⟩, ?_⟩
      by_cases hm : z + u.dx = m
      · exact .inr ⟨.inl (by rw [k9, j7]; rfl), hm⟩
      · rcases hu3 with ⟨h1, -⟩ | ⟨-, -, h3⟩
        · exact absurd (by rw [h1]; abel) hm
        · exact .inl ⟨by rw [k9, j7]; rfl, hm, hu2, h3⟩
    · rcases j12 with ⟨j12, j13, j14, j15⟩ | ⟨j12, j13⟩
      · -- the second iteration reaches the solution
        obtain ⟨a, hst⟩ := lin_steps hA hlin j13
        obtain ⟨u, hu, hu1, hu2, hu3⟩ := second_call (J := linCost A (A m) z) hst t.p.dl t.p.nan j9 j11 j8 j14 j15
        have hzm : z + (m - z) = m := by abel
        have hc := hcpos z j13
        obtain ⟨k1, k2, k3, k4, k5, k6, k7, k8, k9, k10⟩ := hpass u false (m - z) _ j10 (by rw [j7]; exact hu)
          (by rw [hzm, hcm]; exact hc.le)
        rw [hzm] at k1 k3 k4
        refine ⟨k7, k8, k10, m, k1, k3, k4, .inr ⟨⟨_, _, k5, k6⟩, .inl ?_⟩⟩
        rw [k2]
        refine ⟨rfl, hu3, by rw [hu2]; exact hc, ⟨_, rfl, by rw [hu2, hcm]; linarith⟩, .inr ⟨.inr (by rw [k9, j12]; rfl), rfl⟩⟩
      · subst j13
        obtain ⟨u, hu⟩ := min_call (J := linCost A (A z) z) hmin.1 hmin.2 t.p.dl t.p.nan j9 j11 j8
        obtain ⟨k1, k2, k3, k4, k5, k6, k7, k8, k9, k10⟩ := hpass u true 0 _ j10 (by rw [j7]; exact hu) (by rw [add_zero])
        rw [add_zero] at k1 k3 k4
        exact ⟨k7, k8, k10, z, k1, k3, k4, .inr ⟨⟨_, _, k5, k6⟩, .inr ⟨by rw [k9]; omega, rfl, by rw [k5, h0]⟩⟩⟩
    · exfalso
      unfold running at hrun
      rw [j9, j2] at hrun
      simp only [Bool.or_false, Bool.and_eq_true] at hrun
      have := (Dbl.lt_fin _ _).1 hrun.2.1
      linarith
  · refine ⟨rfl, rfl, rfl, q, rfl, rfl, rfl, .inl ⟨rfl, hq, rfl, rfl, rfl, dlx_running o hN _ _ _ _⟩⟩

/-! ### Relation to the finite model -/

/-- **C140** (everywhere else). Whenever the finite model of the policy (`dlCall`, on which C29, C73, C95 and C136 rest) gives a
result, and the steepest-descent step at hand is not NaN, the exact one gives the same state, the same answer and the same step. -/
theorem C140_finite_model (s t : DL V) (nan first prevFailed : Bool) (gain J : ℝ) (l : Lin V) (b : Bool)
    (hnan : prevFailed = true → nan = false) (h : dlCall s first prevFailed gain J l = some (t, b)) :
    dlxCall s nan first prevFailed gain J l = (t, false, b, if b then some t.dx else none) := by
  unfold dlCall at h
  unfold dlxCall
  cases prevFailed with
  | true =>
    rw [hnan rfl]
    simp only [if_true, true_and] at h ⊢
    by_cases h1 : s.sdNorm ≥ dlDelta s first gain ∧ dlDelta s first gain ≠ 0
    · rw [if_pos h1] at h ⊢; cases h; rfl
    · rw [if_neg h1] at h ⊢; cases h; rfl
  | false =>
    simp only [Bool.false_eq_true, if_false] at h ⊢
    unfold dlRebuild at h ⊢
    by_cases hz : l.rJJr = 0
    · rw [if_pos hz] at h; cases h
    · rw [if_neg hz] at h
      simp only [hz, if_false, Option.getD_some, decide_false, true_and] at h ⊢
      by_cases h1 : ‖(‖l.rhs‖ ^ 2 / l.rJJr) • l.rhs‖ ≥ dlDelta s first gain ∧ dlDelta s first gain ≠ 0
      · rw [if_pos h1] at h ⊢; cases h; rfl
      · rw [if_neg h1] at h ⊢
        cases hl : l.sol with
        | none => rw [hl] at h; cases h; rfl
        | some g => rw [hl] at h; cases h; rfl

/-! ### The hypotheses are met -/

/-- A residual that stretches the second coordinate. -/
noncomputable def stretch2 : EuclideanSpace ℝ (Fin 2) →ₗ[ℝ] EuclideanSpace ℝ (Fin 2) where
  toFun v := !₂[v 0, 2 * v 1]
  map_add' v w := by ext i; fin_cases i <;> simp <;> ring
  map_smul' a v := by ext i; fin_cases i <;> simp <;> ring

/-- A solver for it, with the solution `m`. -/
noncomputable def stretchLin (m q : EuclideanSpace ℝ (Fin 2)) : Lin (EuclideanSpace ℝ (Fin 2)) :=
  ⟨stretch2 (stretch2 (m - q)), ‖stretch2 (stretch2 (stretch2 (m - q)))‖ ^ 2, some (m - q)⟩

theorem stretch2_sym (v w : EuclideanSpace ℝ (Fin 2)) : inner ℝ (stretch2 v) w = inner ℝ v (stretch2 w) := by
  simp [stretch2, PiLp.inner_apply, Fin.sum_univ_two]
  ring

theorem stretch_solves (m : EuclideanSpace ℝ (Fin 2)) : SolvesLin stretch2 (stretch2 m) (stretchLin m) := by
  intro q
  refine ⟨fun v => ?_, rfl, m - q, rfl, fun v => ?_⟩
  · show inner ℝ (stretch2 (stretch2 (m - q))) v = _
    rw [stretch2_sym, ← inner_neg_left, neg_sub, map_sub]
  · show _ = inner ℝ (stretch2 (stretch2 (m - q))) v
    rw [stretch2_sym (stretch2 (m - q))]

theorem stretch_inj : Function.Injective stretch2 := by
  intro v w h
  have h0 := congrArg (fun u : EuclideanSpace ℝ (Fin 2) => u 0) h
  have h1 := congrArg (fun u : EuclideanSpace ℝ (Fin 2) => u 1) h
  simp [stretch2] at h0 h1
  ext i
  fin_cases i
  · exact h0
  · exact h1

/-- From every other start the run ends at the solution, if the thresholds do not stop it after the first step. -/
example (m q : EuclideanSpace ℝ (Fin 2)) (hq : q ≠ m) (p : DLXP (EuclideanSpace ℝ (Fin 2))) :
    ∃ r z, optimize (dlx (linCost stretch2 (stretch2 m)) (fun d => ‖d‖) (stretchLin m)) ⟨0, 0, 100⟩
        (fresh (some q, none) p none) = .ok r ∧ r.x.1 = some z ∧ r.failed = 0 ∧ r.iterations ≤ 3 := by
  obtain ⟨r, z, h1, h2, -, h3, h4, -⟩ := C140_consistent_linear stretch2 stretch_inj m (fun d => ‖d‖) norm_zero
    (stretchLin m) (stretch_solves m) ⟨0, 0, 100⟩ le_rfl (by norm_num) q hq none p none
  exact ⟨r, z, h1, h2, h4, h3⟩

/-- At the solution itself the run destroys the design variables. -/
example (m : EuclideanSpace ℝ (Fin 2)) (p : DLXP (EuclideanSpace ℝ (Fin 2))) :
    ∃ r, optimize (dlx (linCost stretch2 (stretch2 m)) (fun d => ‖d‖) (stretchLin m)) ⟨0, 0, 100⟩
        (fresh (some m, some m) p none) = .ok r ∧ r.x.1 = none ∧ r.conv = .inProgress := by
  obtain ⟨r, h1, h2, -, -, -, -, -, h3⟩ := C140_start_at_minimum_counterexample (linCost stretch2 (stretch2 m)) (fun d => ‖d‖)
    (stretchLin m) m m 0 (by simp [stretchLin]) ⟨0, 0, 100⟩ (by norm_num) p none
  exact ⟨r, h1, h2, by rw [h3]; norm_num⟩

end Verif.Policy
