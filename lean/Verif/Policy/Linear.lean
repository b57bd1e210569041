import Verif.Policy.Live
import Mathlib.Tactic.Ring

/-! Property C96: linear problems. -/
namespace Verif.Policy
open Verif.Optimizer2 Verif.Trust

variable {V W : Type} [NormedAddCommGroup V] [InnerProductSpace ℝ V] [NormedAddCommGroup W] [InnerProductSpace ℝ W]

/-- The cost of the linear residual `A q - c`. -/
def linCost (A : V →ₗ[ℝ] W) (c : W) (q : V) : ℝ := ‖A q - c‖ ^ 2

/-- The linear solver solves the (damped) normal equations of the linear residual. -/
def SolvesNormal (A : V →ₗ[ℝ] W) (c : W) (sol : V → Option ℝ → Option V) : Prop :=
  ∀ q l, 0 ≤ l → ∃ d, sol q (some l) = some d ∧ ∀ v, inner ℝ (A d) (A v) + l * l * inner ℝ d v = -inner ℝ (A q - c) (A v)

/-- Values at which the normal equations are satisfied. -/
def Stationary (A : V →ₗ[ℝ] W) (c : W) (q : V) : Prop := ∀ v, inner ℝ (A q - c) (A v) = 0

theorem Stationary.cost {A : V →ₗ[ℝ] W} {c : W} {q : V} (h : Stationary A c q) (y : V) :
    linCost A c y = linCost A c q + ‖A (y - q)‖ ^ 2 := by
  unfold linCost
  have e : A y - c = (A q - c) + A (y - q) := by rw [map_sub]; abel
  rw [e, norm_add_sq_real, h]
  ring

/-- `r` is the unique point of least cost. -/
def UniqueMin (cost : V → ℝ) (q : V) : Prop := ∀ y, y ≠ q → cost q < cost y

theorem Stationary.unique {A : V →ₗ[ℝ] W} (hA : Function.Injective A) {c : W} {q : V} (h : Stationary A c q) :
    UniqueMin (linCost A c) q := by
  intro y hy
  rw [h.cost y]
  have : A (y - q) ≠ 0 := by
    intro h0
    apply hy
    have := hA (h0.trans (map_zero A).symm)
    exact sub_eq_zero.1 this
  have := norm_pos_iff.2 this
  have : 0 < ‖A (y - q)‖ ^ 2 := by positivity
  linarith

/-- A set-up that takes the full Gauss-Newton step as long as no step failed. -/
structure FullStep {P : Type} (S : Setup ℝ (V × V) V P) (cost maxAbs : V → ℝ) (g : V → V) : Prop where
  cost : ∀ x, S.cost x = .fin (cost x.1)
  update : ∀ x d, S.update x d = (x.1 + d, x.1)
  maxAbs : ∀ d, S.maxAbs d = .fin (maxAbs d)
  size : ∀ d, S.size d = S.numOpt
  solve : ∀ p x d J, (S.solve p x d J false).2 = (true, g x.1)

omit [InnerProductSpace ℝ V] in
/-- The pass of such a set-up when the cost does not rise. -/
theorem FullStep.iter {P : Type} {S : Setup ℝ (V × V) V P} {cost maxAbs : V → ℝ} {g : V → V} (h : FullStep S cost maxAbs g)
    (s s' : St ℝ (V × V) V P) (hp : s.prevFailed = false) (hJ : s.pJ = .fin (cost s.x.1))
    (hle : cost (s.x.1 + g s.x.1) ≤ cost s.x.1) (hi : iter S s = .ok s') :
    s'.x.1 = s.x.1 + g s.x.1 ∧ s'.prevFailed = false ∧ s'.lsf = s.lsf ∧ s'.pJ = .fin (cost s'.x.1) ∧
      s'.iterations = s.iterations + 1 ∧ s'.failed = s.failed ∧ s'.deltaX = .fin (maxAbs (g s.x.1)) ∧
      s'.deltaJ = .fin (cost s.x.1 - cost (s.x.1 + g s.x.1)) := by
  have hs := h.solve s.p s.x s.dx s.error
  have hc : candidate S s = (s.x.1 + g s.x.1, s.x.1) := by
    unfold candidate
    rw [hp, hs, h.update]
  have hsub : Dbl.sub s.pJ (S.cost (candidate S s)) = .fin (cost s.x.1 - cost (s.x.1 + g s.x.1)) := by
    rw [hJ, hc, h.cost]; rfl
  rcases iter_cases hi with ⟨h1, _⟩ | ⟨_, _, h1, _⟩ | ⟨_, _, rfl⟩
  · rw [hp, hs] at h1; cases h1
  · rw [hsub] at h1
    have := (Dbl.lt_fin _ _).1 h1
    linarith
  · refine ⟨?_, ?_, rfl, ?_, rfl, rfl, ?_, hsub⟩
    · show (candidate S s).1 = _
      rw [hc]
    · show (if S.reverts then false else s.prevFailed) = false
      rw [hp]; simp
    · show S.cost (candidate S s) = .fin (cost (candidate S s).1)
      rw [h.cost]
    · show S.maxAbs (S.solve s.p s.x s.dx s.error s.prevFailed).2.2 = _
      rw [hp, hs, h.maxAbs]

theorem linear_full_step {P : Type} {S : Setup ℝ (V × V) V P} {maxAbs : V → ℝ} {g : V → V} (A : V →ₗ[ℝ] W)
    (hA : Function.Injective A) (c : W) (h : FullStep S (linCost A c) maxAbs g) (h0 : maxAbs 0 = 0)
    (hg : ∀ q v, inner ℝ (A (g q)) (A v) = -inner ℝ (A q - c) (A v)) (o : Options ℝ) (hx : 0 ≤ o.convergenceDeltaX)
    (hN : 1 ≤ o.maxIterations) (x : V × V) (p : P) (dx : V) :
    ∃ r, optimize S o (fresh x p dx) = .ok r ∧ UniqueMin (linCost A c) r.x.1 ∧ r.jFinal = .fin (linCost A c r.x.1) ∧
      r.iterations ≤ 2 ∧ r.failed = 0 ∧ (3 ≤ o.maxIterations → r.conv = .dx ∨ r.conv = .dObjective) := by
  have hstat : ∀ q, Stationary A c (q + g q) := by
    intro q v
    have := hg q v
    rw [map_add]
    have e : A q + A (g q) - c = (A q - c) + A (g q) := by abel
    rw [e, inner_add_left, this]
    ring
  have hzero : ∀ q, Stationary A c q → g q = 0 := by
    intro q hq
    have h1 := hg q (g q)
    rw [hq (g q), neg_zero, inner_self_eq_zero] at h1
    exact hA (h1.trans (map_zero A).symm)
  have hle : ∀ q, linCost A c (q + g q) ≤ linCost A c q := by
    intro q
    rw [(hstat q).cost q]
    have : 0 ≤ ‖A (q - (q + g q))‖ ^ 2 := by positivity
    linarith
  obtain ⟨r, hr⟩ := (C23_terminates_within_budget S o x p dx).1 (fun _ _ _ _ _ => h.size _)
  refine ⟨r, hr, ?_⟩
  obtain ⟨s, e, hr⟩ := run_ok (show run S o (initObj (fresh x p dx)) = .ok r from hr)
  have hinv := loop_inv (S := S) (o := o)
    (fun s => s.prevFailed = false ∧ s.lsf = false ∧ s.pJ = .fin (linCost A c s.x.1) ∧
      ((s.iterations = 0 ∧ s.failed = 0 ∧ running o s = true) ∨
        (s.failed = 0 ∧ Stationary A c s.x.1 ∧ (s.iterations = 1 ∨ (s.iterations = 2 ∧ s.deltaX = .fin 0)) ∧
          ∃ dX dJ, s.deltaX = .fin dX ∧ s.deltaJ = .fin dJ))) ?_ _ ?_ _ e
  · obtain ⟨⟨i1, i2, i3, i4⟩, hrun⟩ := hinv
    rw [hr]
    rcases i4 with ⟨_, _, i5⟩ | ⟨i5, i6, i7, dX, dJ, i8, i9⟩
    · rw [i5] at hrun; cases hrun
    · refine ⟨i6.unique hA, i3, ?_, i5, fun h3 => ?_⟩
      · show s.iterations ≤ 2
        omega
      · show classify o _ s = .dx ∨ classify o _ s = .dObjective
        unfold classify
        rw [if_neg (by omega), i2, i5]
        have : decide (o.maxIterations ≤ (0 : Int)) = false := by rw [decide_eq_false_iff_not]; omega
        rw [this]
        simp only [Bool.or_self, Bool.false_eq_true, if_false]
        unfold running at hrun
        have k1 : decide (s.iterations < o.maxIterations) = true := by rw [decide_eq_true_eq]; omega
        have k2 : decide (s.failed < o.maxIterations) = true := by rw [decide_eq_true_eq]; omega
        rw [k1, k2, i2] at hrun
        simp only [Bool.and_self, Bool.true_and, Bool.or_false, Bool.and_eq_false_iff] at hrun
        by_cases hd : Dbl.le s.deltaX (.fin o.convergenceDeltaX) = true
        · rw [if_pos hd]; exact .inl rfl
        · rw [if_neg hd]
          right
          rw [i8] at hd hrun
          rw [i9] at hrun ⊢
          rw [if_pos]
          rcases hrun with hrun | hrun
          · exfalso
            apply hd
            apply (Dbl.le_fin _ _).2
            by_contra hc
            rw [(Dbl.lt_fin _ _).2 (not_le.1 hc)] at hrun
            cases hrun
          · apply (Dbl.le_fin _ _).2
            by_contra hc
            have : Dbl.lt (.fin o.convergenceDeltaError) (Dbl.abs (.fin dJ)) = true := (Dbl.lt_fin _ _).2 (not_le.1 hc)
            rw [this] at hrun
            cases hrun
  · rintro t t' hrun hi ⟨j1, j2, j3, j4⟩
    obtain ⟨k1, k2, k3, k4, k5, k6, k7, k8⟩ := h.iter t t' j1 j3 (hle _) hi
    refine ⟨k2, by rw [k3]; exact j2, k4, .inr ⟨?_, ?_, ?_, _, _, k7, k8⟩⟩
    · rw [k6]
      rcases j4 with ⟨_, j5, _⟩ | ⟨j5, _⟩ <;> exact j5
    · rw [k1]; exact hstat _
    · rcases j4 with ⟨j5, _⟩ | ⟨_, j6, j7, _⟩
      · left; omega
      · rcases j7 with j7 | ⟨_, j8⟩
        · right
          refine ⟨by omega, ?_⟩
          rw [k7, hzero _ j6, h0]
        · exfalso
          unfold running at hrun
          rw [j8, j2] at hrun
          simp only [Bool.or_false, Bool.and_eq_true] at hrun
          have := (Dbl.lt_fin _ _).1 hrun.2.1
          linarith
  · refine ⟨rfl, rfl, ?_, .inl ⟨rfl, rfl, ?_⟩⟩
    · show S.cost x = .fin (linCost A c x.1)
      rw [h.cost]
    · unfold running
      have k1 : (0 : Int) < o.maxIterations := by omega
      have d1 : (enter S o (initObj (fresh x p dx))).deltaX = .fin (o.convergenceDeltaX + 1) := rfl
      have d2 : (enter S o (initObj (fresh x p dx))).deltaJ = .fin (o.convergenceDeltaError + 1) := rfl
      have d3 : (enter S o (initObj (fresh x p dx))).iterations = 0 := rfl
      have d4 : (enter S o (initObj (fresh x p dx))).failed = 0 := rfl
      rw [d1, d2, d3, d4]
      have l1 : Dbl.lt (.fin o.convergenceDeltaX) (.fin (o.convergenceDeltaX + 1)) = true := (Dbl.lt_fin _ _).2 (by linarith)
      have l2 : Dbl.lt (.fin o.convergenceDeltaError) (Dbl.abs (.fin (o.convergenceDeltaError + 1))) = true := by
        apply (Dbl.lt_fin _ _).2
        have := le_abs_self (o.convergenceDeltaError + 1)
        linarith
      rw [l1, l2]
      simp [k1]

/-- **C96** (Gauss-Newton). If the residual is linear in the design variables and its Jacobian has full column rank, the first
`optimize()` with the Gauss-Newton policy ends at the unique point of least cost, from every start, after at most two
iterations and without a failed one, and reports the cost of that point; with a budget of at least three iterations it reports
convergence. -/
theorem C96_gauss_newton (A : V →ₗ[ℝ] W) (hA : Function.Injective A) (c : W) (maxAbs : V → ℝ) (h0 : maxAbs 0 = 0)
    (sol : V → Option ℝ → Option V) (hsol : SolvesNormal A c sol) (d2 : V → ℝ → V → ℝ) (o : Options ℝ)
    (hx : 0 ≤ o.convergenceDeltaX) (hN : 1 ≤ o.maxIterations) (x : V × V) (p : Base (Dbl ℝ)) (dx : V) :
    ∃ r, optimize (gn (additive (linCost A c) maxAbs sol d2)) o (fresh x p dx) = .ok r ∧ UniqueMin (linCost A c) r.x.1 ∧
      r.jFinal = .fin (linCost A c r.x.1) ∧ r.iterations ≤ 2 ∧ r.failed = 0 ∧
      (3 ≤ o.maxIterations → r.conv = .dx ∨ r.conv = .dObjective) := by
  have hs : ∀ q, sol q (some 0) = some ((sol q (some 0)).getD 0) := by
    intro q
    obtain ⟨d, hd, _⟩ := hsol q 0 le_rfl
    rw [hd]; rfl
  refine linear_full_step A hA c (g := fun q => (sol q (some 0)).getD 0) ⟨fun _ => rfl, fun _ _ => rfl, fun _ => rfl, fun _ => rfl, ?_⟩
    h0 ?_ o hx hN x p dx
  · intro p x d J
    show ((sol x.1 (some 0)).isSome, (sol x.1 (some 0)).getD d) = _
    rw [hs x.1]; rfl
  · intro q v
    obtain ⟨d, hd, hd2⟩ := hsol q 0 le_rfl
    have := hd2 v
    rw [hd]
    simpa using this

/-- **C96** (line search). The same with the line-search policy, with either setting of its reset option. -/
theorem C96_line_search (A : V →ₗ[ℝ] W) (hA : Function.Injective A) (c : W) (maxAbs : V → ℝ) (h0 : maxAbs 0 = 0)
    (sol : V → Option ℝ → Option V) (hsol : SolvesNormal A c sol) (d2 : V → ℝ → V → ℝ) (o : Options ℝ)
    (hx : 0 ≤ o.convergenceDeltaX) (hN : 1 ≤ o.maxIterations) (x : V × V) (p : LSP ℝ) (dx : V) :
    ∃ r, optimize (ls (additive (linCost A c) maxAbs sol d2)) o (fresh x p dx) = .ok r ∧ UniqueMin (linCost A c) r.x.1 ∧
      r.jFinal = .fin (linCost A c r.x.1) ∧ r.iterations ≤ 2 ∧ r.failed = 0 ∧
      (3 ≤ o.maxIterations → r.conv = .dx ∨ r.conv = .dObjective) := by
  have hs : ∀ q, sol q (some 0) = some ((sol q (some 0)).getD 0) := by
    intro q
    obtain ⟨d, hd, _⟩ := hsol q 0 le_rfl
    rw [hd]; rfl
  refine linear_full_step A hA c (g := fun q => (sol q (some 0)).getD 0) ⟨fun _ => rfl, fun _ _ => rfl, fun _ => rfl, fun _ => rfl, ?_⟩
    h0 ?_ o hx hN x p dx
  · intro p x d J
    simp only [ls, Env.base, LS.call, Bool.not_false, Bool.or_true, if_true]
    show ((sol x.1 (some 0)).isSome, (sol x.1 (some 0)).getD d) = _
    rw [hs x.1]; rfl
  · intro q v
    obtain ⟨d, hd, hd2⟩ := hsol q 0 le_rfl
    have := hd2 v
    rw [hd]
    simpa using this

theorem damped_linear {A : V →ₗ[ℝ] W} (hA : Function.Injective A) {c : W} {q d : V} {l : ℝ} (hl : 0 < l)
    (h : ∀ v, inner ℝ (A d) (A v) + l * l * inner ℝ d v = -inner ℝ (A q - c) (A v)) :
    linCost A c (q + d) ≤ linCost A c q ∧
      ∀ m, Stationary A c m → q ≠ m → ‖q + d - m‖ < ‖q - m‖ := by
  constructor
  · unfold linCost
    have e : A (q + d) - c = (A q - c) + A d := by rw [map_add]; abel
    have h1 := h d
    rw [real_inner_self_eq_norm_sq, real_inner_self_eq_norm_sq] at h1
    rw [e, norm_add_sq_real]
    have : 0 ≤ l * l * ‖d‖ ^ 2 := by positivity
    nlinarith [sq_nonneg ‖A d‖]
  · intro m hm hne
    set a := q - m with ha
    set b := q + d - m with hb
    have hd : d = b - a := by rw [ha, hb]; abel
    have ha0 : a ≠ 0 := sub_ne_zero.2 hne
    have hapos : 0 < ‖a‖ := norm_pos_iff.2 ha0
    have h1 := h b
    have e1 : inner ℝ (A q - c) (A b) = inner ℝ (A a) (A b) := by
      have e : A q - c = A a + (A m - c) := by rw [ha, map_sub]; abel
      rw [e, inner_add_left, hm b, add_zero]
    rw [e1, hd, map_sub, inner_sub_left, inner_sub_left, real_inner_self_eq_norm_sq, real_inner_self_eq_norm_sq] at h1
    by_cases hb0 : b = 0
    · rw [hb0, norm_zero]; exact hapos
    · have hbpos : 0 < ‖b‖ := norm_pos_iff.2 hb0
      have hAb : 0 < ‖A b‖ := by
        apply norm_pos_iff.2
        intro h0
        exact hb0 (hA (h0.trans (map_zero A).symm))
      have hcs := real_inner_le_norm a b
      have hll : 0 < l * l := by positivity
      have h2 : l * l * ‖b‖ ^ 2 < l * l * (‖a‖ * ‖b‖) := by
        have : 0 < ‖A b‖ ^ 2 := by positivity
        have := mul_le_mul_of_nonneg_left hcs hll.le
        linarith
      have h3 : ‖b‖ ^ 2 < ‖a‖ * ‖b‖ := lt_of_mul_lt_mul_left h2 hll.le
      rw [pow_two] at h3
      exact lt_of_mul_lt_mul_right h3 hbpos.le

/-- **C96** (Levenberg-Marquardt). On a linear problem with a Jacobian of full column rank no iteration ever fails in any run, and
each pass of the loop, whatever the damping has become, does not raise the cost and brings the design variables strictly
closer to the point of least cost unless they are there. -/
theorem C96_levenberg_marquardt (A : V →ₗ[ℝ] W) (hA : Function.Injective A) (c : W) (maxAbs : V → ℝ) (h0 : maxAbs 0 = 0)
    (sol : V → Option ℝ → Option V) (hsol : SolvesNormal A c sol) (init : LM ℝ) (hok : LMOk init) (o : Options ℝ)
    (hx : 0 ≤ o.convergenceDeltaX) (he : 0 ≤ o.convergenceDeltaError) (b : Obj ℝ (V × V) V (LMP ℝ V))
    (s : St ℝ (V × V) V (LMP ℝ V))
    (hs : Reach (lm (additive (linCost A c) maxAbs sol fun q l d => inner ℝ d (l • d) - inner ℝ (A q - c) (A d)) init) o b s) :
    s.failed = b.failed ∧ s.lsf = false ∧ s.prevFailed = false ∧
    ∀ s', running o s = true →
      iter (lm (additive (linCost A c) maxAbs sol fun q l d => inner ℝ d (l • d) - inner ℝ (A q - c) (A d)) init) s = .ok s' →
      linCost A c s'.x.1 ≤ linCost A c s.x.1 ∧
      ∀ m, UniqueMin (linCost A c) m → s.x.1 ≠ m → ‖s'.x.1 - m‖ < ‖s.x.1 - m‖ := by
  set E := additive (linCost A c) maxAbs sol fun q l d => inner ℝ d (l • d) - inner ℝ (A q - c) (A d) with hE
  have hd2 : Predicts E := by
    intro q l d hl h hpos
    obtain ⟨d', h1, h2⟩ := hsol q l hl.le
    have h3 : sol q (some l) = some d := h
    rw [h1] at h3
    obtain rfl := Option.some.inj h3
    have hd0 : d' ≠ 0 := by
      rintro rfl
      have : 0 < maxAbs 0 := hpos
      rw [h0] at this
      exact lt_irrefl _ this
    show 0 < inner ℝ d' (l • d') - inner ℝ (A q - c) (A d')
    have := h2 d'
    rw [real_inner_self_eq_norm_sq, real_inner_self_eq_norm_sq] at this
    rw [inner_smul_right, real_inner_self_eq_norm_sq]
    have hn := norm_pos_iff.2 hd0
    have p1 : 0 < l * ‖d'‖ ^ 2 := by positivity
    have p2 : 0 ≤ l * l * ‖d'‖ ^ 2 := by positivity
    nlinarith [sq_nonneg ‖A d'‖]
  have key : ∀ t t', (LMInv E t ∧ t.lsf = false ∧ t.pJ = .fin (linCost A c t.x.1)) → running o t = true → iter (lm E init) t = .ok t' →
      t' = afterAccept (lm E init) t ∧ ∃ l d, 0 < l ∧ t'.x.1 = t.x.1 + d ∧
        ∀ v, inner ℝ (A d) (A v) + l * l * inner ℝ d v = -inner ℝ (A t.x.1 - c) (A v) := by
    rintro t t' ⟨hI, hl, hJ⟩ hrun hi
    obtain ⟨l', e1, e2, e3, e4, e5, e6, e7⟩ := lm_call E hd2 o hx he t hI hl hrun
    obtain ⟨d, g1, g2⟩ := hsol t.x.1 l'.lambda e6.lambda.le
    have g1' : E.sol (E.val t.x) (some l'.lambda) = some d := g1
    rw [g1'] at e7 e5
    have hdx : (lmCall E t.p t.x t.dx t.error t.prevFailed).2.2 = d := (Option.some.inj (e5 e7)).symm
    have hcand : candidate (lm E init) t = (t.x.1 + d, t.x.1) := by
      show (t.x.1 + (lmCall E t.p t.x t.dx t.error t.prevFailed).2.2, t.x.1) = _
      rw [hdx]
    have hle := (damped_linear hA e6.lambda g2).1
    have hsub : Dbl.lt (Dbl.sub t.pJ ((lm E init).cost (candidate (lm E init) t))) (.fin 0) = false := by
      rw [hJ, hcand]
      show decide (linCost A c t.x.1 - linCost A c (t.x.1 + d) < 0) = false
      rw [decide_eq_false_iff_not]
      linarith
    rcases iter_cases hi with ⟨h1, _⟩ | ⟨_, _, h1, _⟩ | ⟨_, _, h1⟩
    · have : (lmCall E t.p t.x t.dx t.error t.prevFailed).2.1 = false := h1
      rw [e7] at this; cases this
    · rw [hsub] at h1; cases h1
    · refine ⟨h1, l'.lambda, d, e6.lambda, ?_, g2⟩
      rw [h1]
      show (candidate (lm E init) t).1 = _
      rw [hcand]
  have hI := reach_inv (S := lm E init) (o := o) (b := b)
    (fun t => (LMInv E t ∧ t.lsf = false ∧ t.pJ = .fin (linCost A c t.x.1)) ∧ t.failed = b.failed ∧ t.prevFailed = false) ?_ ?_ s hs
  · refine ⟨hI.2.1, hI.1.2.1, hI.2.2, fun s' hrun hi => ?_⟩
    obtain ⟨_, l, d, hl, hx', hd⟩ := key s s' hI.1 hrun hi
    rw [hx']
    refine ⟨(damped_linear hA hl hd).1, fun m hm hne => (damped_linear hA hl hd).2 m ?_ hne⟩
    -- the least point is stationary
    obtain ⟨g, _, hg⟩ := hsol m 0 le_rfl
    have hst : Stationary A c (m + g) := by
      intro v
      have := hg v
      rw [map_add]
      have e : A m + A g - c = (A m - c) + A g := by abel
      rw [e, inner_add_left]
      linarith
    by_cases hz : g = 0
    · rw [hz, add_zero] at hst; exact hst
    · exfalso
      have h1 := hm (m + g) (by simpa using hz)
      have h2 := hst.cost m
      have : 0 ≤ ‖A (m - (m + g))‖ ^ 2 := by positivity
      linarith
  · exact ⟨⟨fun _ => ⟨init, _, _, _, ⟨rfl, hok⟩, rfl, rfl, rfl, fun _ => ⟨rfl, rfl⟩, (fun hf => by cases hf),
      (fun hf => by cases hf)⟩, rfl, rfl⟩, rfl, rfl⟩
  · rintro t t' hrun hi ⟨hA', hB, hC⟩
    obtain ⟨h1, _⟩ := key t t' hA' hrun hi
    refine ⟨⟨lm_pass E (fun _ _ => rfl) hd2 init o hx he t t' hA'.1 hrun hi, ?_, ?_⟩, ?_, ?_⟩
    · rw [h1]; exact hA'.2.1
    · rw [h1]; rfl
    · rw [h1]; exact hB
    · rw [h1]; rfl

/-- The line `q + 1` with the exact solver meets the hypotheses. -/
example : Function.Injective (LinearMap.id : ℝ →ₗ[ℝ] ℝ) ∧
    SolvesNormal (LinearMap.id : ℝ →ₗ[ℝ] ℝ) (-1) (fun q m => m.map fun l => -(q + 1) / (1 + l * l)) ∧
    LMOk (⟨1, 3, 2, 3, 2⟩ : LM ℝ) ∧ (|0| : ℝ) = 0 := by
  refine ⟨Function.injective_id, ?_, ⟨by norm_num, by norm_num, by norm_num, by norm_num, by norm_num⟩, abs_zero⟩
  intro q l hl
  refine ⟨_, rfl, fun v => ?_⟩
  have : 0 < 1 + l * l := by positivity
  simp
  field_simp
  ring

end Verif.Policy
