import Verif.LineSearch.Props

/-!
C38: the update functions make the values available. C76: the first step length the line searches try. With a limit of one iteration the first method leaves the design
variables at it; the second moves to it before its loop.
-/
namespace Verif.LineSearch
open FloatLike

section
variable {F X V : Type} [FloatLike F]

/-- **C38** (updates). After a move along a direction the getters throw until the update functions have been called; then they return the error and the derivative along the
direction at the position moved to. -/
theorem C38_update (E : Env F X V) (d : V) (s : LS F X V) (hd : s.dir = some d) (t : F) (ht : eq (sub t s.step) zero = false) :
    let m := (applyStateUpdate E s t).1
    getError m = .exc ∧ getErrorDerivative m = .exc ∧
    getError (updateError E m) = .ok (E.err (E.upd s.x (sub t s.step) d)) ∧
    getErrorDerivative (updateErrorDerivative E m).1 = .ok (E.dot (E.grad (E.upd s.x (sub t s.step) d)) d) ∧
    (updateErrorDerivative E m).2 = .ok () ∧
    getErrorDerivative (updateErrorDerivative E (updateError E m)).1 = .ok (E.dot (E.grad (E.upd s.x (sub t s.step) d)) d) := by
  have hm : (applyStateUpdate E s t).1 = { s with step := t, x := E.upd s.x (sub t s.step) d, errOut := true, derrOut := true } := by
    unfold applyStateUpdate
    dsimp only
    rw [if_neg (by rw [Bool.not_eq_true]; exact ht), hd]
    rfl
  intro m
  have hm' : m = _ := hm
  rw [hm']
  simp [getError, getErrorDerivative, updateError, updateErrorDerivative, hd]

/-- **C38** (initialisation). After `initialize` with a direction `getError` returns the error given by the caller, or the one of the current state if none was given, and `getErrorDerivative` the product of the
direction with the gradient given by the caller, or with the one of the current state; it throws for an ascent direction. -/
theorem C38_initialize (E : Env F X V) (s : LS F X V) (d : V) (e : Option F) (g : Option V) (nan : F) :
    let r := initialize' E s (some d) e g nan
    getError r.1 = .ok (e.getD (E.err s.x)) ∧
    getErrorDerivative r.1 = .ok (E.dot (g.getD (E.grad s.x)) d) ∧
    (r.2 = .exc ↔ le (E.dot (g.getD (E.grad s.x)) d) zero = false) ∧ r.1.x = s.x := by
  have key : ∀ b : Bool, (if b = true then Res.ok () else Res.exc) = Res.exc ↔ b = false := by decide
  refine ⟨?_, ?_, ?_, ?_⟩ <;> cases e <;> cases g <;>
    simp [initialize', setSearchDirection, updateError, updateGradient, getError, getErrorDerivative, key] <;>
    (split_ifs with h <;> simp_all)

/-- **C76** (first trial step of the first search). Before any search (`_errorOld` is NaN) with a descent direction and one permitted iteration the first method leaves the design variables at
the configured initial step length, if that is within the limits, and throws otherwise. -/
theorem C76_first_trial_initial (E : Env F X V) (o : Opt F) (d : V) (s : LS F X V) (hd : s.dir = some d)
    (h1 : s.errOut = false) (h2 : s.derrOut = false) (h3 : isnan s.err = false) (h4 : isnan s.derr = false)
    (h5 : isnan s.errOld = true) (hz : eq s.derr zero = false) (hneg : lt s.derr zero = true) (hn : o.nWolfe1 = 1) :
    if le o.minStep o.initStep && le o.initStep o.maxStep then
      (wolfe1 E o s).1.step = o.initStep ∧ (wolfe1 E o s).2 = .ok false
    else (wolfe1 E o s).1.step = s.step ∧ (wolfe1 E o s).2 = .exc := by
  have hw : wolfe1 E o s = body1 E o d s := by
    unfold wolfe1; rw [h1, h2, h3, h4, hd]; rfl
  have hf : firstStep o o.maxStep s = o.initStep := by simp [firstStep, h5]
  rw [hw]
  unfold body1
  rw [hf, hz, hneg, hn]
  by_cases hc : (le o.minStep o.initStep && le o.initStep o.maxStep) = true
  · rw [if_pos hc]
    simp only [hc]
    refine ⟨?_, rfl⟩
    show (derivAt E d (updateError E (moveTo E d _ o.initStep))).step = _
    rw [step_derivAt, step_updateError, step_moveTo]
  · rw [if_neg hc]
    simp only [Bool.not_eq_true] at hc
    simp [hc]

end

variable {K X V : Type} [LinearOrder K] [Field K] [IsStrictOrderedRing K] [Sq K]

theorem first_exact (o : Opt K) (s : LS K X V) (hneg : s.derr < 0) : firstStep o o.maxStep s =
    if 0 ≤ min o.maxStep (2.02 * ((s.err - s.errOld) / s.derr)) then min o.maxStep (2.02 * ((s.err - s.errOld) / s.derr))
      else o.initStep := by
  have hz : eq s.derr zero = false := by
    show decide (s.derr = zero) = false
    rw [zero_exact]; simpa using hneg.ne
  have hnan : (isnan s.errOld : Bool) = false := rfl
  have hq : (lit (101/100) * lit 2 * (s.err - s.errOld) / s.derr : K) = 2.02 * ((s.err - s.errOld) / s.derr) := by
    have h101 : (lit (101/100) : K) = 101/100 := by
      have h2 : (101/100 : ℚ).num = 101 ∧ (101/100 : ℚ).den = 100 := by constructor <;> decide +kernel
      show (((101/100 : ℚ).num : K) / ((101/100 : ℚ).den : K)) = 101/100
      rw [h2.1, h2.2]; norm_num
    show (lit (101/100) : K) * lit 2 * (s.err - s.errOld) / s.derr = _
    rw [h101, lit2_exact]; ring
  have hmin := fmin_exact o.maxStep (2.02 * ((s.err - s.errOld) / s.derr))
  unfold firstStep
  rw [hnan, hz]
  show (if lt (fmin o.maxStep (lit (101/100) * lit 2 * (s.err - s.errOld) / s.derr)) zero = true then o.initStep else
    fmin o.maxStep (lit (101/100) * lit 2 * (s.err - s.errOld) / s.derr)) = _
  rw [hq, hmin]
  have hl : lt (min o.maxStep (2.02 * ((s.err - s.errOld) / s.derr))) zero = true ↔
      ¬ 0 ≤ min o.maxStep (2.02 * ((s.err - s.errOld) / s.derr)) := by
    show decide (_ < zero) = true ↔ _
    rw [zero_exact, decide_eq_true_eq, not_le]
  by_cases h0 : 0 ≤ min o.maxStep (2.02 * ((s.err - s.errOld) / s.derr))
  · rw [if_pos h0, if_neg fun h => hl.1 h h0]
  · rw [if_neg h0, if_pos (hl.2 h0)]

/-- **C76** (first trial step). In exact arithmetic, after an earlier search that started at cost `f₀`, with cost `f` and a negative derivative `f'` along the
direction now, and one permitted iteration: the first method leaves the design variables at `1.01 · 2 (f - f₀) / f'`, cut off at the maximal step length, or at the
initial step length if that is negative (the cost has grown); it throws if this is not within the limits. -/
theorem C76_first_trial (E : Env K X V) (o : Opt K) (d : V) (s : LS K X V) (hd : s.dir = some d)
    (h1 : s.errOut = false) (h2 : s.derrOut = false) (hneg : s.derr < 0) (hn : o.nWolfe1 = 1) (t : K)
    (ht : t = if 0 ≤ min o.maxStep (2.02 * ((s.err - s.errOld) / s.derr)) then min o.maxStep (2.02 * ((s.err - s.errOld) / s.derr))
      else o.initStep) :
    if o.minStep ≤ t ∧ t ≤ o.maxStep then (wolfe1 E o s).1.step = t ∧ (wolfe1 E o s).2 = .ok false
    else (wolfe1 E o s).1.step = s.step ∧ (wolfe1 E o s).2 = .exc := by
  have hw : wolfe1 E o s = body1 E o d s := by
    unfold wolfe1; rw [h1, h2, hd]; rfl
  have hf : firstStep o o.maxStep s = t := by rw [ht]; exact first_exact o s hneg
  have hz : eq s.derr zero = false := by
    show decide (s.derr = zero) = false
    rw [zero_exact]; simpa using hneg.ne
  have hlt : lt s.derr zero = true := by
    show decide (s.derr < zero) = true
    rw [zero_exact]; simpa using hneg
  rw [hw]
  unfold body1
  rw [hf, hz, hlt, hn]
  by_cases hc : o.minStep ≤ t ∧ t ≤ o.maxStep
  · rw [if_pos hc]
    have hc' : (le o.minStep t && le t o.maxStep) = true := by
      show (decide _ && decide _) = true
      simpa using hc
    simp only [hc']
    refine ⟨?_, rfl⟩
    show (derivAt E d (updateError E (moveTo E d _ t))).step = _
    rw [step_derivAt, step_updateError, step_moveTo]
  · rw [if_neg hc]
    have hc' : (le o.minStep t && le t o.maxStep) = false := by
      rw [← Bool.not_eq_true]
      intro h; apply hc
      have h' : (decide (o.minStep ≤ t) && decide (t ≤ o.maxStep)) = true := h
      simpa using h'
    simp [hc']

/-- **C76** (small progress). In exact arithmetic, if the cost has not changed since the start of the previous search, or has decreased by so little that
`1.01 · 2 (f - f₀) / f'` is below the minimal step length, both the first and the combined method throw, whatever the cost function: with a minimal step length above zero (1e-8 by
default) a search along a descent direction after a search that made no progress ends in an exception and nothing is tried. -/
theorem C76_small_progress (E : Env K X V) (o : Opt K) (d : V) (s : LS K X V) (hd : s.dir = some d)
    (h1 : s.errOut = false) (h2 : s.derrOut = false) (hneg : s.derr < 0) (hdec : s.err ≤ s.errOld)
    (hlim : o.minStep ≤ o.maxStep) (hsmall : 2.02 * (s.err - s.errOld) > o.minStep * s.derr) :
    (wolfe1 E o s).2 = .exc ∧ (wolfe12 E o s).2 = .exc ∧ (wolfe12 E o s).1.x = s.x := by
  have hq : 2.02 * ((s.err - s.errOld) / s.derr) < o.minStep := by
    rw [← mul_div_assoc, div_lt_iff_of_neg hneg]; exact hsmall
  have hq0 : 0 ≤ 2.02 * ((s.err - s.errOld) / s.derr) :=
    mul_nonneg (by norm_num) (div_nonneg_of_nonpos (by linarith) hneg.le)
  have hf : firstStep o o.maxStep s = 2.02 * ((s.err - s.errOld) / s.derr) := by
    rw [first_exact o s hneg, min_eq_right (by linarith), if_pos hq0]
  have hw : wolfe1 E o s = ({ s with errOld := s.err }, .exc) := by
    have : wolfe1 E o s = body1 E o d s := by unfold wolfe1; rw [h1, h2, hd]; rfl
    rw [this]
    unfold body1
    rw [hf, if_pos]
    show (!(decide (o.minStep ≤ _) && _)) = true
    simp [not_le.2 hq]
  refine ⟨by rw [hw], ?_, ?_⟩ <;> (unfold wolfe12; rw [hw])

local instance : Sq ℚ := ⟨fun _ => 0⟩

/-- A first search for the minimum of `x²` from 1 that has started at cost 2: the hypotheses of `C76_first_trial` are met and the first trial step is 1.01. -/
example : let E := env (fun x => x * x) (fun x => 2 * x)
    (wolfe1 E { defaults with nWolfe1 := 1 } (start E 1 (-1) 2)).1.step = 101/100 := by
  intro E
  have := C76_first_trial E { defaults with nWolfe1 := 1 } (-1) (start E 1 (-1) 2) rfl rfl rfl (by decide +kernel) rfl (101/100)
    (by decide +kernel)
  rw [if_pos (by decide +kernel)] at this
  exact this.1

/-- After a search that made no progress: the hypotheses of `C76_small_progress` are met. -/
example : let E := env (fun x => x * x) (fun x => 2 * x)
    (wolfe12 E defaults (start E 1 (-1) 1)).2 = .exc :=
  (C76_small_progress _ defaults (-1) (start (env (fun x => x * x) (fun x => 2 * x)) 1 (-1) 1) rfl rfl rfl (by decide +kernel)
    (by decide +kernel) (by decide +kernel) (by decide +kernel)).2.1

/-- A move by 1/2: the hypotheses of `C38_update` are met. -/
example : let E := env (fun x => x * x) (fun x => 2 * x)
    getErrorDerivative (updateErrorDerivative E (applyStateUpdate E (start E 1 (-1) 2) (1/2)).1).1 = .ok (-1) := by
  intro E
  have := (C38_update E (-1) (start E 1 (-1) 2) rfl (1/2) (by decide +kernel)).2.2.2.1
  refine this.trans ?_
  decide +kernel

/-- An ascent direction: `initialize` throws. -/
example : let E := env (fun x => x * x) (fun x => 2 * x)
    (initialize' E (start E 1 1 2) (some 1) none none 0).2 = .exc := by
  intro E
  exact (C38_initialize E (start E 1 1 2) 1 none none 0).2.2.1.2 (by decide +kernel)

/-- Before any search: the hypotheses of `C76_first_trial_initial` are met. -/
example : (wolfe1 nanEnv { defaultsD with nWolfe1 := 1 } ⟨.fin 0, some (.fin 1), .fin (-1), .fin 0, .fin 0, .nan, .fin (-1), false, false⟩).1.step = .fin 1 := by
  have := C76_first_trial_initial nanEnv { defaultsD with nWolfe1 := 1 } (.fin 1)
    ⟨.fin 0, some (.fin 1), .fin (-1), .fin 0, .fin 0, .nan, .fin (-1), false, false⟩ rfl rfl rfl (by decide +kernel) (by decide +kernel)
    (by decide +kernel) (by decide +kernel) (by decide +kernel) rfl
  rw [if_pos (by decide +kernel)] at this
  exact this.1

end Verif.LineSearch
