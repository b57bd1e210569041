import Verif.Policy.Model
import Verif.Optimizer2.Props
import Verif.Trust.Props
import Mathlib.Algebra.Order.Field.Basic
import Mathlib.Tactic.Linarith
import Mathlib.Tactic.NormNum

/-! Property C94: steps come from the linearisation at the current design variables. -/
namespace Verif.Policy
open Verif.Optimizer2 Verif.Trust

variable {K X D Q : Type} [LinearOrder K] [Field K]

/-- An update followed by a revert restores the values (C21, C63). -/
def Restores (E : Env K X D Q) : Prop := ∀ x d, E.val (E.revert (E.update x d)) = E.val x

/-- **C94** (Gauss-Newton). Whenever a pass of the loop applies a step, the step solves the undamped system built at the design
variables the step is applied to; in every run, with failing solves or not. -/
theorem C94_gauss_newton (E : Env K X D Q) (o : Options K) (b : Obj K X D (Base (Dbl K)))
    (s s' : St K X D (Base (Dbl K))) (_hs : Reach (gn E) o b s) (h : iter (gn E) s = .ok s')
    (happ : s'.iterations = s.iterations + 1) : E.sol (E.val s.x) (some 0) = some s'.dx := by
  rcases iter_cases h with ⟨_, rfl⟩ | ⟨h1, _, _, rfl⟩ | ⟨h1, _, rfl⟩
  · simp [afterFailure] at happ
  · have h1' : (E.sol (E.val s.x) (some 0)).isSome = true := h1
    obtain ⟨g, hg⟩ := Option.isSome_iff_exists.1 h1'
    simp [afterReject, gn, Env.base, hg]
  · have h1' : (E.sol (E.val s.x) (some 0)).isSome = true := h1
    obtain ⟨g, hg⟩ := Option.isSome_iff_exists.1 h1'
    simp [afterAccept, gn, Env.base, hg]

/-! ### Line search -/

theorem reach_inv {P : Type} {S : Setup K X D P} {o : Options K} {b : Obj K X D P} (I : St K X D P → Prop)
    (h0 : I (enter S o b)) (hstep : ∀ s s', running o s = true → iter S s = .ok s' → I s → I s') :
    ∀ s, Reach S o b s → I s := by
  intro s h
  induction h with
  | enter => exact h0
  | pass _ hr hi ih => exact hstep _ _ hr hi ih

/-- What is known about the line-search policy before a pass, as long as no solve has failed. -/
def LSInv [SMul K D] (E : Env K X D Q) (c : K) (s : St K X D (LSP K)) : Prop :=
  s.p.ls.scaleStep = c ∧ s.p.ls.reset = true ∧
    (s.lsf = false → s.prevFailed = true → s.p.base.first = false ∧
      ∃ g, E.sol (E.val s.x) (some 0) = some g ∧ s.dx = s.p.ls.cur • g)

theorem ls_pass {D : Type} [AddCommGroup D] [Module K D] (E : Env K X D Q) (hres : Restores E) (c : K)
    (s s' : St K X D (LSP K)) (hI : LSInv E c s) (h : iter (ls E) s = .ok s') :
    LSInv E c s' ∧ (s.lsf = false → s'.iterations = s.iterations + 1 →
      ∃ g, E.sol (E.val s.x) (some 0) = some g ∧ s'.dx = s'.p.ls.cur • g) := by
  obtain ⟨hc, hr, hf⟩ := hI
  have key : s.lsf = false → ((ls E).solve s.p s.x s.dx s.error s.prevFailed).2.1 = true →
      ∃ g, E.sol (E.val s.x) (some 0) = some g ∧
        ((ls E).solve s.p s.x s.dx s.error s.prevFailed).2.2 =
          ((ls E).solve s.p s.x s.dx s.error s.prevFailed).1.ls.cur • g := by
    intro hl hok
    cases hp : s.prevFailed with
    | false =>
      rw [hp] at hok
      simp only [ls, Env.base, LS.call, Bool.not_false, Bool.or_true, if_true] at hok ⊢
      obtain ⟨g, hg⟩ := Option.isSome_iff_exists.1 hok
      exact ⟨g, hg, by simp [hg, hr]⟩
    | true =>
      obtain ⟨h1, g, hg, hd⟩ := hf hl hp
      refine ⟨g, hg, ?_⟩
      simp only [ls, Env.base, LS.call, Base.call, h1, Bool.not_true, Bool.or_self, Bool.false_eq_true, if_false]
      rw [hd, smul_smul, mul_comm]
  have hcr : ((ls E).solve s.p s.x s.dx s.error s.prevFailed).1.ls.scaleStep = c ∧
      ((ls E).solve s.p s.x s.dx s.error s.prevFailed).1.ls.reset = true := by
    simp only [ls, Env.base, LS.call]
    split <;> exact ⟨hc, hr⟩
  have hfirst : ((ls E).solve s.p s.x s.dx s.error s.prevFailed).1.base.first = false := rfl
  rcases iter_cases h with ⟨_, rfl⟩ | ⟨h1, _, _, rfl⟩ | ⟨h1, _, rfl⟩
  · exact ⟨⟨hcr.1, hcr.2, fun hl => by simp [afterFailure] at hl⟩, fun _ hi => by simp [afterFailure] at hi⟩
  · refine ⟨⟨hcr.1, hcr.2, fun hl _ => ⟨hfirst, ?_⟩⟩, fun hl _ => key hl h1⟩
    obtain ⟨g, hg, hd⟩ := key hl h1
    refine ⟨g, ?_, hd⟩
    have : E.val (afterReject (ls E) s).x = E.val s.x := hres _ _
    rw [this]; exact hg
  · refine ⟨⟨hcr.1, hcr.2, fun _ hp => ?_⟩, fun hl _ => key hl h1⟩
    have : (afterAccept (ls E) s).prevFailed = false := rfl
    rw [this] at hp; cases hp

/-- **C94** (line search, part). With reset after success, as long as no linear solve has failed, every step applied is the scale
reported by the policy times the solution of the system built at the design variables the step is applied to. (Missing:
runs with failing solves, where it is false, see the counterexample, and the setting without reset, see C30.) -/
theorem C94_line_search_partial {D : Type} [AddCommGroup D] [Module K D] (E : Env K X D Q) (hres : Restores E)
    (o : Options K) (b : Obj K X D (LSP K)) (hr : b.p.ls.reset = true) (s s' : St K X D (LSP K)) (hs : Reach (ls E) o b s)
    (h : iter (ls E) s = .ok s') (hl : s.lsf = false) (happ : s'.iterations = s.iterations + 1) :
    ∃ g, E.sol (E.val s.x) (some 0) = some g ∧ s'.dx = s'.p.ls.cur • g := by
  have hI := reach_inv (S := ls E) (o := o) (b := b) (LSInv E b.p.ls.scaleStep) ⟨rfl, hr, fun _ hp => by cases hp⟩
    (fun s s' _ hi hI => (ls_pass E hres _ s s' hI hi).1) s hs
  exact (ls_pass E hres _ s s' hI h).2 hl happ

/-! ### Levenberg-Marquardt -/

/-- What is known about the Levenberg-Marquardt policy before a pass, as long as no solve has failed. -/
def LMInv (E : Env K X D Q) (s : St K X D (LMP K Q)) : Prop :=
  s.lsf = false → ∃ l J pJ e, (s.p.lm = some l ∧ LMOk l) ∧ s.p.base.J = .fin J ∧ s.pJ = .fin pJ ∧ s.error = .fin e ∧
    (s.p.base.first = true → s.prevFailed = false ∧ e = pJ) ∧
    (s.p.base.first = false → s.prevFailed = true → s.p.built = E.val s.x ∧ pJ ≤ e) ∧
    (s.p.base.first = false → s.prevFailed = false → e = pJ ∧ ∃ dJ, s.deltaJ = .fin dJ ∧ 0 ≤ dJ ∧ dJ ≤ J - e ∧
      s.deltaX = .fin (E.maxAbs s.dx) ∧ E.sol s.p.built (some l.lambda) = some s.dx)

/-- The predicted decrease of a damped step that moves something is positive. -/
def Predicts (E : Env K X D Q) : Prop :=
  ∀ q l d, 0 < l → E.sol q (some l) = some d → 0 < E.maxAbs d → 0 < E.d2 q l d

variable [IsStrictOrderedRing K]

theorem lm_call (E : Env K X D Q) (hd2 : Predicts E) (o : Options K) (hx : 0 ≤ o.convergenceDeltaX)
    (he : 0 ≤ o.convergenceDeltaError) (s : St K X D (LMP K Q)) (hI : LMInv E s) (hl : s.lsf = false)
    (hrun : running o s = true) :
    ∃ l', (lmCall E s.p s.x s.dx s.error s.prevFailed).1.lm = some l' ∧
      (lmCall E s.p s.x s.dx s.error s.prevFailed).1.built = E.val s.x ∧
      (lmCall E s.p s.x s.dx s.error s.prevFailed).1.base.J = s.error ∧
      (lmCall E s.p s.x s.dx s.error s.prevFailed).1.base.first = false ∧
      ((lmCall E s.p s.x s.dx s.error s.prevFailed).2.1 = true →
        E.sol (E.val s.x) (some l'.lambda) = some (lmCall E s.p s.x s.dx s.error s.prevFailed).2.2) ∧
      LMOk l' ∧ (lmCall E s.p s.x s.dx s.error s.prevFailed).2.1 = (E.sol (E.val s.x) (some l'.lambda)).isSome := by
  obtain ⟨l, J, pJ, e, ⟨h1, hk⟩, h2, h3, h4, hA, hB, hC⟩ := hI hl
  have fin : ∀ l', (∃ r, lmUpdate l s.p.base.first s.prevFailed
      (gainRatio (s.p.base.call s.error s.prevFailed) (E.d2 s.p.built l.lambda s.dx)) = some (l', r) ∧ (if r then E.val s.x else s.p.built) = E.val s.x) →
      LMOk l' →
      ∃ l', (lmCall E s.p s.x s.dx s.error s.prevFailed).1.lm = some l' ∧
      (lmCall E s.p s.x s.dx s.error s.prevFailed).1.built = E.val s.x ∧
      (lmCall E s.p s.x s.dx s.error s.prevFailed).1.base.J = s.error ∧
      (lmCall E s.p s.x s.dx s.error s.prevFailed).1.base.first = false ∧
      ((lmCall E s.p s.x s.dx s.error s.prevFailed).2.1 = true →
        E.sol (E.val s.x) (some l'.lambda) = some (lmCall E s.p s.x s.dx s.error s.prevFailed).2.2) ∧
      LMOk l' ∧ (lmCall E s.p s.x s.dx s.error s.prevFailed).2.1 = (E.sol (E.val s.x) (some l'.lambda)).isSome := by
    rintro l' ⟨r, hu, hb⟩ hok
    have hu' : lmUpdate l (s.p.base.call s.error s.prevFailed).first s.prevFailed
      (gainRatio (s.p.base.call s.error s.prevFailed) (E.d2 s.p.built l.lambda s.dx)) = some (l', r) := hu
    refine ⟨l', ?_⟩
    unfold lmCall
    simp only [h1]
    rw [hu']
    simp only [hb]
    refine ⟨trivial, trivial, rfl, rfl, ?_, hok, trivial⟩
    intro h
    obtain ⟨g, hg⟩ := Option.isSome_iff_exists.1 h
    rw [hg]; rfl
  cases hf : s.p.base.first with
  | true => exact fin l ⟨true, by rw [hf]; unfold lmUpdate; rfl, rfl⟩ hk
  | false =>
    cases hp : s.prevFailed with
    | true =>
      rw [hp] at fin
      refine fin { l with mu := l.mu * 2, lambda := l.lambda * (l.mu * 2) } ⟨false, ?_, (hB hf hp).1⟩
        ⟨by have := hk.lambda; have := hk.mu; simp only; positivity, hk.gamma, hk.beta,
          by have := hk.mu; simp only; linarith, hk.p⟩
      rw [hf]; unfold lmUpdate
      simp only [Bool.false_eq_true, if_false, if_true]
    | false =>
      obtain ⟨hep, dJ, hdJ, h0, hle, hdx, hsol⟩ := hC hf hp
      have hr : o.convergenceDeltaX < E.maxAbs s.dx ∧ o.convergenceDeltaError < |dJ| := by
        unfold running at hrun
        rw [hdJ, hdx, hl] at hrun
        simp only [Bool.or_false, Bool.and_eq_true, Dbl.abs, Dbl.lt_fin] at hrun
        exact hrun.2
      have hpos : 0 < dJ := by
        rcases h0.eq_or_lt with h | h
        · rw [← h, abs_zero] at hr; exact absurd hr.2 (not_lt.2 he)
        · exact h
      have hg : (s.p.base.call s.error s.prevFailed).gain = .fin (J - e) := by
        unfold Base.gain Base.call
        rw [hp, h4]
        simp only [Bool.false_eq_true, if_false]
        rw [h2]; rfl
      have hd : 0 < E.d2 s.p.built l.lambda s.dx := hd2 _ _ _ hk.lambda hsol (lt_of_le_of_lt hx hr.1)
      have hq : 0 < (J - e) / E.d2 s.p.built l.lambda s.dx := div_pos (lt_of_lt_of_le hpos hle) hd
      unfold gainRatio at fin
      rw [hg, hf, hp] at fin
      simp only [lmRho, Dbl.div, if_neg (ne_of_gt hd)] at fin
      have hle' : Dbl.le (Dbl.fin ((J - e) / E.d2 s.p.built l.lambda s.dx)) (.fin 0) = false := by
        cases hh : Dbl.le (Dbl.fin ((J - e) / E.d2 s.p.built l.lambda s.dx)) (.fin 0) with
        | false => rfl
        | true => exact absurd ((Dbl.le_fin _ _).1 hh) (not_le.2 hq)
      have hok : ∀ l' b, lmUpdate l false false (.fin ((J - e) / E.d2 s.p.built l.lambda s.dx)) = some (l', b) →
          LMOk l' := by
        intro l' b hu
        obtain ⟨s', b', h1, h2, _⟩ := lmUpdate_spec l hk false (.fin ((J - e) / E.d2 s.p.built l.lambda s.dx)) (by simp)
          (by simp)
        rw [hu] at h1
        cases h1
        exact h2
      by_cases hlam : l.lambda > 1 / 10 ^ 16
      · have hu : lmUpdate l false false (.fin ((J - e) / E.d2 s.p.built l.lambda s.dx)) =
            some ({ l with lambda := l.lambda * (if 1 / l.gamma > 1 - (l.beta - 1) *
              (2 * ((J - e) / E.d2 s.p.built l.lambda s.dx) - 1) ^ l.p then 1 / l.gamma else 1 - (l.beta - 1) *
              (2 * ((J - e) / E.d2 s.p.built l.lambda s.dx) - 1) ^ l.p), mu := l.beta }, true) := by
          unfold lmUpdate
          simp only [Bool.false_eq_true, if_false, hle', if_pos hlam]
        exact fin _ ⟨true, hu, rfl⟩ (hok _ _ hu)
      · have hu : lmUpdate l false false (.fin ((J - e) / E.d2 s.p.built l.lambda s.dx)) =
            some ({ l with lambda := 1 / 10 ^ 15 }, true) := by
          unfold lmUpdate
          simp only [Bool.false_eq_true, if_false, hle', if_neg hlam]
        exact fin _ ⟨true, hu, rfl⟩ (hok _ _ hu)

theorem lm_pass (E : Env K X D Q) (hres : Restores E) (hd2 : Predicts E) (init : LM K) (o : Options K)
    (hx : 0 ≤ o.convergenceDeltaX) (he : 0 ≤ o.convergenceDeltaError) (s s' : St K X D (LMP K Q)) (hI : LMInv E s)
    (hrun : running o s = true) (h : iter (lm E init) s = .ok s') : LMInv E s' := by
  rcases iter_cases h with ⟨_, rfl⟩ | ⟨h1, _, hrej, rfl⟩ | ⟨h1, hacc, rfl⟩
  · intro hl; simp [afterFailure] at hl
  · intro hl
    have hl' : s.lsf = false := hl
    obtain ⟨l', e1, e2, e3, e4, e5, e6, _⟩ := lm_call E hd2 o hx he s hI hl' hrun
    obtain ⟨l, J, pJ, e, _, _, h3, h4, _⟩ := hI hl'
    rw [h4] at e3
    refine ⟨l', e, pJ, E.cost (E.val (candidate (lm E init) s)), ⟨e1, e6⟩, ?_, h3, rfl, ?_, ?_, ?_⟩
    · rw [← e3, ← h4]; rfl
    · intro hf
      have : (afterReject (lm E init) s).p.base.first = false := e4
      rw [this] at hf; cases hf
    · intro _ _
      refine ⟨?_, ?_⟩
      · have hv : E.val (afterReject (lm E init) s).x = E.val s.x := hres _ _
        rw [hv]; exact e2
      · rw [h3] at hrej
        exact ((Dbl.lt_fin _ _).1 (Dbl.lt_of_sub_neg hrej)).le
    · intro _ hp
      have : (afterReject (lm E init) s).prevFailed = true := rfl
      rw [this] at hp; cases hp
  · intro hl
    have hl' : s.lsf = false := hl
    obtain ⟨l', e1, e2, e3, e4, e5, e6, _⟩ := lm_call E hd2 o hx he s hI hl' hrun
    obtain ⟨l, J, pJ, e, _, _, h3, h4, hA, hB, hC⟩ := hI hl'
    rw [h4] at e3
    have hpe : pJ ≤ e := by
      cases hf : s.p.base.first with
      | true => rw [(hA hf).2]
      | false =>
        cases hp : s.prevFailed with
        | true => exact (hB hf hp).2
        | false => rw [(hC hf hp).1]
    have hnn : 0 ≤ pJ - E.cost (E.val (candidate (lm E init) s)) := by
      have := hacc rfl
      rw [h3] at this
      have h' : Dbl.lt (.fin (pJ - E.cost (E.val (candidate (lm E init) s)))) (.fin (0 : K)) = false := this
      by_contra hc
      rw [(Dbl.lt_fin _ _).2 (not_le.1 hc)] at h'
      cases h'
    refine ⟨l', e, E.cost (E.val (candidate (lm E init) s)), E.cost (E.val (candidate (lm E init) s)), ⟨e1, e6⟩, ?_, rfl, rfl, ?_, ?_, ?_⟩
    · rw [← e3, ← h4]; rfl
    · intro hf
      have : (afterAccept (lm E init) s).p.base.first = false := e4
      rw [this] at hf; cases hf
    · intro _ hp
      have : (afterAccept (lm E init) s).prevFailed = false := rfl
      rw [this] at hp; cases hp
    · intro _ _
      refine ⟨rfl, pJ - E.cost (E.val (candidate (lm E init) s)), ?_, hnn, by linarith, rfl, ?_⟩
      · show Dbl.sub s.pJ _ = _
        rw [h3]; rfl
      · have : (afterAccept (lm E init) s).p.built = E.val s.x := e2
        rw [this]; exact e5 h1

/-- **C94** (Levenberg-Marquardt, part). As long as no linear solve has failed, every step applied solves the system built at the
design variables the step is applied to, with a positive conditioner. This holds in every run with parameters of the
documented kind whose convergence thresholds are not negative, rejected steps included. (Missing: runs with failing solves, where it is false, see the
counterexample.) -/
theorem C94_levenberg_marquardt_partial (E : Env K X D Q) (hres : Restores E) (hd2 : Predicts E) (init : LM K) (hok : LMOk init) (o : Options K)
    (hx : 0 ≤ o.convergenceDeltaX) (he : 0 ≤ o.convergenceDeltaError) (b : Obj K X D (LMP K Q)) (s s' : St K X D (LMP K Q))
    (hs : Reach (lm E init) o b s) (hrun : running o s = true) (h : iter (lm E init) s = .ok s') (hl : s.lsf = false)
    (happ : s'.iterations = s.iterations + 1) :
    ∃ l, s'.p.lm = some l ∧ 0 < l.lambda ∧ E.sol (E.val s.x) (some l.lambda) = some s'.dx := by
  have hI := reach_inv (S := lm E init) (o := o) (b := b) (LMInv E)
    (fun _ => ⟨init, _, _, _, ⟨rfl, hok⟩, rfl, rfl, rfl, fun _ => ⟨rfl, rfl⟩, (fun hf => by cases hf), (fun hf => by cases hf)⟩)
    (fun s s' hr hi hI => lm_pass E hres hd2 init o hx he s s' hI hr hi) s hs
  obtain ⟨l', e1, e2, e3, e4, e5, e6, _⟩ := lm_call E hd2 o hx he s hI hl hrun
  rcases iter_cases h with ⟨_, rfl⟩ | ⟨h1, _, _, rfl⟩ | ⟨h1, _, rfl⟩
  · simp [afterFailure] at happ
  · exact ⟨l', e1, e6.lambda, e5 h1⟩
  · exact ⟨l', e1, e6.lambda, e5 h1⟩

/-! ### Concrete runs -/

/-- `n` passes of the loop, to evaluate concrete runs. -/
def runN {P : Type} (S : Setup K X D P) (o : Options K) : Nat → St K X D P → Option (St K X D P)
  | 0, s => some s
  | n + 1, s => if running o s then (match iter S s with | .ok s' => runN S o n s' | _ => none) else none

omit [IsStrictOrderedRing K] in
theorem runN_reach {P : Type} {S : Setup K X D P} {o : Options K} {b : Obj K X D P} (n : Nat) (s s' : St K X D P)
    (hs : Reach S o b s) (h : runN S o n s = some s') : Reach S o b s' := by
  induction n generalizing s with
  | zero => cases h; exact hs
  | succ n ih =>
    unfold runN at h
    split at h
    · rename_i hr
      split at h
      · rename_i s1 h1; exact ih s1 (.pass hs hr h1) h
      · cases h
    · cases h

omit [IsStrictOrderedRing K] in
theorem reach_check {P : Type} {S : Setup K X D P} {o : Options K} {b : Obj K X D P} (n : Nat)
    (R : St K X D P → St K X D P → Prop) [∀ s s', Decidable (R s s')]
    (h : ((runN S o n (enter S o b)).any fun s => running o s && (match iter S s with
      | .ok s' => decide (R s s')
      | _ => false)) = true) :
    ∃ s s', Reach S o b s ∧ running o s = true ∧ iter S s = .ok s' ∧ R s s' := by
  cases e : runN S o n (enter S o b) with
  | none => rw [e] at h; cases h
  | some s =>
    rw [e] at h
    simp only [Option.any_some, Bool.and_eq_true] at h
    obtain ⟨hr, h⟩ := h
    cases e2 : iter S s with
    | ok s' => rw [e2] at h; exact ⟨s, s', runN_reach n _ _ .enter e, hr, e2, of_decide_eq_true h⟩
    | exc => rw [e2] at h; cases h
    | ub => rw [e2] at h; cases h

/-- One variable with residual `a - x`: cost `(a - x)^2`, Hessian 1, right-hand side `a - x`; the damped step is
`(a - x) / (1 + l^2)` times a factor that lets the step overshoot; there is none for a negative conditioner. -/
def demoEnv (a factor : ℚ) : Env ℚ (ℚ × ℚ) ℚ ℚ where
  val x := x.1
  update x d := (x.1 + d, x.1)
  revert x := (x.2, x.2)
  cost q := (a - q) * (a - q)
  maxAbs d := |d|
  sol q m := m.bind fun l => if l < 0 then none else some (factor * (a - q) / (1 + l * l))
  d2 q l d := d * (l * d + (a - q))

/-- A linear solver that fails whenever the damping is less than 2; its steps go to the mirror image of the value, where the
cost is the same. -/
def mirrorEnv : Env ℚ (ℚ × ℚ) ℚ ℚ :=
  { demoEnv 0 1 with sol := fun q m => m.bind fun l => if l < 2 then none else some (-2 * q) }

/-- A linear solver that always fails. -/
def failEnv : Env ℚ (ℚ × ℚ) ℚ ℚ := { demoEnv 0 1 with sol := fun _ _ => none }

/-- After a linear solve that failed, the line-search policy scales whatever is in the step vector and reports success: here no
linear solve ever succeeds, yet the vector left by the caller (in the code: memory that was never written) is halved and
applied. -/
theorem C94_line_search_counterexample :
    ∃ s s', Reach (ls failEnv) ⟨0, 0, 5⟩ (fresh (10, 10) (⟨Base.start (.fin 0), ⟨1 / 2, true, 1⟩⟩ : LSP ℚ) (-8)) s ∧
      running ⟨0, 0, 5⟩ s = true ∧ iter (ls failEnv) s = .ok s' ∧
      (s'.iterations = s.iterations + 1 ∧ s.x.1 = 10 ∧ s'.x.1 = 6 ∧ s'.pJ = .fin 36) :=
  reach_check 1 _ (by decide +kernel)

/-- After a failed linear solve and an accepted step that left the cost as it was, the Levenberg-Marquardt policy does not build
the system again: at -1 it takes the step that belongs to the value 1. -/
theorem C94_levenberg_marquardt_counterexample :
    ∃ s s', Reach (lm mirrorEnv ⟨1, 3, 2, 3, 2⟩) ⟨0, 0, 5⟩
        (fresh (1, 1) (⟨Base.start (.fin 0), none, 0, ⟨0, 0, 0, 0, 0⟩⟩ : LMP ℚ ℚ) 0) s ∧
      running ⟨0, 0, 5⟩ s = true ∧ iter (lm mirrorEnv ⟨1, 3, 2, 3, 2⟩) s = .ok s' ∧
      (s'.iterations = s.iterations + 1 ∧ s.x.1 = -1 ∧ s'.dx = -2 ∧ s'.p.built = 1 ∧
        s'.p.lm.isSome = true ∧ mirrorEnv.sol (-1) (s'.p.lm.map (·.lambda)) = some 2) :=
  reach_check 2 _ (by decide +kernel)

/-- A run with a rejected and then an accepted step. -/
example : ∃ s s', Reach (lm (demoEnv 0 5) ⟨1, 3, 2, 3, 2⟩) ⟨0, 0, 9⟩
      (fresh (8, 8) (⟨Base.start (.fin 0), none, 0, ⟨0, 0, 0, 0, 0⟩⟩ : LMP ℚ ℚ) 0) s ∧ running ⟨0, 0, 9⟩ s = true ∧
      iter (lm (demoEnv 0 5) ⟨1, 3, 2, 3, 2⟩) s = .ok s' ∧
      (s'.iterations = s.iterations + 1 ∧ s.lsf = false ∧ s.failed = 1 ∧ s'.prevFailed = false) :=
  reach_check 1 _ (by decide +kernel)

example : Restores (demoEnv 0 5) ∧ Predicts (demoEnv 0 5) := by
  refine ⟨fun _ _ => rfl, ?_⟩
  intro q l d hl h hd
  have hd' : 5 * (0 - q) / (1 + l * l) = d := by simpa [demoEnv, not_lt.2 hl.le] using h
  have hp : 0 < 1 + l * l := by nlinarith [mul_self_nonneg l]
  have hq : 0 - q = d * (1 + l * l) / 5 := by rw [← hd']; field_simp
  have h0 : d ≠ 0 := by
    intro h0
    rw [h0] at hd
    simp [demoEnv] at hd
  have : (demoEnv 0 5).d2 q l d = d * d * (l + (1 + l * l) / 5) := by
    show d * (l * d + (0 - q)) = _
    rw [hq]; ring
  rw [this]
  exact mul_pos (mul_self_pos.2 h0) (by positivity)

/-- The same for the line-search policy. -/
example : ∃ s s', Reach (ls (demoEnv 0 3)) ⟨0, 0, 9⟩
      (fresh (8, 8) (⟨Base.start (.fin 0), ⟨1 / 2, true, 1⟩⟩ : LSP ℚ) 0) s ∧ running ⟨0, 0, 9⟩ s = true ∧
      iter (ls (demoEnv 0 3)) s = .ok s' ∧
      (s'.iterations = s.iterations + 1 ∧ s.lsf = false ∧ s.failed = 1 ∧ s'.dx = -12 ∧ s'.p.ls.cur = 1 / 2) :=
  reach_check 1 _ (by decide +kernel)

/-- Two passes of Gauss-Newton, the second away from a cost that got worse. -/
example : ∃ s s', Reach (gn (demoEnv 0 3)) ⟨0, 0, 9⟩ (fresh (8, 8) (Base.start (.fin 0)) 0) s ∧ running ⟨0, 0, 9⟩ s = true ∧
      iter (gn (demoEnv 0 3)) s = .ok s' ∧ (s'.iterations = s.iterations + 1 ∧ s.x.1 = -16 ∧ s'.dx = 48) :=
  reach_check 1 _ (by decide +kernel)

end Verif.Policy
