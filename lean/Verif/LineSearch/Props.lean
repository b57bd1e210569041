import Verif.LineSearch.Lemmas
import Mathlib.Algebra.Order.Ring.Rat
import Mathlib.Algebra.Order.Field.Rat
import Mathlib.Tactic.Linarith
import Mathlib.Tactic.NormNum
import Mathlib.Tactic.Ring

/-!
C37 (success of the line search and the Wolfe conditions), C38 (no stale values), C76 (trial steps stay in the
configured range).
-/
namespace Verif.LineSearch
open FloatLike

section generic
variable {F : Type} [FloatLike F] {X V : Type}
local instance : Add F := ⟨FloatLike.add⟩
local instance : Mul F := ⟨FloatLike.mul⟩

/-- With a direction the search either throws at once or enters the method. -/
theorem wolfe1_cases {E : Env F X V} {o : Opt F} {d : V} {s : LS F X V} (hd : s.dir = some d) :
    wolfe1 E o s = (s, .exc) ∨ (s.errOut = false ∧ s.derrOut = false ∧ wolfe1 E o s = body1 E o d s) := by
  unfold wolfe1
  rw [hd]
  split
  · exact Or.inl rfl
  · rename_i h; cases h
  · rename_i hf h
    cases h
    simp only [Bool.or_eq_false_iff] at hf
    exact Or.inr ⟨hf.1.1.1, hf.1.2, rfl⟩

/-- As `wolfe1_cases`. -/
theorem wolfe2_cases {E : Env F X V} {o : Opt F} {d : V} {s : LS F X V} (hd : s.dir = some d) :
    wolfe2 E o s = (s, .exc) ∨ (s.errOut = false ∧ s.derrOut = false ∧ wolfe2 E o s = body2 E o d s) := by
  unfold wolfe2
  rw [hd]
  split
  · exact Or.inl rfl
  · rename_i h; cases h
  · rename_i hf h
    cases h
    simp only [Bool.or_eq_false_iff] at hf
    exact Or.inr ⟨hf.1.1.1, hf.1.2, rfl⟩

theorem Current.old {E : Env F X V} {d : V} {s : LS F X V} (hc : Current E d s) (e : F) : Current E d { s with errOld := e } :=
  ⟨hc.errOut, hc.derrOut, hc.dir, hc.err, hc.grad, hc.derr⟩

theorem body1_spec {E : Env F X V} {o : Opt F} {d : V} {s s' : LS F X V} {r : Res Bool} (hc : Current E d s)
    (h : body1 E o d s = (s', r)) : Current E d s' ∧ (r = .ok true →
      (eq s.derr zero = true ∧ s'.x = s.x ∧ s'.step = s.step) ∨
      (le s'.err (s.err + s'.step * (o.c1 * s.derr)) = true ∧ le (abs s'.derr) (neg o.c2 * s.derr) = true)) ∧
      (eq s.derr zero = true → r ≠ .ok false) := by
  unfold body1 at h
  split_ifs at h with h1 h2 h3
  · simp only [Prod.mk.injEq] at h
    obtain ⟨rfl, rfl⟩ := h
    exact ⟨hc.old _, by simp, by simp⟩
  · simp only [Prod.mk.injEq] at h
    obtain ⟨rfl, rfl⟩ := h
    exact ⟨hc.old _, fun _ => Or.inl ⟨h2, rfl, rfl⟩, by simp⟩
  · simp only [Prod.mk.injEq] at h
    obtain ⟨rfl, rfl⟩ := h
    exact ⟨hc.old _, by simp, by simp⟩
  · simp only [Prod.mk.injEq] at h
    obtain ⟨rfl, rfl⟩ := h
    generalize hl : loop1 E d o.nWolfe1 { s with errOld := s.err }
      (Dc.new (firstStep o o.maxStep s) s.err s.derr o.minStep o.maxStep o.c1 o.xtol o.c2) = p
    obtain ⟨s', e⟩ := p
    obtain ⟨a, -, b⟩ := loop1_spec E d s.err (o.c1 * s.derr) (neg o.c2 * s.derr) _ _ _ _ _ hl rfl rfl rfl rfl (Or.inl rfl)
      (hc.old s.err)
    refine ⟨a, fun hr => Or.inr (b (by simpa using hr)), fun hz => absurd hz h2⟩

/-- Whatever `lineSearchWolfe1` does to an up-to-date search, the stored values remain up to date. -/
theorem wolfe1_current {E : Env F X V} {o : Opt F} {d : V} {s s' : LS F X V} {r : Res Bool} (hc : Current E d s)
    (h : wolfe1 E o s = (s', r)) : Current E d s' := by
  rcases wolfe1_cases (E := E) (o := o) hc.dir with h1 | ⟨-, -, h1⟩
  · rw [h1] at h
    cases h
    exact hc
  · rw [h1] at h
    exact (body1_spec hc h).1

/-- **C37, first method.** If `lineSearchWolfe1` returns success, then the error and the derivative it leaves are those of the
design variables it leaves, and with the configured constants the error is at most `error at the start +
step * (c1 * derivative at the start)` and the absolute derivative at most `-c2 * derivative at the start` — or the derivative at the start
is zero and nothing was moved. For every number type, so also with rounding, infinities and NaN. -/
theorem C37_wolfe1 (E : Env F X V) (o : Opt F) (d : V) (s s' : LS F X V) (hc : Current E d s)
    (h : wolfe1 E o s = (s', .ok true)) :
    (s'.err = E.err s'.x ∧ s'.derr = E.dot (E.grad s'.x) d ∧ s'.grad = E.grad s'.x) ∧
    ((eq (E.dot (E.grad s.x) d) zero = true ∧ s'.x = s.x ∧ s'.step = s.step) ∨
      (le (E.err s'.x) (E.err s.x + s'.step * (o.c1 * E.dot (E.grad s.x) d)) = true ∧
        le (abs (E.dot (E.grad s'.x) d)) (neg o.c2 * E.dot (E.grad s.x) d) = true)) := by
  have hcur := wolfe1_current hc h
  refine ⟨⟨hcur.err, hcur.derr, hcur.grad⟩, ?_⟩
  rw [← hcur.err, ← hcur.derr, ← hc.err, ← hc.derr]
  rcases wolfe1_cases (E := E) (o := o) hc.dir with h1 | ⟨-, -, h1⟩
  · rw [h1] at h
    cases h
  · rw [h1] at h
    exact (body1_spec hc h).2.1 rfl

/-- What `lineSearchWolfe2` does to a search whose error and derivative are up to date; the stored gradient need not be.
`hsub`: subtracting zero is exact, as in IEEE arithmetic. -/
theorem wolfe2_spec (hsub : ∀ t : F, eq (sub t zero) zero = eq t zero) {E : Env F X V} {o : Opt F} {d : V} {s s' : LS F X V}
    {r : Res Bool} (hs : SemiD E d s) (he : s.errOut = false) (hst : s.step = zero) (h : wolfe2 E o s = (s', r)) :
    SemiD E d s' ∧ s'.errOut = false ∧ (Semi E d s → Semi E d s') ∧
    (r = .ok true → (s'.derrOut = false) ∧
      ((eq s.derr zero = true ∧ s'.x = s.x ∧ s'.step = s.step) ∨
        (Semi E d s' ∧ le (abs s'.derr) (neg o.c2 * s.derr) = true))) := by
  rcases wolfe2_cases (E := E) (o := o) hs.dir with h0 | ⟨-, hfl, h0⟩
  · rw [h0] at h
    cases h
    exact ⟨hs, he, id, fun h => by cases h⟩
  · rw [h0] at h
    unfold body2 at h
    have hs1 : SemiD E d { s with errOld := s.err } := ⟨hs.dir, hs.err, hs.derr⟩
    split_ifs at h with h1 h2
    · simp only [Prod.mk.injEq] at h
      obtain ⟨rfl, rfl⟩ := h
      exact ⟨hs1, he, fun g => ⟨g.dir, g.err, g.grad, g.derr⟩, fun _ => ⟨hfl, Or.inl ⟨h1, rfl, rfl⟩⟩⟩
    · simp only [Prod.mk.injEq] at h
      obtain ⟨rfl, rfl⟩ := h
      exact ⟨hs1, he, fun g => ⟨g.dir, g.err, g.grad, g.derr⟩, fun h => by cases h⟩
    · simp only [Prod.mk.injEq] at h
      obtain ⟨rfl, rfl⟩ := h
      have hm : Semi E d (updateError E (moveTo E d { s with errOld := s.err } (firstStep o o.initStep s))) := by
        apply Semi.updateError
        unfold moveTo
        have : ¬ eq (sub (firstStep o o.initStep s) s.step) zero = true := by
          rw [hst, hsub]; exact h2
        dsimp only
        split_ifs with h9
        · exact absurd h9 this
        · exact ⟨hs.dir, by simp, by simp, by simp⟩
      obtain ⟨a, b, c, e⟩ := loop2_spec E o d s.err s.derr _ _ _ _ _ _ rfl hm.semiD (errOut_updateError E _)
      refine ⟨a, b, fun _ => c hm, fun hr => ?_⟩
      simp only [Res.ok.injEq] at hr
      obtain ⟨e1, e2⟩ := e hr
      exact ⟨e1, Or.inr ⟨c hm, e2⟩⟩

/-- **C37, curvature for the combined method.** If `lineSearchWolfe12` returns success, the stored error, gradient and derivative are those
of the design variables it leaves, and the curvature condition holds (or the start was stationary and nothing was moved). -/
theorem C37_wolfe12_curvature (hsub : ∀ t : F, eq (sub t zero) zero = eq t zero) (E : Env F X V) (o : Opt F) (d : V)
    (s s' : LS F X V) (hc : Current E d s) (h : wolfe12 E o s = (s', .ok true)) :
    (s'.err = E.err s'.x ∧ s'.derr = E.dot (E.grad s'.x) d ∧ s'.grad = E.grad s'.x) ∧
    (eq (E.dot (E.grad s.x) d) zero = true ∧ s'.x = s.x ∨
      le (abs (E.dot (E.grad s'.x) d)) (neg o.c2 * E.dot (E.grad s.x) d) = true) := by
  unfold wolfe12 at h
  split at h
  · rename_i s1 h1
    have hc1 := wolfe1_current hc h1
    have hr : SemiD E d (restore s s1) := ⟨hc1.dir, fun _ => hc.err, fun _ => hc.derr⟩
    obtain ⟨a, b, c, e⟩ := wolfe2_spec hsub hr hc1.errOut rfl h
    obtain ⟨e1, e2⟩ := e rfl
    rcases e2 with ⟨e2, -, -⟩ | ⟨e2, e3⟩
    · -- the derivative at the start is zero: the first method had returned success
      exfalso
      have hz : eq s.derr zero = true := e2
      rcases wolfe1_cases (E := E) (o := o) hc.dir with h2 | ⟨-, -, h2⟩
      · rw [h2] at h1
        cases h1
      · rw [h2] at h1
        exact (body1_spec hc h1).2.2 hz rfl
    · refine ⟨⟨e2.err b, e2.derr e1, e2.grad e1⟩, Or.inr ?_⟩
      rw [← hc.derr, ← e2.derr e1]
      exact e3
  · rename_i x hne
    obtain ⟨g, hw⟩ := C37_wolfe1 E o d s s' hc h
    refine ⟨g, ?_⟩
    rcases hw with ⟨a, b, -⟩ | ⟨-, b⟩
    · exact Or.inl ⟨a, b⟩
    · exact Or.inr b

end generic

section exact
variable {K : Type} [LinearOrder K] [Field K] [IsStrictOrderedRing K] [Sq K] {X V : Type}

theorem zero_exact : (zero : K) = 0 := by
  show ((0 : ℚ).num : K) / ((0 : ℚ).den : K) = 0
  simp

theorem lit2_exact : (lit 2 : K) = 2 := by
  show ((2 : ℚ).num : K) / ((2 : ℚ).den : K) = 2
  simp

theorem hsub_exact (t : K) : eq (sub t zero) (zero : K) = eq t zero := by
  rw [zero_exact]
  show decide (t - 0 = 0) = decide (t = 0)
  rw [sub_zero]

theorem tooHigh_exact {o : Opt K} {z : Zm K} {e0 t e : K} (h : ¬ z.tooHigh o e0 t e = true) :
    e ≤ e0 + o.c1 * t * z.dlo ∧ e < z.elo := by
  have h' : ¬ (decide (e0 + o.c1 * t * z.dlo < e) || decide (z.elo ≤ e)) = true := h
  simpa using h'

theorem zoom_decrease (E : Env K X V) (o : Opt K) (d : V) (e0 d0 : K) : ∀ (n : Nat) (fi : Bool) (s : LS K X V) (z : Zm K)
    (s' : LS K X V), zoom E o d e0 d0 n fi s z = (s', true) → s'.err < z.elo := by
  intro n
  induction n with
  | zero => intro fi s z s' h; simp [zoom] at h
  | succ n ih =>
    intro fi s z s' h
    simp only [zoom] at h
    split_ifs at h with h2 h3
    · have := ih _ _ _ _ h
      exact this
    · simp only [Prod.mk.injEq, and_true] at h
      subst h
      rw [err_derivAt]
      exact (tooHigh_exact h2).2
    · have := ih _ _ _ _ h
      have h4 := (tooHigh_exact h2).2
      refine lt_trans ?_ h4
      unfold Zm.advance at this
      split_ifs at this <;> exact this

theorem loop2_decrease (E : Env K X V) (o : Opt K) (d : V) (e0 d0 : K) (hc1 : 0 ≤ o.c1) (hd0 : d0 < 0) :
    ∀ (n : Nat) (fi : Bool) (s : LS K X V) (w : W2 K) (s' : LS K X V), loop2 E o d e0 d0 n fi s w = (s', true) →
    s.step = w.hi → s.err = w.ehi → w.elo ≤ e0 → 0 < w.hi →
    (s'.err ≤ e0 + o.c1 * s'.step * d0 ∧ s'.err ≤ e0) ∨ s'.err < e0 := by
  intro n
  induction n with
  | zero => intro fi s w s' h; simp [loop2] at h
  | succ n ih =>
    intro fi s w s' h hst her hlo hhi
    simp only [loop2] at h
    have hneg : e0 + o.c1 * w.hi * d0 ≤ e0 := by
      have := mul_nonneg (mul_nonneg hc1 hhi.le) (neg_nonneg.mpr hd0.le)
      linarith
    have key : ¬ (lt (FloatLike.add e0 (FloatLike.mul (FloatLike.mul o.c1 w.hi) d0)) w.ehi || (le w.elo w.ehi && !fi)) = true →
        w.ehi ≤ e0 + o.c1 * w.hi * d0 := by
      intro h2
      simp only [Bool.or_eq_true, not_or] at h2
      have h2' : ¬ decide (e0 + o.c1 * w.hi * d0 < w.ehi) = true := h2.1
      simpa using h2'
    split_ifs at h with h1 h2 h3 h4
    · cases h
    · have := zoom_decrease E o d e0 d0 _ _ _ _ _ h
      exact Or.inr (lt_of_lt_of_le this hlo)
    · simp only [Prod.mk.injEq, and_true] at h
      subst h
      rw [err_derivAt, step_derivAt, hst, her]
      exact Or.inl ⟨key h2, (key h2).trans hneg⟩
    · have := zoom_decrease E o d e0 d0 _ _ _ _ _ h
      exact Or.inr (lt_of_lt_of_le this ((key h2).trans hneg))
    · refine ih _ _ _ _ h ?_ rfl ((key h2).trans hneg) ?_
      · rw [step_updateError, step_moveTo]
      · show 0 < FloatLike.mul (lit 2) w.hi
        rw [lit2_exact]
        exact mul_pos two_pos hhi

theorem firstStep_pos {o : Opt K} {cap : K} {s : LS K X V} (hi : 0 < o.initStep) (h : ¬ eq (firstStep o cap s) zero = true) :
    0 < firstStep o cap s := by
  have h0 : firstStep o cap s ≠ 0 := by
    intro h1
    apply h
    show decide (firstStep o cap s = zero) = true
    rw [h1, zero_exact]; simp
  refine lt_of_le_of_ne ?_ (Ne.symm h0)
  unfold firstStep
  split_ifs with h1
  · dsimp only
    generalize fmin cap _ = t
    split_ifs with h2
    · exact hi.le
    · have h2' : ¬ decide (t < zero) = true := h2
      rw [zero_exact] at h2'
      simpa using h2'
  · exact hi.le

theorem check_exact {o : Opt K} (h : o.check = true) : 0 ≤ o.c1 ∧ o.c1 ≤ o.c2 ∧ 0 < o.initStep := by
  simp only [Opt.check, Bool.and_eq_true] at h
  obtain ⟨⟨⟨⟨⟨⟨⟨⟨h1, h2⟩, -⟩, -⟩, -⟩, h3⟩, -⟩, -⟩, -⟩ := h
  have h1' : decide ((zero : K) ≤ o.c1) = true := h1
  have h2' : decide (o.c1 ≤ o.c2) = true := h2
  have h3' : decide ((zero : K) < o.initStep) = true := h3
  rw [zero_exact] at h1' h3'
  exact ⟨by simpa using h1', by simpa using h2', by simpa using h3'⟩

theorem wolfe2_decrease {E : Env K X V} {o : Opt K} (ho : o.check = true) {d : V} {s s' : LS K X V} (hd : s.dir = some d)
    (h0 : s.derr < 0) (h : wolfe2 E o s = (s', .ok true)) :
    (s'.err ≤ s.err + o.c1 * s'.step * s.derr ∧ s'.err ≤ s.err) ∨ s'.err < s.err := by
  obtain ⟨c1, -, c3⟩ := check_exact ho
  rcases wolfe2_cases (E := E) (o := o) hd with h1 | ⟨-, -, h1⟩
  · rw [h1] at h; cases h
  · rw [h1] at h
    unfold body2 at h
    split_ifs at h with h2 h3
    · exfalso
      have h2' : decide (s.derr = zero) = true := h2
      rw [zero_exact] at h2'
      simp only [decide_eq_true_eq] at h2'
      rw [h2'] at h0
      exact lt_irrefl _ h0
    · cases h
    · simp only [Prod.mk.injEq, Res.ok.injEq] at h
      obtain ⟨rfl, h⟩ := h
      refine loop2_decrease E o d s.err s.derr c1 h0 o.nWolfe2 true _ _ _ (Prod.ext rfl h) ?_ rfl le_rfl (firstStep_pos c3 h3)
      rw [step_updateError, step_moveTo]

/-! ### C76: the trial steps of the first method -/

theorem dcstep_stx (v : Iv K) (fp dp a b : K) : (dcstep v fp dp a b).stx = v.stx ∨ (dcstep v fp dp a b).stx = v.stp := by
  unfold dcstep
  dsimp only
  split_ifs
  · exact Or.inl rfl
  · exact Or.inr rfl
  · exact Or.inr rfl

theorem interval_stx (c : Dc K) (st : Nat) (e g : K) : (c.interval st e g).stx = c.stx ∨ (c.interval st e g).stx = c.step := by
  unfold Dc.interval
  split_ifs
  · exact dcstep_stx _ _ _ _ _
  · exact dcstep_stx _ _ _ _ _

/-- Zero or within the limits. -/
def InRange (lo hi t : K) : Prop := t = 0 ∨ (lo ≤ t ∧ t ≤ hi)

theorem fmin_exact (a b : K) : fmin a b = min a b := by
  unfold fmin
  show (if decide (b < a) = true then b else a) = min a b
  simp only [decide_eq_true_eq]
  split_ifs with h
  · exact (min_eq_right h.le).symm
  · exact (min_eq_left (not_lt.mp h)).symm

theorem fmax_exact (a b : K) : fmax a b = max a b := by
  unfold fmax
  show (if decide (a < b) = true then b else a) = max a b
  simp only [decide_eq_true_eq]
  split_ifs with h
  · exact (max_eq_right h.le).symm
  · exact (max_eq_left (not_lt.mp h)).symm

theorem update_inRange {c : Dc K} {e g : K} (hm : c.minS ≤ c.maxS) (h1 : InRange c.minS c.maxS c.step)
    (h2 : InRange c.minS c.maxS c.stx) :
    InRange c.minS c.maxS (c.update e g).step ∧ InRange c.minS c.maxS (c.update e g).stx := by
  unfold Dc.update
  split_ifs
  · exact ⟨h1, h2⟩
  · exact ⟨h1, h2⟩
  · have hx : InRange c.minS c.maxS (c.interval (c.stage' e g) e g).stx := by
      rcases interval_stx c (c.stage' e g) e g with h | h <;> rw [h] <;> assumption
    refine ⟨?_, hx⟩
    show InRange _ _ (c.force _ _)
    unfold Dc.force
    dsimp only
    split_ifs
    · exact hx
    · rw [fmin_exact, fmax_exact]
      exact Or.inr ⟨le_min (le_max_right _ _) hm, min_le_right _ _⟩

theorem loop1_inRange (E : Env K X V) (d : V) (lo hi : K) (hm : lo ≤ hi) : ∀ (n : Nat) (s : LS K X V) (c : Dc K), c.minS = lo → c.maxS = hi →
    InRange lo hi c.step → InRange lo hi c.stx → InRange lo hi s.step → InRange lo hi (loop1 E d n s c).1.step := by
  intro n
  induction n with
  | zero => intro s c _ _ _ _ h; exact h
  | succ n ih =>
    intro s c h1 h2 h3 h4 h5
    obtain ⟨-, -, -, f4, f5, -⟩ := Dc.update_consts c s.err s.derr
    subst h1 h2
    obtain ⟨g1, g2⟩ := update_inRange (e := s.err) (g := s.derr) hm h3 h4
    simp only [loop1]
    split
    · refine ih _ _ f4 f5 g1 g2 ?_
      rw [step_derivAt, step_updateError, step_moveTo]
      exact g1
    · exact h5
    · exact h5

theorem trial_steps (E : Env K X V) (o : Opt K) (d : V) (s : LS K X V) (hd : s.dir = some d) (hst : s.step = 0) :
    (wolfe1 E o s).1.step = 0 ∨ (o.minStep ≤ (wolfe1 E o s).1.step ∧ (wolfe1 E o s).1.step ≤ o.maxStep) := by
  rcases wolfe1_cases (E := E) (o := o) hd with h1 | ⟨-, -, h1⟩
  · rw [h1]; exact Or.inl hst
  · rw [h1]
    unfold body1
    split_ifs with h2
    · exact Or.inl hst
    · exact Or.inl hst
    · exact Or.inl hst
    · have h2' : ¬ (!(decide (o.minStep ≤ firstStep o o.maxStep s) && decide (firstStep o o.maxStep s ≤ o.maxStep))) = true := h2
      simp only [Bool.not_eq_true', Bool.not_eq_false, Bool.and_eq_true, decide_eq_true_eq] at h2'
      exact loop1_inRange E d o.minStep o.maxStep (h2'.1.trans h2'.2) _ _ _ rfl rfl (Or.inr h2') (Or.inl zero_exact) (Or.inl hst)

theorem check_min {o : Opt K} (h : o.check = true) : 0 ≤ o.minStep := by
  simp only [Opt.check, Bool.and_eq_true] at h
  have h1 : decide ((zero : K) ≤ o.minStep) = true := h.1.1.1.1.1.2
  rw [zero_exact] at h1
  simpa using h1

/-- **C76.** In exact arithmetic every step length at which `lineSearchWolfe1`, started at step length zero, leaves the design variables is zero or lies
in `[minStepLength, maxStepLength]`. `nMaxIterWolfe1` is arbitrary, so this covers every trial step on the way. -/
theorem C76_trial_steps (E : Env K X V) (o : Opt K) (d : V) (s : LS K X V) (hd : s.dir = some d) (hst : s.step = 0) :
    (wolfe1 E o s).1.step = 0 ∨ (o.minStep ≤ (wolfe1 E o s).1.step ∧ (wolfe1 E o s).1.step ≤ o.maxStep) :=
  trial_steps E o d s hd hst

/-- **C37, the second and the combined method (partial).** In exact arithmetic, with options accepted by `check()` and a search that starts
up to date at step length zero in a descent direction: if `lineSearchWolfe2` or `lineSearchWolfe12` returns success then the
curvature condition holds, the error has not increased, and either the sufficient-decrease condition holds or at least the error is smaller than at the start.
Missing: sufficient decrease when the interval was zoomed into (counterexample below). -/
theorem C37_wolfe12_partial (E : Env K X V) (o : Opt K) (ho : o.check = true) (d : V) (s s' : LS K X V) (hc : Current E d s)
    (hst : s.step = 0) (hd : E.dot (E.grad s.x) d < 0) (h : wolfe2 E o s = (s', .ok true) ∨ wolfe12 E o s = (s', .ok true)) :
    |E.dot (E.grad s'.x) d| ≤ -o.c2 * E.dot (E.grad s.x) d ∧ E.err s'.x ≤ E.err s.x ∧
    (E.err s'.x ≤ E.err s.x + o.c1 * s'.step * E.dot (E.grad s.x) d ∨ E.err s'.x < E.err s.x) := by
  have hd' : s.derr < 0 := by rw [hc.derr]; exact hd
  have nz : ¬ eq s.derr zero = true := by
    intro h2
    have h2' : decide (s.derr = zero) = true := h2
    rw [zero_exact] at h2'
    simp only [decide_eq_true_eq] at h2'
    rw [h2'] at hd'
    exact lt_irrefl _ hd'
  -- a successful second method from any state with the same values
  have second : ∀ t : LS K X V, SemiD E d t → t.errOut = false → t.step = 0 → t.derr = s.derr → t.err = s.err →
      wolfe2 E o t = (s', .ok true) → |E.dot (E.grad s'.x) d| ≤ -o.c2 * E.dot (E.grad s.x) d ∧ E.err s'.x ≤ E.err s.x ∧
      (E.err s'.x ≤ E.err s.x + o.c1 * s'.step * E.dot (E.grad s.x) d ∨ E.err s'.x < E.err s.x) := by
    intro t ht te ts td terr hw
    obtain ⟨a, b, c, e⟩ := wolfe2_spec hsub_exact ht te (ts.trans zero_exact.symm) hw
    obtain ⟨e1, e2⟩ := e rfl
    rw [td] at e2
    have e3 := (e2.resolve_left (fun g => nz g.1)).2
    have e3' : decide (|s'.derr| ≤ -o.c2 * s.derr) = true := e3
    have hdec := wolfe2_decrease ho ht.dir (td ▸ hd') hw
    rw [td, terr] at hdec
    rw [← a.derr e1, ← a.err b, ← hc.derr, ← hc.err]
    exact ⟨by simpa using e3', hdec.elim (fun g => g.2) le_of_lt, hdec.imp_left And.left⟩
  rcases h with h | h
  · exact second s hc.semi.semiD hc.errOut hst rfl rfl h
  · unfold wolfe12 at h
    split at h
    · rename_i s1 h1
      have hc1 := wolfe1_current hc h1
      exact second (restore s s1) ⟨hc1.dir, fun _ => hc.err, fun _ => hc.derr⟩ hc1.errOut zero_exact rfl rfl h
    · obtain ⟨g, hw⟩ := C37_wolfe1 E o d s s' hc h
      rcases hw with ⟨a, -⟩ | ⟨a, b⟩
      · rw [hc.derr] at nz
        exact absurd a nz
      · have a' : decide (E.err s'.x ≤ E.err s.x + s'.step * (o.c1 * E.dot (E.grad s.x) d)) = true := a
        have b' : decide (|E.dot (E.grad s'.x) d| ≤ -o.c2 * E.dot (E.grad s.x) d) = true := b
        simp only [decide_eq_true_eq] at a' b'
        have hA : E.err s'.x ≤ E.err s.x + o.c1 * s'.step * E.dot (E.grad s.x) d := by
          calc E.err s'.x ≤ E.err s.x + s'.step * (o.c1 * E.dot (E.grad s.x) d) := a'
            _ = E.err s.x + o.c1 * s'.step * E.dot (E.grad s.x) d := by rw [mul_left_comm, mul_assoc]
        have hstep : 0 ≤ s'.step := by
          have := trial_steps E o d s hc.dir hst
          rw [h] at this
          rcases this with g | g
          · exact g.ge
          · exact (check_min ho).trans g.1
        refine ⟨b', hA.trans ?_, Or.inl hA⟩
        have := mul_nonneg (mul_nonneg (check_exact ho).1 hstep) (neg_nonneg.mpr hd.le)
        linarith

/-- The design variables are the start moved by the current step length along the direction. -/
def At (E : Env K X V) (x0 : X) (d : V) (s : LS K X V) : Prop := s.x = E.upd x0 s.step d

theorem At.moveTo {E : Env K X V} {x0 : X} {d : V} {s : LS K X V} (hadd : ∀ x a b, E.upd (E.upd x a d) b d = E.upd x (a + b) d)
    (h : At E x0 d s) (t : K) : At E x0 d (moveTo E d s t) := by
  unfold At at *
  unfold LineSearch.moveTo
  dsimp only
  split_ifs with h1
  · have h1' : decide (t - s.step = zero) = true := h1
    rw [zero_exact] at h1'
    simp only [decide_eq_true_eq, sub_eq_zero] at h1'
    rw [h1', h]
  · show E.upd s.x (t - s.step) d = E.upd x0 t d
    rw [h, hadd, add_sub_cancel]

theorem At.updateError {E : Env K X V} {x0 : X} {d : V} {s : LS K X V} (h : At E x0 d s) : At E x0 d (updateError E s) := by
  unfold LineSearch.updateError
  split_ifs <;> exact h

theorem At.derivAt {E : Env K X V} {x0 : X} {d : V} {s : LS K X V} (h : At E x0 d s) : At E x0 d (derivAt E d s) := by
  unfold LineSearch.derivAt
  split_ifs <;> exact h

theorem At.loop1 {E : Env K X V} {x0 : X} {d : V} (hadd : ∀ x a b, E.upd (E.upd x a d) b d = E.upd x (a + b) d) :
    ∀ (n : Nat) (s : LS K X V) (c : Dc K), At E x0 d s → At E x0 d (loop1 E d n s c).1 := by
  intro n
  induction n with
  | zero => intro s c h; exact h
  | succ n ih =>
    intro s c h
    simp only [LineSearch.loop1]
    split
    · exact ih _ _ (h.moveTo hadd _).updateError.derivAt
    · exact h
    · exact h

theorem At.zoom {E : Env K X V} {x0 : X} {d : V} (hadd : ∀ x a b, E.upd (E.upd x a d) b d = E.upd x (a + b) d) (o : Opt K) (e0 d0 : K) :
    ∀ (n : Nat) (fi : Bool) (s : LS K X V) (z : Zm K), At E x0 d s → At E x0 d (zoom E o d e0 d0 n fi s z).1 := by
  intro n
  induction n with
  | zero => intro fi s z h; exact h
  | succ n ih =>
    intro fi s z h
    simp only [LineSearch.zoom]
    split_ifs
    · exact ih _ _ _ (h.moveTo hadd _).updateError
    · exact (h.moveTo hadd _).updateError.derivAt
    · exact ih _ _ _ (h.moveTo hadd _).updateError.derivAt

theorem At.loop2 {E : Env K X V} {x0 : X} {d : V} (hadd : ∀ x a b, E.upd (E.upd x a d) b d = E.upd x (a + b) d) (o : Opt K) (e0 d0 : K) :
    ∀ (n : Nat) (fi : Bool) (s : LS K X V) (w : W2 K), At E x0 d s → At E x0 d (loop2 E o d e0 d0 n fi s w).1 := by
  intro n
  induction n with
  | zero => intro fi s w h; exact h
  | succ n ih =>
    intro fi s w h
    simp only [LineSearch.loop2]
    split_ifs
    · exact h
    · exact At.zoom hadd o e0 d0 _ _ _ _ h
    · exact h.derivAt
    · exact At.zoom hadd o e0 d0 _ _ _ _ h.derivAt
    · exact ih _ _ _ (h.derivAt.moveTo hadd _).updateError

theorem At.wolfe1 {E : Env K X V} {x0 : X} {d : V} (hadd : ∀ x a b, E.upd (E.upd x a d) b d = E.upd x (a + b) d) (o : Opt K)
    {s : LS K X V} (hd : s.dir = some d) (h : At E x0 d s) : At E x0 d (wolfe1 E o s).1 := by
  rcases wolfe1_cases (E := E) (o := o) hd with h1 | ⟨-, -, h1⟩
  · rw [h1]; exact h
  · rw [h1]
    unfold body1
    split_ifs
    · exact h
    · exact h
    · exact h
    · exact At.loop1 hadd _ _ _ h

theorem At.wolfe2 {E : Env K X V} {x0 : X} {d : V} (hadd : ∀ x a b, E.upd (E.upd x a d) b d = E.upd x (a + b) d) (o : Opt K)
    {s : LS K X V} (hd : s.dir = some d) (h : At E x0 d s) : At E x0 d (wolfe2 E o s).1 := by
  rcases wolfe2_cases (E := E) (o := o) hd with h1 | ⟨-, -, h1⟩
  · rw [h1]; exact h
  · rw [h1]
    unfold body2
    split_ifs
    · exact h
    · exact h
    · refine At.loop2 hadd o _ _ _ _ _ _ ?_
      exact (At.moveTo (s := { s with errOld := s.err }) hadd h _).updateError

/-- **C37, position.** In exact arithmetic, for design variables whose updates along one direction add up (vectors, and rotations updated
by rotation vectors): whatever the combined search returns — success, failure or an exception — the design variables are the start moved by the reported
step length along the search direction. -/
theorem C37_position (E : Env K X V) (d : V) (hadd : ∀ x a b, E.upd (E.upd x a d) b d = E.upd x (a + b) d)
    (hzero : ∀ x, E.upd x 0 d = x) (o : Opt K) (s : LS K X V) (hc : Current E d s) (hst : s.step = 0) :
    (wolfe12 E o s).1.x = E.upd s.x (wolfe12 E o s).1.step d := by
  have h0 : At E s.x d s := by unfold At; rw [hst, hzero]
  have h1 := At.wolfe1 hadd o hc.dir h0
  unfold wolfe12
  split
  · rename_i s1 hw
    have hc1 := wolfe1_current hc hw
    refine At.wolfe2 hadd o (s := restore s s1) hc1.dir ?_
    show s.x = E.upd s.x zero d
    rw [zero_exact, hzero]
  · exact h1

end exact

/-! ### C38: histories -/
section history
variable {F : Type} [FloatLike F] {X V : Type}

/-- The calls of the public interface (values passed to `initialize` by the caller are not included). -/
inductive Op (F V : Type) where
  | init (d : Option V)
  | setDir (d : V)
  | apply (t : F)
  | updError
  | updGradient
  | updDerivative
  | wolfe1
  | wolfe2
  | wolfe12

/-- The effect of a call on the object, also if it throws; `none`: undefined behaviour. -/
def exec (E : Env F X V) (o : Opt F) (nan : F) (s : LS F X V) : Op F V → Option (LS F X V)
  | .init d => fin (initialize' E s d none none nan)
  | .setDir d => fin (setSearchDirection E s d)
  | .apply t => fin (applyStateUpdate E s t)
  | .updError => some (updateError E s)
  | .updGradient => some (updateGradient E s)
  | .updDerivative => fin (updateErrorDerivative E s)
  | .wolfe1 => fin (LineSearch.wolfe1 E o s)
  | .wolfe2 => fin (LineSearch.wolfe2 E o s)
  | .wolfe12 => fin (LineSearch.wolfe12 E o s)
where
  /-- The object after a call. -/
  fin {α : Type} (r : LS F X V × Res α) : Option (LS F X V) := match r.2 with
    | .ub => none
    | _ => some r.1

/-- A sequence of calls. -/
def execs (E : Env F X V) (o : Opt F) (nan : F) (s : LS F X V) : List (Op F V) → Option (LS F X V)
  | [] => some s
  | p :: ps => (exec E o nan s p).bind fun s' => execs E o nan s' ps

/-- A predicate kept by moves and updates is kept by the loop of the first method. -/
theorem loop1_ind {E : Env F X V} {d : V} {P : LS F X V → Prop} (hm : ∀ s t, P s → P (moveTo E d s t)) (hu : ∀ s, P s → P (updateError E s))
    (hd : ∀ s, P s → P (derivAt E d s)) : ∀ (n : Nat) (s : LS F X V) (c : Dc F), P s → P (loop1 E d n s c).1 := by
  intro n
  induction n with
  | zero => intro s c h; exact h
  | succ n ih =>
    intro s c h
    simp only [loop1]
    split
    · exact ih _ _ (hd _ (hu _ (hm _ _ h)))
    · exact h
    · exact h

theorem zoom_ind {E : Env F X V} {d : V} {P : LS F X V → Prop} (hm : ∀ s t, P s → P (moveTo E d s t)) (hu : ∀ s, P s → P (updateError E s))
    (hd : ∀ s, P s → P (derivAt E d s)) (o : Opt F) (e0 d0 : F) : ∀ (n : Nat) (fi : Bool) (s : LS F X V) (z : Zm F), P s →
    P (zoom E o d e0 d0 n fi s z).1 := by
  intro n
  induction n with
  | zero => intro fi s c h; exact h
  | succ n ih =>
    intro fi s c h
    simp only [zoom]
    split_ifs
    · exact ih _ _ _ (hu _ (hm _ _ h))
    · exact hd _ (hu _ (hm _ _ h))
    · exact ih _ _ _ (hd _ (hu _ (hm _ _ h)))

theorem loop2_ind {E : Env F X V} {d : V} {P : LS F X V → Prop} (hm : ∀ s t, P s → P (moveTo E d s t)) (hu : ∀ s, P s → P (updateError E s))
    (hd : ∀ s, P s → P (derivAt E d s)) (o : Opt F) (e0 d0 : F) : ∀ (n : Nat) (fi : Bool) (s : LS F X V) (w : W2 F), P s →
    P (loop2 E o d e0 d0 n fi s w).1 := by
  intro n
  induction n with
  | zero => intro fi s c h; exact h
  | succ n ih =>
    intro fi s c h
    simp only [loop2]
    split_ifs
    · exact h
    · exact zoom_ind hm hu hd o e0 d0 _ _ _ _ h
    · exact hd _ h
    · exact zoom_ind hm hu hd o e0 d0 _ _ _ _ (hd _ h)
    · exact ih _ _ _ (hu _ (hm _ _ (hd _ h)))

theorem wolfe1_ind {E : Env F X V} {d : V} {P : LS F X V → Prop} (hm : ∀ s t, P s → P (moveTo E d s t)) (hu : ∀ s, P s → P (updateError E s))
    (hd : ∀ s, P s → P (derivAt E d s)) (ho : ∀ s e, P s → P { s with errOld := e }) (o : Opt F) {s : LS F X V}
    (hdir : s.dir = some d) (h : P s) : P (wolfe1 E o s).1 := by
  rcases wolfe1_cases (E := E) (o := o) hdir with h1 | ⟨-, -, h1⟩
  · rw [h1]; exact h
  · rw [h1]
    unfold body1
    split_ifs
    · exact ho _ _ h
    · exact ho _ _ h
    · exact ho _ _ h
    · exact loop1_ind hm hu hd _ _ _ (ho _ _ h)

theorem wolfe2_ind {E : Env F X V} {d : V} {P : LS F X V → Prop} (hm : ∀ s t, P s → P (moveTo E d s t)) (hu : ∀ s, P s → P (updateError E s))
    (hd : ∀ s, P s → P (derivAt E d s)) (ho : ∀ s e, P s → P { s with errOld := e }) (o : Opt F) {s : LS F X V}
    (hdir : s.dir = some d) (h : P s) : P (wolfe2 E o s).1 := by
  rcases wolfe2_cases (E := E) (o := o) hdir with h1 | ⟨-, -, h1⟩
  · rw [h1]; exact h
  · rw [h1]
    unfold body2
    split_ifs
    · exact ho _ _ h
    · exact ho _ _ h
    · exact loop2_ind hm hu hd o _ _ _ _ _ _ (hu _ (hm _ _ (ho _ _ h)))

/-- The error is that of the state unless flagged. -/
def ErrF (E : Env F X V) (s : LS F X V) : Prop := s.errOut = false → s.err = E.err s.x

theorem ErrF.moveTo {E : Env F X V} {d : V} {s : LS F X V} (h : ErrF E s) (t : F) : ErrF E (moveTo E d s t) := by
  unfold ErrF LineSearch.moveTo at *
  dsimp only
  split_ifs
  · exact h
  · simp

theorem ErrF.updateError {E : Env F X V} {s : LS F X V} (h : ErrF E s) : ErrF E (updateError E s) := by
  unfold ErrF LineSearch.updateError at *
  split_ifs
  · intro _; rfl
  · exact h

theorem ErrF.derivAt {E : Env F X V} {d : V} {s : LS F X V} (h : ErrF E s) : ErrF E (derivAt E d s) := by
  unfold ErrF LineSearch.derivAt at *
  split_ifs
  · exact h
  · exact h

/-- Without a direction a search changes nothing (or is undefined). -/
theorem wolfe_none {E : Env F X V} {o : Opt F} {s : LS F X V} (h : s.dir = none) :
    (wolfe1 E o s).1 = s ∧ (wolfe2 E o s).1 = s ∧ (∀ b, (wolfe1 E o s).2 ≠ .ok b) := by
  unfold wolfe1 wolfe2
  rw [h]
  cases s.errOut || isnan s.err || s.derrOut || isnan s.derr <;> simp

/-- A first search that returned normally had its flags cleared. -/
theorem wolfe1_ok_flags {E : Env F X V} {o : Opt F} {s s1 : LS F X V} {b : Bool} (h : wolfe1 E o s = (s1, .ok b)) :
    s.errOut = false ∧ s.derrOut = false ∧ ∃ d, s.dir = some d := by
  cases hd : s.dir with
  | none => exact absurd (congrArg Prod.snd h) ((wolfe_none hd).2.2 b)
  | some d =>
    rcases wolfe1_cases (E := E) (o := o) hd with h1 | ⟨h2, h3, -⟩
    · rw [h1] at h; cases h
    · exact ⟨h2, h3, d, rfl⟩

theorem ErrF.exec {E : Env F X V} {o : Opt F} {nan : F} {s s' : LS F X V} {p : Op F V} (h : ErrF E s) (he : exec E o nan s p = some s') :
    ErrF E s' := by
  have hfin : ∀ {α : Type} (r : LS F X V × Res α), exec.fin r = some s' → s' = r.1 := by
    intro α r hr
    unfold exec.fin at hr
    split at hr
    · cases hr
    · exact (Option.some.inj hr).symm
  have ho : ∀ (s : LS F X V) (e : F), ErrF E s → ErrF E { s with errOld := e } := fun s e h => h
  have w1 : ErrF E (wolfe1 E o s).1 := by
    cases hd : s.dir with
    | none => rw [(wolfe_none hd).1]; exact h
    | some d => exact wolfe1_ind (fun _ t g => g.moveTo t) (fun _ g => g.updateError) (fun _ g => g.derivAt) ho o hd h
  have w2 : ∀ t : LS F X V, ErrF E t → ErrF E (wolfe2 E o t).1 := by
    intro t ht
    cases hd : t.dir with
    | none => rw [(wolfe_none hd).2.1]; exact ht
    | some d => exact wolfe2_ind (fun _ t g => g.moveTo t) (fun _ g => g.updateError) (fun _ g => g.derivAt) ho o hd ht
  cases p with
  | init d =>
    have hs := hfin _ he
    subst hs
    cases d <;> simp [initialize', setSearchDirection, LineSearch.updateError, updateGradient, ErrF]
  | setDir d => rw [hfin _ he]; exact h
  | apply t =>
    rw [hfin _ he]
    unfold applyStateUpdate
    dsimp only
    split_ifs
    · exact h
    · split
      · intro g; cases g
      · exact h
  | updError => cases he; exact h.updateError
  | updGradient => cases he; exact h
  | updDerivative =>
    rw [hfin _ he]
    unfold updateErrorDerivative
    split_ifs
    · split <;> exact h
    · exact h
  | wolfe1 => rw [hfin _ he]; exact w1
  | wolfe2 => rw [hfin _ he]; exact w2 s h
  | wolfe12 =>
    rw [hfin _ he]
    unfold wolfe12
    split
    · rename_i s1 hw
      obtain ⟨f1, -, -⟩ := wolfe1_ok_flags hw
      exact w2 _ (fun _ => h f1)
    · exact w1

/-- **C38, error.** After any sequence of public calls on a new object, whether they return or throw, `getError` throws or returns the value of the objective
at the current design variables. -/
theorem C38_error (E : Env F X V) (o : Opt F) (nan : F) (s0 : LS F X V) (h0 : s0.errOut = true) (ps : List (Op F V)) (s : LS F X V)
    (h : execs E o nan s0 ps = some s) : getError s = .exc ∨ getError s = .ok (E.err s.x) := by
  have inv : ∀ (ps : List (Op F V)) (s0 : LS F X V), ErrF E s0 → execs E o nan s0 ps = some s → ErrF E s := by
    intro ps
    induction ps with
    | nil => intro s0 g h; cases h; exact g
    | cons p ps ih =>
      intro s0 g h
      simp only [execs, Option.bind_eq_some_iff] at h
      obtain ⟨s1, h1, h2⟩ := h
      exact ih s1 (g.exec h1) h2
  have hf := inv ps s0 (fun g => by rw [h0] at g; cases g) h
  unfold getError
  cases ho : s.errOut with
  | true => exact Or.inl rfl
  | false => rw [hf ho]; exact Or.inr rfl

/-- The derivative along the current direction is that of the state unless flagged. -/
def DerF (E : Env F X V) (s : LS F X V) : Prop := s.derrOut = false → ∃ d, s.dir = some d ∧ s.derr = E.dot (E.grad s.x) d

/-- As `DerF` with a fixed direction. -/
def DerD (E : Env F X V) (d : V) (s : LS F X V) : Prop := s.dir = some d ∧ (s.derrOut = false → s.derr = E.dot (E.grad s.x) d)

theorem DerD.moveTo {E : Env F X V} {d : V} {s : LS F X V} (h : DerD E d s) (t : F) : DerD E d (moveTo E d s t) := by
  unfold DerD LineSearch.moveTo at *
  dsimp only
  split_ifs
  · exact h
  · exact ⟨h.1, by simp⟩

theorem DerD.updateError {E : Env F X V} {d : V} {s : LS F X V} (h : DerD E d s) : DerD E d (updateError E s) := by
  unfold DerD LineSearch.updateError at *
  split_ifs
  · exact h
  · exact h

theorem DerD.derivAt {E : Env F X V} {d : V} {s : LS F X V} (h : DerD E d s) : DerD E d (derivAt E d s) := by
  unfold DerD LineSearch.derivAt at *
  split_ifs
  · exact ⟨h.1, fun _ => rfl⟩
  · exact h

theorem DerF.exec {E : Env F X V} {o : Opt F} {nan : F} {s s' : LS F X V} {p : Op F V} (h : DerF E s)
    (hg : ∀ d, p = .setDir d → s.grad = E.grad s.x) (he : exec E o nan s p = some s') : DerF E s' := by
  have hfin : ∀ {α : Type} (r : LS F X V × Res α), exec.fin r = some s' → s' = r.1 := by
    intro α r hr
    unfold exec.fin at hr
    split at hr
    · cases hr
    · exact (Option.some.inj hr).symm
  have toF : ∀ {d : V} {s : LS F X V}, DerD E d s → DerF E s := fun g hf => ⟨_, g.1, g.2 hf⟩
  have w1 : ∀ d, s.dir = some d → DerD E d (wolfe1 E o s).1 ∨ (wolfe1 E o s).1 = s := by
    intro d hd
    by_cases hf : s.derrOut = false
    · obtain ⟨d', e1, e2⟩ := h hf
      rw [hd] at e1
      cases e1
      exact Or.inl (wolfe1_ind (P := DerD E d) (fun _ t g => g.moveTo t) (fun _ g => g.updateError) (fun _ g => g.derivAt) (fun _ _ g => g) o hd ⟨hd, fun _ => e2⟩)
    · exact Or.inl (wolfe1_ind (P := DerD E d) (fun _ t g => g.moveTo t) (fun _ g => g.updateError) (fun _ g => g.derivAt) (fun _ _ g => g) o hd ⟨hd, fun g => absurd g hf⟩)
  have w1F : DerF E (wolfe1 E o s).1 := by
    cases hd : s.dir with
    | none => rw [(wolfe_none hd).1]; exact h
    | some d =>
      rcases w1 d hd with g | g
      · exact toF g
      · rw [g]; exact h
  have w2 : ∀ t : LS F X V, DerF E t → DerF E (wolfe2 E o t).1 := by
    intro t ht
    cases hd : t.dir with
    | none => rw [(wolfe_none hd).2.1]; exact ht
    | some d =>
      refine toF (d := d) (wolfe2_ind (P := DerD E d) (fun _ t g => g.moveTo t) (fun _ g => g.updateError) (fun _ g => g.derivAt) (fun _ _ g => g) o hd ⟨hd, fun g => ?_⟩)
      obtain ⟨d', e1, e2⟩ := ht g
      rw [hd] at e1
      cases e1
      exact e2
  cases p with
  | init d =>
    have hs := hfin _ he
    subst hs
    cases d with
    | none => simp [initialize', updateError, updateGradient, DerF]
    | some d => simp [initialize', setSearchDirection, updateError, updateGradient, DerF]
  | setDir d =>
    rw [hfin _ he]
    intro _
    refine ⟨d, rfl, ?_⟩
    show E.dot s.grad d = E.dot (E.grad s.x) d
    rw [hg d rfl]
  | apply t =>
    rw [hfin _ he]
    unfold applyStateUpdate
    dsimp only
    split_ifs
    · exact h
    · split
      · intro g; cases g
      · exact h
  | updError =>
    cases he
    unfold updateError
    split_ifs <;> exact h
  | updGradient => cases he; exact h
  | updDerivative =>
    rw [hfin _ he]
    unfold updateErrorDerivative
    split_ifs with hf
    · split
      · rename_i d hd
        exact fun _ => ⟨d, hd, rfl⟩
      · intro g
        have g' : s.derrOut = false := g
        rw [hf] at g'; cases g'
    · exact h
  | wolfe1 => rw [hfin _ he]; exact w1F
  | wolfe2 => rw [hfin _ he]; exact w2 s h
  | wolfe12 =>
    rw [hfin _ he]
    unfold wolfe12
    split
    · rename_i s1 hw
      obtain ⟨-, f2, d, hd⟩ := wolfe1_ok_flags hw
      apply w2
      intro _
      obtain ⟨d', e1, e2⟩ := h f2
      refine ⟨d', ?_, e2⟩
      show s1.dir = some d'
      rw [hd] at e1
      cases e1
      have hs1 : s1 = (wolfe1 E o s).1 := by rw [hw]
      rw [hs1]
      rcases w1 d hd with g | g
      · exact g.1
      · rw [g]; exact hd
    · exact w1F

/-- A history in which a new direction is only set while the stored gradient belongs to the design variables. -/
def Guarded (E : Env F X V) (o : Opt F) (nan : F) : LS F X V → List (Op F V) → Prop
  | _, [] => True
  | s, p :: ps => (∀ d, p = .setDir d → s.grad = E.grad s.x) ∧ ∀ s', exec E o nan s p = some s' → Guarded E o nan s' ps

/-- **C38, derivative (partial).** After any sequence of public calls in which directions are set only while the stored gradient is current, `getErrorDerivative`
throws or returns the directional derivative at the current design variables. Missing: a direction set after an `applyStateUpdate` (counterexample below). -/
theorem C38_derivative_partial (E : Env F X V) (o : Opt F) (nan : F) (s0 : LS F X V) (h0 : s0.derrOut = true) (ps : List (Op F V)) (s : LS F X V)
    (hg : Guarded E o nan s0 ps) (h : execs E o nan s0 ps = some s) :
    getErrorDerivative s = .exc ∨ ∃ d, s.dir = some d ∧ getErrorDerivative s = .ok (E.dot (E.grad s.x) d) := by
  have inv : ∀ (ps : List (Op F V)) (s0 : LS F X V), DerF E s0 → Guarded E o nan s0 ps → execs E o nan s0 ps = some s → DerF E s := by
    intro ps
    induction ps with
    | nil => intro s0 g _ h; cases h; exact g
    | cons p ps ih =>
      intro s0 g hg h
      simp only [execs, Option.bind_eq_some_iff] at h
      obtain ⟨s1, h1, h2⟩ := h
      exact ih s1 (g.exec hg.1 h1) (hg.2 s1 h1) h2
  have hf := inv ps s0 (fun g => by rw [h0] at g; cases g) hg h
  unfold getErrorDerivative
  cases ho : s.derrOut with
  | true => exact Or.inl rfl
  | false =>
    obtain ⟨d, e1, e2⟩ := hf ho
    refine Or.inr ⟨d, e1, ?_⟩
    rw [e2]; rfl

/-- A state reached from `initialize()` by rounds of setting a direction and searching successfully, as the BFGS optimizer does. -/
inductive Rounds (E : Env F X V) (o : Opt F) (nan : F) (s0 : LS F X V) : LS F X V → Prop where
  | init : Rounds E o nan s0 (initialize' E s0 none none none nan).1
  | next {s s1 s2 : LS F X V} (d : V) : Rounds E o nan s0 s → setSearchDirection E s d = (s1, .ok ()) → wolfe12 E o s1 = (s2, .ok true) →
      Rounds E o nan s0 s2

/-- **C38, gradient in search rounds.** After `initialize()` and any number of rounds of `setSearchDirection` and successful `lineSearchWolfe12`, the error and the
gradient handed out belong to the current design variables. -/
theorem C38_search_rounds (hsub : ∀ t : F, eq (sub t zero) zero = eq t zero) (E : Env F X V) (o : Opt F) (nan : F) (s0 s : LS F X V)
    (h : Rounds E o nan s0 s) : getError s = .ok (E.err s.x) ∧ s.grad = E.grad s.x := by
  have inv : s.errOut = false ∧ s.err = E.err s.x ∧ s.grad = E.grad s.x := by
    induction h with
    | init => simp [initialize', updateError, updateGradient]
    | @next t t1 t2 d _ h1 h2 ih =>
      obtain ⟨i1, i2, i3⟩ := ih
      have hc : Current E d t1 := by
        simp only [setSearchDirection, Prod.mk.injEq] at h1
        obtain ⟨rfl, -⟩ := h1
        exact ⟨i1, rfl, rfl, i2, i3, by rw [← i3]⟩
      obtain ⟨⟨a, -, b⟩, -⟩ := C37_wolfe12_curvature hsub E o d t1 t2 hc h2
      refine ⟨?_, a, b⟩
      unfold wolfe12 at h2
      split at h2
      · rename_i s1 hw
        have hc1 := wolfe1_current hc hw
        exact (wolfe2_spec hsub (s := restore t1 s1) ⟨hc1.dir, fun _ => hc.err, fun _ => hc.derr⟩ hc1.errOut rfl h2).2.1
      · exact (wolfe1_current hc h2).errOut
  refine ⟨?_, inv.2.2⟩
  unfold getError
  rw [inv.1, inv.2.1]; rfl

end history

/-! ### Concrete searches -/
section concrete

/-- A square root that the searches below never call on the way to their result. -/
local instance : Sq ℚ := ⟨fun _ => 0⟩

/-- The default options, LineSearch.hpp:182-190. -/
def defaults : Opt ℚ := ⟨1/10000, 9/10, 50, 1/100000000, 1/100000000000000, 1, 30, 10, 10⟩

/-- A one-dimensional objective with its derivative. -/
def env (f g : ℚ → ℚ) : Env ℚ ℚ ℚ := ⟨f, g, fun x t d => x + t * d, fun a b => a * b⟩

/-- An up-to-date search at `x` in direction `d`; the previous search started at error `eo`. -/
def start (E : Env ℚ ℚ ℚ) (x d eo : ℚ) : LS ℚ ℚ ℚ := ⟨x, some d, E.grad x, 0, E.err x, eo, E.dot (E.grad x) d, false, false⟩

theorem start_current (E : Env ℚ ℚ ℚ) (x d eo : ℚ) : Current E d (start E x d eo) := ⟨rfl, rfl, rfl, rfl, rfl, rfl⟩

/-- The hypotheses of `C37_wolfe1`, `C37_wolfe12_partial`, `C37_position` and `C76_trial_steps` are met by a search for the minimum of `x²` from 1. -/
example : defaults.check = true ∧ (start (env (fun x => x * x) (fun x => 2 * x)) 1 (-1) 2).step = 0 ∧
    (env (fun x => x * x) (fun x => 2 * x)).dot (2 * 1) (-1) < 0 ∧
    (wolfe1 (env (fun x => x * x) (fun x => 2 * x)) defaults (start (env (fun x => x * x) (fun x => 2 * x)) 1 (-1) 2)).2 = .ok true ∧
    (wolfe2 (env (fun x => x * x) (fun x => 2 * x)) defaults (start (env (fun x => x * x) (fun x => 2 * x)) 1 (-1) 2)).2 = .ok true ∧
    (wolfe12 (env (fun x => x * x) (fun x => 2 * x)) defaults (start (env (fun x => x * x) (fun x => 2 * x)) 1 (-1) 2)).1.x = 1 + 101/100 * (-1) := by
  decide +kernel

example (E : Env ℚ ℚ ℚ) (hE : E.upd = fun x t d => x + t * d) (d : ℚ) :
    (∀ x a b, E.upd (E.upd x a d) b d = E.upd x (a + b) d) ∧ ∀ x, E.upd x 0 d = x := by
  rw [hE]
  exact ⟨fun x a b => by ring, fun x => by ring⟩

/-- A polynomial. -/
def poly (x : ℚ) : ℚ := -x + 6279359/300000 * x^2 - 14640041/270000 * x^3 + 147480431/2700000 * x^4 - 131507/5400 * x^5 + 2714731/675000 * x^6

/-- Its derivative. -/
def poly' (x : ℚ) : ℚ := -1 + 2 * (6279359/300000) * x - 3 * (14640041/270000) * x^2 + 4 * (147480431/2700000) * x^3 - 5 * (131507/5400) * x^4 +
  6 * (2714731/675000) * x^5

/-- **C37 fails for the second method.** With the default options `lineSearchWolfe2` returns success at step length 3/2 for this polynomial although the sufficient-decrease
condition with `c1` does not hold there: `zoom` tests it with the derivative at the lower end of the interval instead of the one at the start of the search (L:603). -/
theorem C37_sufficient_decrease_counterexample :
    defaults.check = true ∧
    (wolfe2 (env poly poly') defaults (start (env poly poly') 0 1 1)).2 = .ok true ∧
    (wolfe2 (env poly poly') defaults (start (env poly poly') 0 1 1)).1.step = 3/2 ∧
    (wolfe2 (env poly poly') defaults (start (env poly poly') 0 1 1)).1.x = 3/2 ∧
    ¬ (poly (3/2) ≤ poly 0 + defaults.c1 * (3/2) * poly' 0) := by
  decide +kernel

/-- **C37 fails for a repeated search.** A second search without a new `setSearchDirection` starts from the old step length: here the first search has moved by 1/2,
the second reports success with step length 1 although it moved the variables by 1/2 only. -/
theorem C37_repeated_search_counterexample :
    let E := env (fun x => (x - 1) * (x - 1)) (fun x => 2 * (x - 1))
    let s := { start E (1/2) 1 (1/4 + 100/202) with step := 1/2 }
    Current E 1 s ∧ (wolfe1 E defaults s).2 = .ok true ∧ (wolfe1 E defaults s).1.step = 1 ∧ (wolfe1 E defaults s).1.x ≠ s.x + 1 * 1 := by
  refine ⟨⟨rfl, rfl, rfl, rfl, rfl, rfl⟩, ?_⟩
  decide +kernel

/-- An objective that is not a number beyond `x = 1/2`, with finite gradient. -/
def nanEnv : Env (Dbl ℚ) (Dbl ℚ) (Dbl ℚ) :=
  ⟨fun x => if Dbl.lt (.fin (1/2)) x then .nan else FloatLike.neg x, fun x => if Dbl.lt (.fin (1/2)) x then .fin 0 else .fin (-1),
    fun x t d => FloatLike.add x (FloatLike.mul t d), FloatLike.mul⟩

/-- The default options as numbers with special values. -/
def defaultsD : Opt (Dbl ℚ) :=
  ⟨.fin (1/10000), .fin (9/10), .fin 50, .fin (1/100000000), .fin (1/100000000000000), .fin 1, 30, 10, 10⟩

/-- **C37 fails for NaN.** The second method tests `error > bound` to reject: an error that is NaN passes, and success is reported with a NaN error. -/
theorem C37_nan_counterexample :
    let s : LS (Dbl ℚ) (Dbl ℚ) (Dbl ℚ) := ⟨.fin 0, some (.fin 1), .fin (-1), .fin 0, .fin 0, .nan, .fin (-1), false, false⟩
    defaultsD.check = true ∧ (wolfe2 nanEnv defaultsD s).2 = .ok true ∧ (wolfe2 nanEnv defaultsD s).1.err = .nan := by
  decide +kernel

/-- The hypothesis of `C38_search_rounds` on subtracting zero holds for numbers with special values. -/
example (t : Dbl ℚ) : FloatLike.eq (FloatLike.sub t zero) (zero : Dbl ℚ) = FloatLike.eq t zero := by
  show FloatLike.deq (Dbl.sub t (.fin (((0 : ℚ).num : ℚ) / ((0 : ℚ).den : ℚ)))) _ = FloatLike.deq t _
  cases t <;> simp [Dbl.sub]

/-- A new search object at 0, as constructed: both flags set. -/
def fresh : LS ℚ ℚ ℚ := ⟨0, none, 0, 0, 0, 0, 0, true, true⟩

/-- **C38 fails for directions set after a move.** `setSearchDirection` computes the derivative with the stored gradient and marks it as up to date, although the design variables have moved:
`getErrorDerivative` returns -2 where the derivative is 0. `getGradient` is wrong as well. -/
theorem C38_stale_counterexample :
    let E := env (fun x => (x - 1) * (x - 1)) (fun x => 2 * (x - 1))
    ∃ s, execs E defaults 0 fresh [.init (some 1), .apply 1, .setDir 1] = some s ∧ getErrorDerivative s = .ok (-2) ∧ E.dot (E.grad s.x) 1 = 0 ∧
      s.grad ≠ E.grad s.x := by
  refine ⟨⟨1, some 1, -2, 0, 1, 0, -2, true, false⟩, ?_⟩
  decide +kernel

/-- A history meeting the hypotheses of `C38_derivative_partial` and `C38_error`: a search, the gradient of its end, another search. -/
example : let E := env (fun x => (x - 3/2) * (x - 3/2)) (fun x => 2 * (x - 3/2))
    fresh.errOut = true ∧ fresh.derrOut = true ∧
    (∃ s, execs E defaults 0 fresh [.init (some 1), .apply (1/2), .updGradient, .setDir 1, .updError, .wolfe12] = some s ∧ s.x = 3/2 ∧ s.errOut = false) ∧
    Guarded E defaults 0 fresh [.init (some 1), .apply (1/2), .updGradient, .setDir 1, .updError, .wolfe12] := by
  refine ⟨rfl, rfl, ⟨⟨3/2, some 1, 0, 1, 0, 1, 0, false, false⟩, ?_⟩, ?_⟩
  · decide +kernel
  · refine ⟨by simp, fun s1 h1 => ⟨by simp, fun s2 h2 => ⟨by simp, fun s3 h3 => ⟨?_, fun s4 _ => ⟨by simp, fun s5 _ => ⟨by simp, fun _ _ => trivial⟩⟩⟩⟩⟩⟩
    intro d _
    cases h3
    rfl

/-- A round as in `C38_search_rounds`. -/
example : let E := env (fun x => x * x) (fun x => 2 * x)
    ∃ s, Rounds E defaults 0 { fresh with x := 1 } s ∧ s.x ≠ 1 := by
  refine ⟨⟨0, some (-1), 0, 1, 0, 1, 0, false, false⟩, .next (s1 := ⟨1, some (-1), 2, 0, 1, 0, -2, false, false⟩) (-1) .init ?_ ?_, ?_⟩ <;>
  decide +kernel

end concrete
end Verif.LineSearch
