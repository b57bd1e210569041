import Verif.LineSearch.Bracket

/-!
C99: how fast the first line-search method extrapolates while it has no bracket, and that it cannot do so for ever.
-/
namespace Verif.LineSearch
open FloatLike

variable {K : Type} [LinearOrder K] [Field K] [IsStrictOrderedRing K] [Sq K]

theorem dcstep_free {v : Iv K} {fp dp lo hi : K} (hb : (dcstep v fp dp lo hi).brackt = false) (hlt : v.stx < v.stp) :
    (dcstep v fp dp lo hi).stx = v.stp ∧ (lo ≤ hi → lo ≤ (dcstep v fp dp lo hi).stp ∧ (dcstep v fp dp lo hi).stp ≤ hi) := by
  unfold dcstep stepf at hb ⊢
  dsimp only at hb ⊢
  split_ifs at hb ⊢ <;> simp only [Bool.true_eq_false] at hb <;> dsimp only at hb ⊢
  · refine ⟨rfl, fun hl => ?_⟩
    rw [stepf3_exact]
    simp only [hb, Bool.false_eq_true, if_false]
    exact ⟨le_max_right _ _, max_le (min_le_left _ _) hl⟩
  · refine ⟨rfl, fun hl => ?_⟩
    rw [stepf4_exact]
    simp only [hb, Bool.false_eq_true, if_false, if_pos hlt]
    exact ⟨hl, le_refl _⟩

theorem interval_free {c : Dc K} {st : Nat} {e g : K} (hb : (c.interval st e g).brackt = false) (hlt : c.stx < c.step) :
    (c.interval st e g).stx = c.step ∧ (c.stmin ≤ c.stmax → c.stmin ≤ (c.interval st e g).stp ∧ (c.interval st e g).stp ≤ c.stmax) := by
  unfold Dc.interval at hb ⊢
  split_ifs at hb ⊢
  · exact dcstep_free hb hlt
  · exact dcstep_free hb hlt

/-- The limits for the next step while there is no bracket. -/
def Limits (hi : K) (c : Dc K) : Prop :=
  c.step = hi ∨ (c.stmax = c.step + 4 * (c.step - c.stx) ∧ (c.stmin = c.step + 11/10 * (c.step - c.stx) ∨ (c.stx = 0 ∧ c.stmin = 0)))

theorem lit4 : (lit 4 : K) = 4 := by rw [lit_cast]; norm_num
theorem lit11 : (lit (11/10) : K) = 11/10 := by rw [lit_cast]; norm_num

/-- An update without a bracket before and after. -/
theorem free_update {c : Dc K} {e g : K} (h0 : c.stage ≠ 0) (hrun : c.status' e g = .running) (hb' : (c.update e g).brackt = false)
    (hlt : c.stx < c.step) :
    (c.update e g).stx = c.step ∧ ∃ s, (c.stmin ≤ c.stmax → c.stmin ≤ s ∧ s ≤ c.stmax) ∧ (c.update e g).step = min (max s c.minS) c.maxS ∧
      (c.update e g).stmin = s + 11/10 * (s - c.step) ∧ (c.update e g).stmax = s + 4 * (s - c.step) := by
  rw [update_running h0 hrun] at hb' ⊢
  have hv : (c.interval (c.stage' e g) e g).brackt = false := hb'
  obtain ⟨h1, h2⟩ := interval_free hv hlt
  refine ⟨h1, (c.interval (c.stage' e g) e g).stp, h2, ?_, ?_, ?_⟩
  · simp [Dc.advance, Dc.force, Dc.bisect, hv, fmin_exact, fmax_exact]
  · simp [Dc.advance, Dc.bisect, hv, lit11, h1]
  · simp [Dc.advance, Dc.bisect, hv, lit4, h1]

theorem update_status {c : Dc K} {e g : K} (h0 : c.stage ≠ 0) (hr : (c.update e g).status = .running) : c.status' e g = .running := by
  by_contra h
  unfold Dc.update at hr
  rw [if_neg (by simpa using h0), if_pos h] at hr
  exact h hr

variable {φ φ' : K → K} {c1 c2 lo hi s0 xtol : K}

/-- Without a bracket after an update there was none before. -/
theorem free_before {c : Dc K} {e g : K} (h : (c.update e g).brackt = false) : c.brackt = false := by
  by_contra hb
  have hb : c.brackt = true := by simpa using hb
  unfold Dc.update at h
  split_ifs at h
  · rw [hb] at h; cases h
  · rw [hb] at h; cases h
  · have h : (c.interval (c.stage' e g) e g).brackt = false := h
    unfold Dc.interval dcstep stepf at h
    dsimp only at h
    split_ifs at h <;> simp [hb] at h

/-- A step without a bracket before and after, for a running search. -/
theorem free_step (hr : Root K) (h : Setup φ' c1 c2 lo hi s0) {c : Dc K} (hc : Searches φ φ' (Dc.new s0 (φ 0) (φ' 0) lo hi c1 xtol c2) c)
    (hrun : c.status = .running) (hne : φ' c.step ≠ 0) (h0 : c.stage ≠ 0) (hrun' : (c.update (φ c.step) (φ' c.step)).status = .running)
    (hb' : (c.update (φ c.step) (φ' c.step)).brackt = false) :
    (c.update (φ c.step) (φ' c.step)).stx = c.step ∧ c.step < (c.update (φ c.step) (φ' c.step)).step ∧ c.step ≠ hi ∧
      ∃ s, (c.stmin ≤ c.stmax → c.stmin ≤ s ∧ s ≤ c.stmax) ∧ (c.update (φ c.step) (φ' c.step)).step = min s hi ∧
        (c.update (φ c.step) (φ' c.step)).stmin = s + 11/10 * (s - c.step) ∧ (c.update (φ c.step) (φ' c.step)).stmax = s + 4 * (s - c.step) := by
  have hb := free_before hb'
  have e1 := C99_extrapolation hr h hc hrun hb
  have e2 := C99_extrapolation hr h (hc.update hrun hne) hrun' hb'
  have hinv := searches_inv hr h hc hrun
  obtain ⟨p1, s, p2, p3, p4, p5⟩ := free_update h0 (update_status h0 hrun') hb' e1.1
  rw [p1] at e2
  rw [hinv.minS, hinv.maxS] at p3
  refine ⟨p1, e2.1, fun hh => ?_, s, p2, ?_, p4, p5⟩
  · have := e2.1.trans_le e2.2.2.1
    rw [hh] at this
    exact lt_irrefl _ this
  · rw [p3]
    have : lo ≤ s := by
      by_contra hs
      rw [max_eq_right (not_le.1 hs).le] at p3
      have a := e2.1
      rw [p3] at a
      exact absurd (a.trans_le (min_le_left _ _)) (not_lt.2 e1.2.1)
    rw [max_eq_left this]

theorem limits (hr : Root K) (h : Setup φ' c1 c2 lo hi s0) {c : Dc K} (hc : Searches φ φ' (Dc.new s0 (φ 0) (φ' 0) lo hi c1 xtol c2) c)
    (hrun : c.status = .running) (hb : c.brackt = false) : Limits hi c ∧ 0 ≤ c.stx := by
  induction hc with
  | start =>
    have z : (zero : K) = 0 := zero_exact
    refine ⟨Or.inr ⟨?_, Or.inr ⟨z, z⟩⟩, z.ge⟩
    show s0 + lit 4 * s0 = s0 + 4 * (s0 - zero)
    rw [lit4, z, sub_zero]
  | @update c hc hr' hne ih =>
    have hb₀ := free_before hb
    obtain ⟨i1, i2⟩ := ih hr' hb₀
    by_cases h0 : c.stage = 0
    · rw [update_first h0]
      exact ⟨i1, i2⟩
    · have e1 := C99_extrapolation hr h hc hr' hb₀
      obtain ⟨p1, p2, p3, s, p4, p5, p6, p7⟩ := free_step hr h hc hr' hne h0 hrun hb
      refine ⟨?_, by rw [p1]; exact i2.trans e1.1.le⟩
      rcases le_total hi s with hs | hs
      · rw [min_eq_right hs] at p5
        exact Or.inl p5
      · rw [min_eq_left hs] at p5
        refine Or.inr ⟨?_, Or.inl ?_⟩
        · rw [p5, p1, p7]
        · rw [p5, p1, p6]

/-- **C99, extrapolation.** While there is no bracket, the next trial step is farther away: by at most four times the last increase, and from the third trial step on by at least
1.1 times the last increase or up to the limit. -/
theorem C99_growth (hr : Root K) (h : Setup φ' c1 c2 lo hi s0) {c : Dc K} (hc : Searches φ φ' (Dc.new s0 (φ 0) (φ' 0) lo hi c1 xtol c2) c)
    (hrun : c.status = .running) (hne : φ' c.step ≠ 0) (hrun' : (c.update (φ c.step) (φ' c.step)).status = .running)
    (hb' : (c.update (φ c.step) (φ' c.step)).brackt = false) (hmove : (c.update (φ c.step) (φ' c.step)).step ≠ c.step) :
    (c.update (φ c.step) (φ' c.step)).stx = c.step ∧ (c.update (φ c.step) (φ' c.step)).step ≤ c.step + 4 * (c.step - c.stx) ∧
      c.step < (c.update (φ c.step) (φ' c.step)).step ∧
      (0 < c.stx → min (c.step + 11/10 * (c.step - c.stx)) hi ≤ (c.update (φ c.step) (φ' c.step)).step) := by
  have h0 : c.stage ≠ 0 := fun h0 => hmove (by rw [update_first h0])
  have hb := free_before hb'
  have e1 := C99_extrapolation hr h hc hrun hb
  obtain ⟨p1, p2, p3, s, p4, p5, -, -⟩ := free_step hr h hc hrun hne h0 hrun' hb'
  obtain ⟨l1 | ⟨l1, l2⟩, l3⟩ := limits hr h hc hrun hb
  · exact absurd l1 p3
  have hlt := e1.1
  have hle : c.stmin ≤ c.stmax := by
    rcases l2 with l2 | ⟨l2, l2'⟩
    · linarith
    · linarith
  obtain ⟨q1, q2⟩ := p4 hle
  refine ⟨p1, ?_, p2, fun hpos => ?_⟩
  · rw [p5, ← l1]
    exact (min_le_left _ _).trans q2
  · rcases l2 with l2 | ⟨l2, -⟩
    · rw [p5, ← l2]
      exact min_le_min_right _ q1
    · exact absurd l2 hpos.ne'

/-- **C99, extrapolation ends.** No search goes on for ever without a bracket: after finitely many steps it has one, has ended, or is at a stationary point. -/
theorem C99_extrapolation_ends [Archimedean K] (hr : Root K) (h : Setup φ' c1 c2 lo hi s0) (c : Nat → Dc K) (h0 : c 0 = Dc.new s0 (φ 0) (φ' 0) lo hi c1 xtol c2)
    (hs : ∀ n, c (n + 1) = (c n).update (φ (c n).step) (φ' (c n).step)) :
    ∃ n, (c n).brackt = true ∨ (c n).status ≠ .running ∨ φ' (c n).step = 0 := by
  by_contra hcon
  push Not at hcon
  have hb : ∀ n, (c n).brackt = false := fun n => by simpa using (hcon n).1
  have hrun : ∀ n, (c n).status = .running := fun n => (hcon n).2.1
  have hne : ∀ n, φ' (c n).step ≠ 0 := fun n => (hcon n).2.2
  have hS : ∀ n, Searches φ φ' (Dc.new s0 (φ 0) (φ' 0) lo hi c1 xtol c2) (c n) := by
    intro n
    induction n with
    | zero => rw [h0]; exact .start
    | succ n ih => rw [hs]; exact ih.update (hrun n) (hne n)
  have hst : ∀ n, (c (n + 1)).stage ≠ 0 := by
    intro n
    rw [hs]
    unfold Dc.update
    split_ifs with q1 q2
    · simp
    · have : (c n).stage ≠ 0 := by simpa using q1
      simp only [Dc.stage']
      split_ifs <;> simp [this]
    · have : (c n).stage ≠ 0 := by simpa using q1
      simp only [Dc.advance, Dc.stage']
      split_ifs <;> simp [this]
  have hst' : ∀ n, (c (n + 2)).stx = (c (n + 1)).step ∧ (c (n + 1)).step < (c (n + 2)).step ∧ (c (n + 1)).step ≠ hi := by
    intro n
    have a := free_step hr h (hS (n + 1)) (hrun _) (hne _) (hst n) (by rw [← hs]; exact hrun _) (by rw [← hs]; exact hb _)
    rw [← hs (n + 1)] at a
    exact ⟨a.1, a.2.1, a.2.2.1⟩
  have hpos : ∀ n, 0 < (c (n + 2)).stx := by
    intro n
    rw [(hst' n).1]
    have := (limits hr h (hS (n + 1)) (hrun _) (hb _)).2
    exact this.trans_lt (C99_extrapolation hr h (hS (n + 1)) (hrun _) (hb _)).1
  have hinc : ∀ n, 11/10 * ((c (n + 2)).step - (c (n + 2)).stx) ≤ (c (n + 3)).step - (c (n + 3)).stx := by
    intro n
    have q := hst' (n + 1)
    have a := C99_growth hr h (hS (n + 2)) (hrun _) (hne _) (by rw [← hs]; exact hrun _) (by rw [← hs]; exact hb _) (by rw [← hs]; exact q.2.1.ne')
    rw [← hs (n + 2)] at a
    have b := a.2.2.2 (hpos n)
    have hlt : (c (n + 3)).step < hi :=
      lt_of_le_of_ne (C99_extrapolation hr h (hS (n + 3)) (hrun _) (hb _)).2.2.1 (hst' (n + 2)).2.2
    rw [q.1]
    rcases min_le_iff.1 b with b | b
    · linarith
    · exact absurd hlt (not_lt.2 b)
  set d := (c 2).step - (c 2).stx with hd
  have hd0 : 0 < d := sub_pos.2 (C99_extrapolation hr h (hS 2) (hrun _) (hb _)).1
  have hall : ∀ n : Nat, d ≤ (c (n + 2)).step - (c (n + 2)).stx := by
    intro n
    induction n with
    | zero => exact le_refl _
    | succ n ih => linarith [hinc n]
  have hsum : ∀ n : Nat, n * d ≤ (c (n + 2)).step := by
    intro n
    induction n with
    | zero =>
      have := (limits hr h (hS 2) (hrun _) (hb _)).2
      have := (C99_extrapolation hr h (hS 2) (hrun _) (hb _)).1
      simp only [Nat.cast_zero, zero_mul]
      linarith
    | succ n ih =>
      have a := hall (n + 1)
      rw [(hst' (n + 1)).1] at a
      push_cast
      have e : c (n + 1 + 2) = c (n + 3) := rfl
      linarith
  obtain ⟨N, hN⟩ := exists_nat_gt (hi / d)
  have h1 := hsum N
  have h2 := (C99_extrapolation hr h (hS (N + 2)) (hrun _) (hb _)).2.2.1
  rw [div_lt_iff₀ hd0] at hN
  linarith

section example1
noncomputable local instance : Sq ℝ := ⟨Real.sqrt⟩

/-- The cost `-t`: the steps are 1, 5 and then the limit 10. -/
theorem falling : Setup (fun _ => (-1 : ℝ)) (1/10000) (9/10) 0 10 1 := by constructor <;> norm_num

noncomputable def fall0 : Dc ℝ := ⟨false, .running, 1, 1/1000, 0, 10, 1, 0, 0, 0, -1/10000, 9/10, -1, -1, 0, 0, 0, 5, 10, 20⟩

theorem fall_first (e g : ℝ) : (Dc.new 1 0 (-1) 0 10 (1/10000) (1/1000) (9/10) : Dc ℝ).update e g = fall0 := by
  rw [update_first rfl]
  have z : (zero : ℝ) = 0 := zero_exact
  have l2 : (lit 2 : ℝ) = 2 := lit2
  have l4 : (lit 4 : ℝ) = 4 := lit4
  simp only [Dc.new, fall0, z, l2, l4]
  norm_num

theorem fall_second : (fall0.update (-1) (-1)).step = 5 ∧ (fall0.update (-1) (-1)).brackt = false ∧ (fall0.update (-1) (-1)).status = .running := by
  have hs : fall0.status' (-1) (-1) = .running := by
    have z : (zero : ℝ) = 0 := zero_exact
    simp [Dc.status', Dc.conv, Dc.warns, Dc.ftest, fall0, FloatLike.le, FloatLike.lt, FloatLike.eq, FloatLike.abs]
    norm_num
  have hst : fall0.stage' (-1) (-1) = 1 := by
    have z : (zero : ℝ) = 0 := zero_exact
    simp [Dc.stage', fall0, z, FloatLike.le]
  have hi : fall0.interval 1 (-1) (-1) = ⟨1, -1, -1, 0, 0, -1, 5, false⟩ := by
    unfold Dc.interval
    rw [if_neg (by simp [Dc.ftest, fall0, FloatLike.le, FloatLike.lt]; norm_num)]
    rw [dcstep_on (by norm_num [fall0]) (by norm_num [fall0]), if_neg (by norm_num [fall0]), stepf4_exact]
    simp [fall0]
  refine ⟨?_, ?_, ?_⟩ <;> rw [update_running (by simp [fall0]) hs, hst, hi]
  · simp [Dc.advance, Dc.force, Dc.bisect, fmin_exact, fmax_exact, fall0]
    norm_num
  · rfl
  · rfl

example : (fall0.update (-1) (-1)).stx = 1 ∧ (fall0.update (-1) (-1)).step ≤ 1 + 4 * (1 - 0) := by
  have h := C99_growth (φ := fun t => -t) (xtol := 1/1000) root_real falling (c := fall0)
    (by
      have := Searches.update (φ := fun t : ℝ => -t) (φ' := fun _ => -1) (c0 := Dc.new 1 0 (-1) 0 10 (1/10000) (1/1000) (9/10)) .start rfl (by norm_num)
      rw [fall_first] at this
      simpa using this) rfl (by norm_num)
    fall_second.2.2 fall_second.2.1 (by show (fall0.update (-1) (-1)).step ≠ 1; rw [fall_second.1]; norm_num)
  exact ⟨h.1, h.2.1⟩

end example1

end Verif.LineSearch
