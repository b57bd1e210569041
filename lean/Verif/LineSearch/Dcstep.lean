import Verif.LineSearch.Zoom

/-!
C99, first part: where the four interpolation cases of `dcstep` put the next trial step.
-/
namespace Verif.LineSearch
open FloatLike

variable {K : Type} [LinearOrder K] [Field K] [IsStrictOrderedRing K] [Sq K]

/-- Not code: the cubic step from `a` towards `b` with the fraction computed by `dcstep`, `g` being its `gamma`. -/
def cubicFraction (th g da db : K) : K := ((g - da) + th) / (((g - da) + g) + db)

theorem lit3 : (lit 3 : K) = 3 := by rw [lit_cast]; norm_num
theorem lit2 : (lit 2 : K) = 2 := by rw [lit_cast]; norm_num
theorem lit1 : (lit 1 : K) = 1 := by rw [lit_cast]; norm_num
theorem lit66 : (lit (66/100) : K) = 66/100 := by rw [lit_cast]; norm_num

omit [Sq K] in
/-- The two inequalities behind every cubic step. -/
theorem core {D P T g : K} (hD : 0 < D) (hg : 0 ≤ g) (hgg : g * g = T * T - D * P) (hT : P < 0 ∨ D / 2 + P < T) :
    0 < g + D - T ∧ 0 < g + T - P := by
  by_cases hP : P < 0
  · have h1 : T * T < g * g := by nlinarith
    have h2 : T < g := by
      by_contra hc
      have hc := not_lt.mp hc
      nlinarith
    have h3 : -T < g := by
      by_contra hc
      have hc := not_lt.mp hc
      nlinarith
    constructor <;> linarith
  · have hP' := not_lt.mp hP
    have hT' := hT.resolve_left hP
    constructor
    · by_contra hc
      have hc := not_lt.mp hc
      have h1 : g ≤ T - D := by linarith
      have h2 : g * g ≤ (T - D) * (T - D) := mul_le_mul h1 h1 hg (hg.trans h1)
      have h3 : 0 < D * (2 * T - P - D) := mul_pos hD (by linarith)
      nlinarith
    · linarith

omit [Sq K] in
theorem core_disc {D P T : K} (hD : 0 < D) (hT : P < 0 ∨ D / 2 + P < T) : 0 ≤ T * T - D * P := by
  by_cases hP : P < 0
  · nlinarith [mul_self_nonneg T, mul_pos hD (neg_pos.mpr hP)]
  · have hP' := not_lt.mp hP
    have hT' := hT.resolve_left hP
    have h : (D / 2 + P) * (D / 2 + P) ≤ T * T := mul_self_le_mul_self (by linarith) hT'.le
    nlinarith [mul_self_nonneg D, mul_self_nonneg P]

/-- `gamma` before its sign is set. -/
def gamma0 (th da db : K) : K :=
  let s := max |th| (max |da| |db|)
  s * Sq.sq ((th * (1 / s)) * (th * (1 / s)) - (da * (1 / s)) * (db * (1 / s)))

theorem gamma0_spec (hr : Root K) {th da db : K} (hda : da ≠ 0) (h : 0 ≤ th * th - da * db) :
    0 ≤ gamma0 th da db ∧ gamma0 th da db * gamma0 th da db = th * th - da * db := by
  unfold gamma0
  dsimp only
  have hs : 0 < max |th| (max |da| |db|) := lt_max_of_lt_right (lt_max_of_lt_left (abs_pos.mpr hda))
  generalize max |th| (max |da| |db|) = s at hs
  have e : (th * (1 / s)) * (th * (1 / s)) - (da * (1 / s)) * (db * (1 / s)) = (th * th - da * db) / (s * s) := by
    have := hs.ne'
    field_simp
  rw [e]
  have h0 : 0 ≤ (th * th - da * db) / (s * s) := div_nonneg h (mul_self_nonneg s)
  refine ⟨mul_nonneg hs.le (hr.nonneg _), ?_⟩
  have h1 := hr.sq _ h0
  have e2 : s * Sq.sq ((th * th - da * db) / (s * s)) * (s * Sq.sq ((th * th - da * db) / (s * s))) =
      s * s * (Sq.sq ((th * th - da * db) / (s * s)) * Sq.sq ((th * th - da * db) / (s * s))) := by ring
  rw [e2, h1]
  have := hs.ne'
  field_simp

omit [Sq K] in
theorem fraction_pos {n m : K} (hn : 0 < n) (hm : 0 < m) : 0 < n / (n + m) ∧ n / (n + m) < 1 :=
  ⟨div_pos hn (by linarith), by rw [div_lt_one (by linarith)]; linarith⟩

/-- The cubic step away from an end `a` where the cost falls towards `b`, cases 1 and 4; `rev` says that `b < a`. -/
theorem cubic_fraction (hr : Root K) {a b fa fb da db : K} (hd : da * (b - a) < 0) (hf : 6 * (fa - fb) < -(da * (b - a))) :
    let th := 3 * (fa - fb) / (b - a) + da + db
    let g := if b < a then -gamma0 th da db else gamma0 th da db
    0 < cubicFraction th g da db ∧ cubicFraction th g da db < 1 := by
  intro th g
  have hda : da ≠ 0 := by rintro rfl; simp at hd
  rcases lt_trichotomy b a with hba | rfl | hab
  · have hh : b - a < 0 := sub_neg.mpr hba
    have hda' : 0 < da := by
      by_contra hc
      have := mul_nonneg_of_nonpos_of_nonpos (not_lt.mp hc) hh.le
      linarith
    have key : db < 0 ∨ da / 2 + db < th := by
      right
      have : 3 * (fa - fb) / (b - a) > -(da / 2) := by
        rw [gt_iff_lt, lt_div_iff_of_neg hh]
        linarith
      simp only [th]; linarith
    obtain ⟨g1, g2⟩ := gamma0_spec (db := db) hr hda (core_disc hda' key)
    obtain ⟨c1, c2⟩ := core hda' g1 g2 key
    have e : cubicFraction th g da db = (gamma0 th da db + da - th) / ((gamma0 th da db + da - th) + (gamma0 th da db + th - db)) := by
      simp only [cubicFraction, g, if_pos hba]
      rw [← neg_div_neg_eq]
      congr 1 <;> ring
    rw [e]
    exact fraction_pos c1 c2
  · simp at hd
  · have hh : 0 < b - a := sub_pos.mpr hab
    have hda' : 0 < -da := by
      by_contra hc
      have := mul_nonneg (by linarith : 0 ≤ da) hh.le
      linarith
    have key : -db < 0 ∨ -da / 2 + -db < -th := by
      right
      have : 3 * (fa - fb) / (b - a) < -da / 2 := by
        rw [div_lt_iff₀ hh]
        linarith
      simp only [th]; linarith
    have hdisc : 0 ≤ th * th - da * db := by
      have := core_disc hda' key
      linarith [neg_mul_neg th th, neg_mul_neg da db]
    obtain ⟨g1, g2⟩ := gamma0_spec (db := db) hr hda hdisc
    obtain ⟨c1, c2⟩ := core (T := -th) (P := -db) hda' g1 (by rw [g2]; ring) key
    have e : cubicFraction th g da db = (gamma0 th da db + -da - -th) / ((gamma0 th da db + -da - -th) + (gamma0 th da db + -th - -db)) := by
      simp only [cubicFraction, g, if_neg (not_lt.mpr hab.le)]
      congr 1 <;> ring
    rw [e]
    exact fraction_pos c1 c2

/-- The cubic step back from `b`, where the derivative has the other sign, case 2. -/
theorem cubic_fraction_back (hr : Root K) {a b fa fb da db : K} (hd : da * (b - a) < 0) (hs : db * da < 0) :
    let th := 3 * (fa - fb) / (b - a) + da + db
    let g := if a < b then -gamma0 th da db else gamma0 th da db
    0 < cubicFraction th g db da ∧ cubicFraction th g db da < 1 := by
  intro th g
  have hda : da ≠ 0 := by rintro rfl; simp at hd
  have hdisc : 0 ≤ th * th - da * db := by nlinarith [mul_self_nonneg th]
  obtain ⟨g1, g2⟩ := gamma0_spec (db := db) hr hda hdisc
  rcases lt_trichotomy b a with hba | rfl | hab
  · have hh : b - a < 0 := sub_neg.mpr hba
    have hda' : 0 < da := by
      by_contra hc
      have := mul_nonneg_of_nonpos_of_nonpos (not_lt.mp hc) hh.le
      linarith
    have hdb : 0 < -db := by
      by_contra hc
      have := mul_nonneg (by linarith : 0 ≤ db) hda'.le
      linarith
    obtain ⟨c1, c2⟩ := core (T := -th) (P := -da) hdb g1 (by rw [g2]; ring) (Or.inl (by linarith))
    have e : cubicFraction th g db da = (gamma0 th da db + -db - -th) / ((gamma0 th da db + -db - -th) + (gamma0 th da db + -th - -da)) := by
      simp only [cubicFraction, g, if_neg (not_lt.mpr hba.le)]
      congr 1 <;> ring
    rw [e]
    exact fraction_pos c1 c2
  · simp at hd
  · have hh : 0 < b - a := sub_pos.mpr hab
    have hda' : da < 0 := by
      by_contra hc
      have := mul_nonneg (not_lt.mp hc) hh.le
      linarith
    have hdb : 0 < db := by
      by_contra hc
      have := mul_nonneg_of_nonpos_of_nonpos (not_lt.mp hc) hda'.le
      linarith
    obtain ⟨c1, c2⟩ := core (T := th) (P := da) hdb g1 (by rw [g2]; ring) (Or.inl hda')
    have e : cubicFraction th g db da = (gamma0 th da db + db - th) / ((gamma0 th da db + db - th) + (gamma0 th da db + th - da)) := by
      simp only [cubicFraction, g, if_pos hab]
      rw [← neg_div_neg_eq]
      congr 1 <;> ring
    rw [e]
    exact fraction_pos c1 c2

theorem scaleS_exact (th da db : K) : scaleS th da db = max |th| (max |da| |db|) := by
  unfold scaleS
  rw [fmax_exact, fmax_exact]
  rfl

theorem theta_exact (num den da db : K) : theta num den da db = 3 * num / den + da + db := by
  show (lit 3 : K) * num / den + da + db = _
  rw [lit3]

theorem ite_decide {α : Type} (p : Prop) [Decidable p] (a b : α) : (if decide p = true then a else b) = if p then a else b := by
  by_cases h : p <;> simp [h]

theorem stepf1_exact (v : Iv K) (fp dp : K) :
    stepf1 v fp dp =
      let th := 3 * (v.fx - fp) / (v.stp - v.stx) + v.dx + dp
      let g := if v.stp < v.stx then -gamma0 th v.dx dp else gamma0 th v.dx dp
      let stpc := v.stx + cubicFraction th g v.dx dp * (v.stp - v.stx)
      let stpq := v.stx + ((v.dx / ((v.fx - fp) / (v.stp - v.stx) + v.dx)) / 2) * (v.stp - v.stx)
      if |stpc - v.stx| < |stpq - v.stx| then stpc else stpc + (stpq - stpc) / 2 := by
  have h : stepf1 v fp dp =
      let th := theta (v.fx - fp) (v.stp - v.stx) v.dx dp
      let s := scaleS th v.dx dp
      let g0 := s * Sq.sq ((th * ((lit 1 : K) / s)) * (th * ((lit 1 : K) / s)) - (v.dx * ((lit 1 : K) / s)) * (dp * ((lit 1 : K) / s)))
      let g := if decide (v.stp < v.stx) = true then -g0 else g0
      let stpc := v.stx + cubicFraction th g v.dx dp * (v.stp - v.stx)
      let stpq := v.stx + ((v.dx / ((v.fx - fp) / (v.stp - v.stx) + v.dx)) / (lit 2 : K)) * (v.stp - v.stx)
      if decide (|stpc - v.stx| < |stpq - v.stx|) = true then stpc else stpc + (stpq - stpc) / (lit 2 : K) := rfl
  rw [h, lit1, lit2]
  simp only [theta_exact, scaleS_exact, ite_decide]
  rfl

theorem stepf2_exact (v : Iv K) (fp dp : K) :
    stepf2 v fp dp =
      let th := 3 * (v.fx - fp) / (v.stp - v.stx) + v.dx + dp
      let g := if v.stx < v.stp then -gamma0 th v.dx dp else gamma0 th v.dx dp
      let stpc := v.stp + cubicFraction th g dp v.dx * (v.stx - v.stp)
      let stpq := v.stp + (dp / (dp - v.dx)) * (v.stx - v.stp)
      if |stpq - v.stp| < |stpc - v.stp| then stpc else stpq := by
  have h : stepf2 v fp dp =
      let th := theta (v.fx - fp) (v.stp - v.stx) v.dx dp
      let s := scaleS th v.dx dp
      let g0 := s * Sq.sq ((th * ((lit 1 : K) / s)) * (th * ((lit 1 : K) / s)) - (v.dx * ((lit 1 : K) / s)) * (dp * ((lit 1 : K) / s)))
      let g := if decide (v.stx < v.stp) = true then -g0 else g0
      let stpc := v.stp + cubicFraction th g dp v.dx * (v.stx - v.stp)
      let stpq := v.stp + (dp / (dp - v.dx)) * (v.stx - v.stp)
      if decide (|stpq - v.stp| < |stpc - v.stp|) = true then stpc else stpq := rfl
  rw [h, lit1]
  simp only [theta_exact, scaleS_exact, ite_decide]
  rfl

theorem stepf4_exact (v : Iv K) (fp dp lo hi : K) :
    stepf4 v fp dp lo hi =
      if v.brackt = true then
        let th := 3 * (fp - v.fy) / (v.sty - v.stp) + v.dy + dp
        let g := if v.sty < v.stp then -gamma0 th v.dy dp else gamma0 th v.dy dp
        v.stp + cubicFraction th g dp v.dy * (v.sty - v.stp)
      else if v.stx < v.stp then hi else lo := by
  have h : stepf4 v fp dp lo hi =
      if v.brackt = true then
        let th := theta (fp - v.fy) (v.sty - v.stp) v.dy dp
        let s := scaleS th v.dy dp
        let g0 := s * Sq.sq ((th * ((lit 1 : K) / s)) * (th * ((lit 1 : K) / s)) - (v.dy * ((lit 1 : K) / s)) * (dp * ((lit 1 : K) / s)))
        let g := if decide (v.sty < v.stp) = true then -g0 else g0
        v.stp + cubicFraction th g dp v.dy * (v.sty - v.stp)
      else if decide (v.stx < v.stp) = true then hi else lo := rfl
  rw [h, lit1]
  simp only [theta_exact, scaleS_exact, ite_decide]
  rfl

/-- The candidate of the third case computed by the cubic. -/
def cubic3 (v : Iv K) (fp dp lo hi : K) : K :=
  let th := theta (v.fx - fp) (v.stp - v.stx) v.dx dp
  let s := scaleS th v.dx dp
  let srec := (lit 1 : K) / s
  let g0 := s * Sq.sq (fmax zero ((th * srec) * (th * srec) - (v.dx * srec) * (dp * srec)))
  let g := if decide (v.stx < v.stp) = true then -g0 else g0
  let r := ((g - dp) + th) / ((g + (v.dx - dp)) + g)
  if (decide (r < zero) && !decide (g = zero)) = true then v.stp + r * (v.stx - v.stp)
  else if v.stx < v.stp then hi else lo

theorem stepf3_exact (v : Iv K) (fp dp lo hi : K) :
    stepf3 v fp dp lo hi =
      let stpc := cubic3 v fp dp lo hi
      let stpq := v.stp + (dp / (dp - v.dx)) * (v.stx - v.stp)
      if v.brackt = true then
        let c := if |stpc - v.stp| < |stpq - v.stp| then stpc else stpq
        if v.stx < v.stp then min (v.stp + 66/100 * (v.sty - v.stp)) c else max (v.stp + 66/100 * (v.sty - v.stp)) c
      else
        let c := if |stpq - v.stp| < |stpc - v.stp| then stpc else stpq
        max (min hi c) lo := by
  have h : stepf3 v fp dp lo hi =
      let th := theta (v.fx - fp) (v.stp - v.stx) v.dx dp
      let s := scaleS th v.dx dp
      let srec := (lit 1 : K) / s
      let g0 := s * Sq.sq (fmax zero ((th * srec) * (th * srec) - (v.dx * srec) * (dp * srec)))
      let g := if decide (v.stx < v.stp) = true then -g0 else g0
      let r := ((g - dp) + th) / ((g + (v.dx - dp)) + g)
      let stpc := if (decide (r < zero) && !decide (g = zero)) = true then v.stp + r * (v.stx - v.stp)
        else if decide (v.stx < v.stp) = true then hi else lo
      let stpq := v.stp + (dp / (dp - v.dx)) * (v.stx - v.stp)
      if v.brackt = true then
        let c := if decide (|stpc - v.stp| < |stpq - v.stp|) = true then stpc else stpq
        if decide (v.stx < v.stp) = true then fmin (v.stp + (lit (66/100) : K) * (v.sty - v.stp)) c
        else fmax (v.stp + (lit (66/100) : K) * (v.sty - v.stp)) c
      else
        let c := if decide (|stpq - v.stp| < |stpc - v.stp|) = true then stpc else stpq
        fmax (fmin hi c) lo := rfl
  rw [h, lit66]
  simp only [fmin_exact, fmax_exact, ite_decide, cubic3]

/-- Case 1: the next trial step lies between the best step and the current one. -/
theorem stepf1_between (hr : Root K) {v : Iv K} {fp dp : K} (hd : v.dx * (v.stp - v.stx) < 0) (hf : v.fx < fp) :
    ∃ t, 0 < t ∧ t < 1 ∧ stepf1 v fp dp = v.stx + t * (v.stp - v.stx) := by
  rw [stepf1_exact]
  dsimp only
  have hc := cubic_fraction (db := dp) hr hd (fa := v.fx) (fb := fp) (by linarith)
  dsimp only at hc
  generalize cubicFraction _ _ v.dx dp = r at hc ⊢
  obtain ⟨h1, h2⟩ := hc
  have hne : v.stp - v.stx ≠ 0 := by intro h; rw [h] at hd; simp at hd
  have hq : 0 < (v.dx / ((v.fx - fp) / (v.stp - v.stx) + v.dx)) / 2 ∧ (v.dx / ((v.fx - fp) / (v.stp - v.stx) + v.dx)) / 2 < 1 := by
    have e : v.dx / ((v.fx - fp) / (v.stp - v.stx) + v.dx) = -(v.dx * (v.stp - v.stx)) / (-(v.dx * (v.stp - v.stx)) + (fp - v.fx)) := by
      have h3 : (v.fx - fp) / (v.stp - v.stx) + v.dx = -(-(v.dx * (v.stp - v.stx)) + (fp - v.fx)) / (v.stp - v.stx) := by
        field_simp
        ring
      have h4 : -(v.dx * (v.stp - v.stx)) + (fp - v.fx) ≠ 0 := by
        have : 0 < -(v.dx * (v.stp - v.stx)) + (fp - v.fx) := by linarith
        exact this.ne'
      rw [h3]
      field_simp
    rw [e]
    have := fraction_pos (n := -(v.dx * (v.stp - v.stx))) (m := fp - v.fx) (by linarith) (by linarith)
    constructor <;> linarith [this.1, this.2]
  generalize (v.dx / ((v.fx - fp) / (v.stp - v.stx) + v.dx)) / 2 = q at hq ⊢
  split_ifs
  · exact ⟨r, h1, h2, rfl⟩
  · exact ⟨(r + q) / 2, by linarith [hq.1], by linarith [hq.2], by ring⟩

/-- Case 2: it lies between the current step and the best one so far. -/
theorem stepf2_between (hr : Root K) {v : Iv K} {fp dp : K} (hd : v.dx * (v.stp - v.stx) < 0) (hs : dp * v.dx < 0) :
    ∃ t, 0 < t ∧ t < 1 ∧ stepf2 v fp dp = v.stp + t * (v.stx - v.stp) := by
  rw [stepf2_exact]
  dsimp only
  have hc := cubic_fraction_back hr hd hs (fa := v.fx) (fb := fp)
  dsimp only at hc
  generalize cubicFraction _ _ dp v.dx = r at hc ⊢
  have hq : 0 < dp / (dp - v.dx) ∧ dp / (dp - v.dx) < 1 := by
    have hdp : dp ≠ 0 := by rintro rfl; simp at hs
    rcases lt_or_gt_of_ne hdp with h | h
    · have h' : 0 < v.dx := by
        by_contra hc
        have := mul_nonneg_of_nonpos_of_nonpos h.le (not_lt.mp hc)
        linarith
      have := fraction_pos (n := -dp) (m := v.dx) (by linarith) h'
      have e : dp / (dp - v.dx) = -dp / (-dp + v.dx) := by
        rw [← neg_div_neg_eq]; congr 1; ring
      rw [e]; exact this
    · have h' : 0 < -v.dx := by
        by_contra hc
        have := mul_nonneg h.le (by linarith : 0 ≤ v.dx)
        linarith
      have := fraction_pos h h'
      rwa [← sub_eq_add_neg] at this
  generalize dp / (dp - v.dx) = q at hq ⊢
  split_ifs
  · exact ⟨r, hc.1, hc.2, rfl⟩
  · exact ⟨q, hq.1, hq.2, rfl⟩

/-- Case 4 with a bracket: it lies between the current step and the other end. -/
theorem stepf4_between (hr : Root K) {v : Iv K} {fp dp lo hi : K} (hb : v.brackt = true) (hd : dp * (v.sty - v.stp) < 0)
    (hf : 6 * (fp - v.fy) < -(dp * (v.sty - v.stp))) :
    ∃ t, 0 < t ∧ t < 1 ∧ stepf4 v fp dp lo hi = v.stp + t * (v.sty - v.stp) := by
  rw [stepf4_exact, if_pos hb]
  dsimp only
  have hc := cubic_fraction (db := v.dy) hr hd hf
  dsimp only at hc
  have e : 3 * (fp - v.fy) / (v.sty - v.stp) + v.dy + dp = 3 * (fp - v.fy) / (v.sty - v.stp) + dp + v.dy := by ring
  have e2 : ∀ th : K, gamma0 th v.dy dp = gamma0 th dp v.dy := by
    intro th
    unfold gamma0
    dsimp only
    rw [max_comm |v.dy| |dp|]
    congr 2
    ring
  rw [e, e2]
  exact ⟨_, hc.1, hc.2, rfl⟩

omit [Sq K] in
theorem secant3 {dx dp : K} (hs : 0 < dp * dx) (ha : |dp| < |dx|) : dp / (dp - dx) < 0 := by
  have hdp : dp ≠ 0 := by rintro rfl; simp at hs
  rcases lt_or_gt_of_ne hdp with h | h
  · have h' : dx < 0 := by
      by_contra hc
      have := mul_nonpos_of_nonpos_of_nonneg h.le (not_lt.mp hc)
      linarith
    rw [abs_of_neg h, abs_of_neg h'] at ha
    exact div_neg_of_neg_of_pos h (by linarith)
  · have h' : 0 < dx := by
      by_contra hc
      have := mul_nonpos_of_nonneg_of_nonpos h.le (not_lt.mp hc)
      linarith
    rw [abs_of_pos h, abs_of_pos h'] at ha
    exact div_neg_of_pos_of_neg h (by linarith)

theorem cubic3_beyond (v : Iv K) (fp dp lo hi : K) :
    (∃ r, r < 0 ∧ cubic3 v fp dp lo hi = v.stp + r * (v.stx - v.stp)) ∨
      cubic3 v fp dp lo hi = if v.stx < v.stp then hi else lo := by
  unfold cubic3
  dsimp only
  generalize (if decide (v.stx < v.stp) = true then -(_ : K) else _) = g
  generalize (g - dp + theta (v.fx - fp) (v.stp - v.stx) v.dx dp) / (g + (v.dx - dp) + g) = r
  by_cases h : (decide (r < zero) && !decide (g = zero)) = true
  · left
    have h1 := of_decide_eq_true (Bool.and_eq_true _ _ ▸ h : _ ∧ _).1
    rw [zero_exact] at h1
    exact ⟨r, h1, by rw [if_pos h]⟩
  · right; rw [if_neg h]

/-- Case 3 with a bracket: it lies between the current step and the other end, at most two thirds of the way. -/
theorem stepf3_between {v : Iv K} {fp dp lo hi : K} (hb : v.brackt = true) (hs : 0 < dp * v.dx) (ha : |dp| < |v.dx|)
    (ho : 0 < (v.sty - v.stp) * (v.stp - v.stx)) (hlo : v.stp < v.stx → lo < v.stp) (hhi : v.stx < v.stp → v.stp < hi) :
    ∃ t, 0 < t ∧ t < 1 ∧ stepf3 v fp dp lo hi = v.stp + t * (v.sty - v.stp) := by
  rw [stepf3_exact, if_pos hb]
  dsimp only
  have hq := secant3 hs ha
  have hc := cubic3_beyond v fp dp lo hi
  generalize cubic3 v fp dp lo hi = x at hc ⊢
  generalize dp / (dp - v.dx) = q at hq ⊢
  have hne : v.stp ≠ v.stx := by intro h; rw [h] at ho; simp at ho
  rcases lt_or_gt_of_ne hne with h | h
  · rw [if_neg (not_lt.mpr h.le)] at hc ⊢
    have hy : v.sty - v.stp < 0 := by
      by_contra hc
      have := mul_nonpos_of_nonneg_of_nonpos (not_lt.mp hc) (sub_neg.mpr h).le
      linarith
    have hx : x < v.stp := by
      rcases hc with ⟨r, r0, rfl⟩ | rfl
      · have := mul_neg_of_neg_of_pos r0 (sub_pos.mpr h); linarith
      · exact hlo h
    have hz : v.stp + q * (v.stx - v.stp) < v.stp := by
      have := mul_neg_of_neg_of_pos hq (sub_pos.mpr h); linarith
    generalize v.stp + q * (v.stx - v.stp) = z at hz ⊢
    have hw : (if |x - v.stp| < |z - v.stp| then x else z) < v.stp := by split_ifs <;> assumption
    generalize (if |x - v.stp| < |z - v.stp| then x else z) = w at hw ⊢
    refine ⟨(max (v.stp + 66/100 * (v.sty - v.stp)) w - v.stp) / (v.sty - v.stp), ?_, ?_, ?_⟩
    · refine div_pos_of_neg_of_neg ?_ hy
      rw [sub_neg, max_lt_iff]
      exact ⟨by linarith, hw⟩
    · rw [div_lt_one_of_neg hy]
      have := le_max_left (v.stp + 66/100 * (v.sty - v.stp)) w
      linarith
    · rw [div_mul_cancel₀ _ hy.ne]; ring
  · have h : v.stx < v.stp := h
    rw [if_pos h] at hc ⊢
    have hy : 0 < v.sty - v.stp := by
      by_contra hc
      have := mul_nonpos_of_nonpos_of_nonneg (not_lt.mp hc) (sub_pos.mpr h).le
      linarith
    have hx : v.stp < x := by
      rcases hc with ⟨r, r0, rfl⟩ | rfl
      · have := mul_pos_of_neg_of_neg r0 (sub_neg.mpr h); linarith
      · exact hhi h
    have hz : v.stp < v.stp + q * (v.stx - v.stp) := by
      have := mul_pos_of_neg_of_neg hq (sub_neg.mpr h); linarith
    generalize v.stp + q * (v.stx - v.stp) = z at hz ⊢
    have hw : v.stp < (if |x - v.stp| < |z - v.stp| then x else z) := by split_ifs <;> assumption
    generalize (if |x - v.stp| < |z - v.stp| then x else z) = w at hw ⊢
    refine ⟨(min (v.stp + 66/100 * (v.sty - v.stp)) w - v.stp) / (v.sty - v.stp), ?_, ?_, ?_⟩
    · refine div_pos ?_ hy
      rw [sub_pos, lt_min_iff]
      exact ⟨by linarith, hw⟩
    · rw [div_lt_one hy]
      have := min_le_left (v.stp + 66/100 * (v.sty - v.stp)) w
      linarith
    · rw [div_mul_cancel₀ _ hy.ne']; ring

/-- Case 3 without a bracket: the search goes on in the same direction. -/
theorem stepf3_beyond {v : Iv K} {fp dp lo hi : K} (hb : v.brackt = false) (hs : 0 < dp * v.dx) (ha : |dp| < |v.dx|)
    (h : v.stx < v.stp) (hhi : v.stp < hi) : v.stp < stepf3 v fp dp lo hi := by
  rw [stepf3_exact, if_neg (by simp [hb])]
  dsimp only
  have hq := secant3 hs ha
  have hc := cubic3_beyond v fp dp lo hi
  generalize cubic3 v fp dp lo hi = x at hc ⊢
  generalize dp / (dp - v.dx) = q at hq ⊢
  rw [if_pos h] at hc
  have hx : v.stp < x := by
    rcases hc with ⟨r, r0, rfl⟩ | rfl
    · have := mul_pos_of_neg_of_neg r0 (sub_neg.mpr h); linarith
    · exact hhi
  have hz : v.stp < v.stp + q * (v.stx - v.stp) := by
    have := mul_pos_of_neg_of_neg hq (sub_neg.mpr h); linarith
  refine lt_max_of_lt_left (lt_min hhi ?_)
  split_ifs <;> assumption

end Verif.LineSearch
