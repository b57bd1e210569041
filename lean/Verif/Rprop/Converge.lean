import Verif.Rprop.Props
import Mathlib.Algebra.Order.Archimedean.Basic
import Mathlib.Tactic.Ring
import Mathlib.Tactic.FieldSimp
import Mathlib.Tactic.Positivity

/-! C137: all four Rprop methods close in on the minimiser of a separable convex cost, and end. -/
namespace Verif.Rprop

variable {K : Type} [LinearOrder K] [Field K] [IsStrictOrderedRing K]

/-- `t` is a minimiser of a convex function of one parameter with derivative `g`: a positive derivative is found only above it, a negative one only below. -/
def Side (g : K → K) (t : K) : Prop := (∀ v, 0 < g v → t < v) ∧ ∀ v, g v < 0 → v < t

/-- The step length after a change of sign caused by a step of length `D`. -/
def shrunk (o : Opt K) (D : K) : K := max (o.etaMinus * D) o.minDelta

/-- A bound for the next step that causes a change of sign. -/
def next (o : Opt K) (D : K) : K := (o.etaPlus - 1) * D + shrunk o D

/-- The parameter rests at a point where the derivative is zero. -/
def Rest (g : K → K) (v : K) (c : Coord K) : Prop := c.prevG = 0 ∧ g v = 0 ∧ c.dx = 0

/-- About to move, at most `D` away from the minimiser. -/
def Ready (o : Opt K) (t D v : K) (c : Coord K) : Prop := c.prevG = 0 ∧ |v - t| ≤ D ∧ c.delta ≤ shrunk o D ∧ |c.dx| ≤ D

/-- Has moved from `u`, which is `r` away from the minimiser, towards it. -/
def Moving (o : Opt K) (g : K → K) (t D r v : K) (c : Coord K) : Prop :=
  ∃ u, g u ≠ 0 ∧ c.prevG = g u ∧ v = u - sign (g u) * c.delta ∧ c.dx = -sign (g u) * c.delta ∧ |u - t| = r ∧ r ≤ D ∧
    c.delta ≤ (o.etaPlus - 1) * (D - r) + shrunk o D

omit [IsStrictOrderedRing K] in
theorem sign_pos {g : K} (h : 0 < g) : sign g = 1 := by
  unfold sign; rw [if_pos h, if_neg (not_lt.2 h.le)]; ring

omit [IsStrictOrderedRing K] in
theorem sign_neg {g : K} (h : g < 0) : sign g = -1 := by
  unfold sign; rw [if_neg (not_lt.2 h.le), if_pos h]; ring

omit [IsStrictOrderedRing K] in
theorem sign_zero' : sign (0 : K) = 0 := by
  unfold sign; simp

/-- A parameter that rests keeps resting. -/
theorem rest_step {o : Opt K} {g : K → K} {v : K} {c : Coord K} (b : Bool) (h : Rest g v c) :
    Rest g (v + (coord o b c (g v)).dx) (coord o b c (g v)) := by
  obtain ⟨h1, h2, _⟩ := h
  have hy : switchYes c 0 = false := by simp [switchYes]
  have : coord o b c (g v) = ⟨0, 0, adapt o c 0⟩ := by
    rw [h2]
    unfold coord
    simp only [hy, sign_zero']
    cases o.method <;> simp
  rw [this]
  exact ⟨rfl, by simpa using h2, rfl⟩

/-- The move of a parameter whose derivative did not change sign. -/
theorem coord_move {o : Opt K} (b : Bool) (c : Coord K) (g : K) (h : 0 ≤ c.prevG * g) : coord o b c g = ⟨-sign g * adapt o c g, g, adapt o c g⟩ := by
  have hy : switchYes c g = false := by simpa [switchYes] using h
  unfold coord
  simp only [hy]
  cases o.method <;> simp

theorem moving_of {o : Opt K} {g : K → K} {t D u dl : K} (hu : g u ≠ 0) (hD : |u - t| ≤ D)
    (hd : dl ≤ (o.etaPlus - 1) * (D - |u - t|) + shrunk o D) :
    Moving o g t D |u - t| (u + (-sign (g u) * dl)) ⟨-sign (g u) * dl, g u, dl⟩ :=
  ⟨u, hu, rfl, by ring, rfl, rfl, hD, hd⟩

theorem ready_step {o : Opt K} (hup : 1 ≤ o.etaPlus) {g : K → K} {t D v : K} {c : Coord K} (b : Bool) (h : Ready o t D v c) :
    let c' := coord o b c (g v)
    c'.delta = c.delta ∧ (Rest g (v + c'.dx) c' ∨ ∃ r, Moving o g t D r (v + c'.dx) c') := by
  obtain ⟨h1, h2, h3, _⟩ := h
  intro c'
  have hc : c' = ⟨-sign (g v) * c.delta, g v, c.delta⟩ := by
    have ha : adapt o c (g v) = c.delta := by simp [adapt, switchYes, h1]
    show coord o b c (g v) = _
    rw [coord_move b c (g v) (by rw [h1]; simp), ha]
  rw [hc]
  refine ⟨rfl, ?_⟩
  by_cases hg : g v = 0
  · left
    refine ⟨hg, ?_, ?_⟩
    · rw [hg, sign_zero']
      simpa using hg
    · simp [hg, sign_zero']
  · right
    refine ⟨_, moving_of hg h2 (h3.trans ?_)⟩
    have : 0 ≤ (o.etaPlus - 1) * (D - |v - t|) := mul_nonneg (by linarith) (by linarith)
    linarith

/-- One pass of a moving parameter: it rests, or has come closer without a change of sign, or is ready or moving with a new bound that is the length of the step that caused the change of sign. -/
theorem moving_step {o : Opt K} (hup : 1 ≤ o.etaPlus) {g : K → K} {t : K} (hs : Side g t) {D r v : K} {c : Coord K} (b : Bool)
    (hlo : 0 ≤ c.delta) (h : Moving o g t D r v c) :
    let c' := coord o b c (g v)
    Rest g (v + c'.dx) c' ∨ (Moving o g t D (r - c.delta) (v + c'.dx) c' ∧ |v - t| = r - c.delta) ∨
      (|v - t| ≤ c.delta ∧ c'.delta = shrunk o c.delta ∧ (Ready o t c.delta (v + c'.dx) c' ∨ ∃ r', Moving o g t c.delta r' (v + c'.dx) c')) := by
  obtain ⟨u, hu, h1, h2, h3, h4, h5, h6⟩ := h
  intro c'
  rcases lt_trichotomy 0 (c.prevG * g v) with hpos | hz | hneg
  · -- no change of sign
    right; left
    have hv : g v ≠ 0 := fun h => by rw [h, mul_zero] at hpos; exact lt_irrefl _ hpos
    have hc : c' = ⟨-sign (g v) * adapt o c (g v), g v, adapt o c (g v)⟩ := coord_move b c (g v) hpos.le
    have ha : adapt o c (g v) ≤ o.etaPlus * c.delta := by
      unfold adapt; rw [if_pos hpos, mul_comm]; exact min_le_left _ _
    have hr : |v - t| = r - c.delta := by
      rw [h1] at hpos
      rcases lt_or_gt_of_ne hu with hneg | hpo
      · have hv' : g v < 0 := by
          by_contra hh
          have : 0 ≤ g v := not_lt.1 hh
          nlinarith
        have e := hs.2 v hv'
        have e' := hs.2 u hneg
        rw [sign_neg hneg] at h2
        rw [abs_of_neg (by linarith)] at h4 ⊢
        linarith
      · have hv' : 0 < g v := by
          by_contra hh
          have : g v ≤ 0 := not_lt.1 hh
          nlinarith
        have e := hs.1 v hv'
        have e' := hs.1 u hpo
        rw [sign_pos hpo] at h2
        rw [abs_of_pos (by linarith)] at h4 ⊢
        linarith
    refine ⟨?_, hr⟩
    rw [hc, ← hr]
    refine moving_of hv (by rw [hr]; linarith) (ha.trans ?_)
    rw [hr]
    have : o.etaPlus * c.delta = c.delta + (o.etaPlus - 1) * c.delta := by ring
    rw [this]
    calc c.delta + (o.etaPlus - 1) * c.delta ≤ ((o.etaPlus - 1) * (D - r) + shrunk o D) + (o.etaPlus - 1) * c.delta := by linarith
      _ = (o.etaPlus - 1) * (D - (r - c.delta)) + shrunk o D := by ring
  · -- zero derivative
    left
    have hv : g v = 0 := by
      rcases mul_eq_zero.1 hz.symm with h | h
      · rw [h1] at h; exact absurd h hu
      · exact h
    have hc : c' = ⟨-sign (g v) * adapt o c (g v), g v, adapt o c (g v)⟩ := coord_move b c (g v) hz.le
    rw [hc]
    refine ⟨hv, ?_, ?_⟩
    · rw [hv, sign_zero']
      simpa using hv
    · simp [hv, sign_zero']
  · -- change of sign
    right; right
    have hv : g v ≠ 0 := fun h => by rw [h, mul_zero] at hneg; exact lt_irrefl _ hneg
    have hb : |v - t| ≤ c.delta ∧ |u - t| ≤ c.delta := by
      rw [h1] at hneg
      rcases lt_or_gt_of_ne hu with hn | hp
      · have hv' : 0 < g v := by
          by_contra hh
          have : g v ≤ 0 := not_lt.1 hh
          nlinarith
        have e := hs.1 v hv'
        have e' := hs.2 u hn
        rw [sign_neg hn] at h2
        rw [abs_of_pos (by linarith), abs_of_neg (by linarith)]
        constructor <;> linarith
      · have hv' : g v < 0 := by
          by_contra hh
          have : 0 ≤ g v := not_lt.1 hh
          nlinarith
        have e := hs.2 v hv'
        have e' := hs.1 u hp
        rw [sign_pos hp] at h2
        rw [abs_of_neg (by linarith), abs_of_pos (by linarith)]
        constructor <;> linarith
    have hy : switchYes c (g v) = true := by simpa [switchYes] using hneg
    have ha : adapt o c (g v) = shrunk o c.delta := by
      unfold adapt shrunk
      rw [if_neg (not_lt.2 hneg.le), if_pos hy, mul_comm]
    refine ⟨hb.1, ?_⟩
    have hdx : |c.dx| ≤ c.delta := by
      rw [h3, abs_sign_mul _ _ hlo]; split_ifs <;> linarith
    have back : v + -c.dx = u := by rw [h2, h3]; ring
    have hr0 : (o.etaPlus - 1) * (c.delta - |v - t|) ≥ 0 := mul_nonneg (by linarith) (by linarith [hb.1])
    cases hm : o.method with
    | rpropPlus =>
      have hc : c' = ⟨-c.dx, 0, shrunk o c.delta⟩ := by
        show coord o b c (g v) = _
        unfold coord; simp only [hm, hy, ha, if_true]
      rw [hc]
      exact ⟨rfl, Or.inl ⟨rfl, by simpa [back] using hb.2, le_refl _, by simpa using hdx⟩⟩
    | rpropMinus =>
      have hc : c' = ⟨-sign (g v) * shrunk o c.delta, g v, shrunk o c.delta⟩ := by
        show coord o b c (g v) = _
        unfold coord; simp only [hm, ha]
      rw [hc]
      exact ⟨rfl, Or.inr ⟨_, moving_of hv hb.1 (by linarith)⟩⟩
    | irpropMinus =>
      have hc : c' = ⟨0, 0, shrunk o c.delta⟩ := by
        show coord o b c (g v) = _
        unfold coord; simp only [hm, hy, ha, if_true]
      rw [hc]
      exact ⟨rfl, Or.inl ⟨rfl, by simpa using hb.1, le_refl _, by simpa using hlo⟩⟩
    | irpropPlus =>
      have hc : c' = ⟨if b then -c.dx else 0, 0, shrunk o c.delta⟩ := by
        show coord o b c (g v) = _
        unfold coord; simp only [hm, hy, ha, if_true]
      rw [hc]
      refine ⟨rfl, Or.inl ⟨rfl, ?_, le_refl _, ?_⟩⟩
      · cases b
        · simpa using hb.1
        · simpa [back] using hb.2
      · cases b
        · simpa using hlo
        · simpa using hdx

/-- Where a parameter can be between two passes. -/
def Near (o : Opt K) (g : K → K) (t D v : K) (c : Coord K) : Prop := Rest g v c ∨ Ready o t D v c ∨ ∃ r, Moving o g t D r v c

theorem moving_delta {o : Opt K} (hup : 1 ≤ o.etaPlus) {g : K → K} {t D r v : K} {c : Coord K} (h : Moving o g t D r v c) : c.delta ≤ next o D := by
  obtain ⟨u, _, _, _, _, h4, _, h6⟩ := h
  have : 0 ≤ r := h4 ▸ abs_nonneg _
  have : (o.etaPlus - 1) * (D - r) ≤ (o.etaPlus - 1) * D := mul_le_mul_of_nonneg_left (by linarith) (by linarith)
  unfold next; linarith

theorem near_step {o : Opt K} (hup : 1 ≤ o.etaPlus) {g : K → K} {t : K} (hs : Side g t) {D v : K} {c : Coord K} (b : Bool)
    (hlo : 0 ≤ c.delta) (h : Near o g t D v c) :
    ∃ D', (D' = D ∨ (0 ≤ D' ∧ D' ≤ next o D)) ∧ Near o g t D' (v + (coord o b c (g v)).dx) (coord o b c (g v)) := by
  rcases h with h | h | ⟨r, h⟩
  · exact ⟨D, .inl rfl, .inl (rest_step b h)⟩
  · rcases (ready_step hup b h).2 with h' | h'
    · exact ⟨D, .inl rfl, .inl h'⟩
    · exact ⟨D, .inl rfl, .inr (.inr h')⟩
  · rcases moving_step hup hs b hlo h with h' | ⟨h', _⟩ | ⟨_, _, h' | h'⟩
    · exact ⟨D, .inl rfl, .inl h'⟩
    · exact ⟨D, .inl rfl, .inr (.inr ⟨_, h'⟩)⟩
    · exact ⟨c.delta, .inr ⟨hlo, moving_delta hup h⟩, .inr (.inl h')⟩
    · exact ⟨c.delta, .inr ⟨hlo, moving_delta hup h⟩, .inr (.inr h')⟩

/-- How far a parameter is from the minimiser, and how far it was moved. -/
theorem near_bound {o : Opt K} (hup : 1 ≤ o.etaPlus) {g : K → K} {t : K} (hs : Side g t) {D v : K} {c : Coord K} (hlo : 0 ≤ c.delta)
    (h : Near o g t D v c) : (g v = 0 ∧ c.dx = 0) ∨ (|v - t| ≤ max D (next o D) ∧ |c.dx| ≤ max D (next o D)) := by
  rcases h with h | h | ⟨r, h⟩
  · exact .inl ⟨h.2.1, h.2.2⟩
  · exact .inr ⟨h.2.1.trans (le_max_left _ _), h.2.2.2.trans (le_max_left _ _)⟩
  · have hd := moving_delta hup h
    obtain ⟨u, h1, h2, h3, h4, h5, h6, h7⟩ := h
    have m1 : D ≤ max D (next o D) := le_max_left _ _
    have m2 : next o D ≤ max D (next o D) := le_max_right _ _
    refine .inr ⟨?_, ?_⟩
    · rcases lt_or_gt_of_ne h1 with hn | hp
      · have := hs.2 u hn
        rw [abs_of_neg (by linarith)] at h5
        rw [sign_neg hn] at h3
        rw [abs_le]; constructor <;> linarith
      · have := hs.1 u hp
        rw [abs_of_pos (by linarith)] at h5
        rw [sign_pos hp] at h3
        rw [abs_le]; constructor <;> linarith
    · rw [h4, abs_sign_mul _ _ hlo]
      split_ifs <;> linarith

/-! ### Sequences -/

/-- The passes of one parameter. -/
structure Passes (o : Opt K) (g : K → K) (v : ℕ → K) (c : ℕ → Coord K) (b : ℕ → Bool) : Prop where
  coord : ∀ k, c (k + 1) = coord o (b k) (c k) (g (v k))
  value : ∀ k, v (k + 1) = v k + (c (k + 1)).dx
  lo : ∀ k, o.minDelta ≤ (c k).delta

section Seq
variable {o : Opt K} {g : K → K} {t : K} {v : ℕ → K} {c : ℕ → Coord K} {b : ℕ → Bool}

theorem rest_stays (hp : Passes o g v c b) {k : ℕ} (h : Rest g (v k) (c k)) : ∀ j, Rest g (v (k + j)) (c (k + j)) := by
  intro j
  induction j with
  | zero => exact h
  | succ j ih =>
    have := rest_step (o := o) (b (k + j)) ih
    rw [← hp.coord, ← hp.value] at this
    exact this

/-- A moving parameter changes sign or comes to rest after finitely many passes. -/
theorem moving_ends (hp : Passes o g v c b) (hup : 1 ≤ o.etaPlus) (hmin : 0 < o.minDelta) (hs : Side g t) {D : K} (B : ℕ) :
    ∀ (k : ℕ) (r : K), r ≤ B * o.minDelta → Moving o g t D r (v k) (c k) →
      ∃ j, Rest g (v (k + j)) (c (k + j)) ∨ ∃ D', 0 ≤ D' ∧ D' ≤ next o D ∧ Near o g t D' (v (k + j)) (c (k + j)) := by
  induction B with
  | zero =>
    intro k r hr h
    have hlo := hmin.le.trans (hp.lo k)
    have hd := moving_delta hup h
    rcases moving_step hup hs (b k) hlo h with h' | ⟨_, h'⟩ | ⟨_, _, h'⟩
    · rw [← hp.coord, ← hp.value] at h'
      exact ⟨1, .inl h'⟩
    · have := abs_nonneg (v k - t)
      have := hp.lo k
      simp only [Nat.cast_zero, zero_mul] at hr
      linarith
    · rw [← hp.coord, ← hp.value] at h'
      exact ⟨1, .inr ⟨_, hlo, hd, .inr h'⟩⟩
  | succ B ih =>
    intro k r hr h
    have hlo := hmin.le.trans (hp.lo k)
    have hd := moving_delta hup h
    rcases moving_step hup hs (b k) hlo h with h' | ⟨h', _⟩ | ⟨_, _, h'⟩
    · rw [← hp.coord, ← hp.value] at h'
      exact ⟨1, .inl h'⟩
    · rw [← hp.coord, ← hp.value] at h'
      have := hp.lo k
      push_cast at hr
      obtain ⟨j, hj⟩ := ih (k + 1) _ (by linarith) h'
      exact ⟨1 + j, by rw [← Nat.add_assoc]; exact hj⟩
    · rw [← hp.coord, ← hp.value] at h'
      exact ⟨1, .inr ⟨_, hlo, hd, .inr h'⟩⟩

theorem near_progress [Archimedean K] (hp : Passes o g v c b) (hup : 1 ≤ o.etaPlus) (hmin : 0 < o.minDelta) (hs : Side g t) {D : K} (k : ℕ)
    (h : Near o g t D (v k) (c k)) :
    ∃ j, Rest g (v (k + j)) (c (k + j)) ∨ ∃ D', 0 ≤ D' ∧ D' ≤ next o D ∧ Near o g t D' (v (k + j)) (c (k + j)) := by
  have mv : ∀ k r, Moving o g t D r (v k) (c k) →
      ∃ j, Rest g (v (k + j)) (c (k + j)) ∨ ∃ D', 0 ≤ D' ∧ D' ≤ next o D ∧ Near o g t D' (v (k + j)) (c (k + j)) := by
    intro k r h
    obtain ⟨B, hB⟩ := exists_nat_ge (r / o.minDelta)
    exact moving_ends hp hup hmin hs B k r ((div_le_iff₀ hmin).1 hB) h
  rcases h with h | h | ⟨r, h⟩
  · exact ⟨0, .inl h⟩
  · rcases (ready_step (g := g) hup (b k) h).2 with h' | ⟨r, h'⟩
    · rw [← hp.coord, ← hp.value] at h'
      exact ⟨1, .inl h'⟩
    · rw [← hp.coord, ← hp.value] at h'
      obtain ⟨j, hj⟩ := mv (k + 1) r h'
      exact ⟨1 + j, by rw [← Nat.add_assoc]; exact hj⟩
  · exact mv k r h

/-- The factor by which the bounds shrink. -/
def rate (o : Opt K) : K := o.etaPlus + o.etaMinus - 1

theorem next_le {D : K} (hD : 0 ≤ D) (hdn : 0 < o.etaMinus) (hmin : 0 < o.minDelta) : next o D ≤ rate o * D + o.minDelta := by
  have : shrunk o D ≤ o.etaMinus * D + o.minDelta := max_le (by linarith) (by nlinarith)
  unfold next rate
  nlinarith

theorem near_rounds [Archimedean K] (hp : Passes o g v c b) (hup : 1 ≤ o.etaPlus) (hdn : 0 < o.etaMinus) (hmin : 0 < o.minDelta) (hq : rate o < 1)
    (hs : Side g t) {D : K} (hD : 0 ≤ D) (h : Near o g t D (v 0) (c 0)) (m : ℕ) :
    ∃ j, Rest g (v j) (c j) ∨ ∃ D', 0 ≤ D' ∧ D' ≤ rate o ^ m * D + o.minDelta / (1 - rate o) ∧ Near o g t D' (v j) (c j) := by
  have hq0 : 0 ≤ rate o := by unfold rate; linarith
  have ha : rate o * (o.minDelta / (1 - rate o)) + o.minDelta = o.minDelta / (1 - rate o) := by
    have : (1 - rate o) ≠ 0 := by linarith
    field_simp
    ring
  have ha0 : 0 ≤ o.minDelta / (1 - rate o) := div_nonneg hmin.le (by linarith)
  induction m with
  | zero => exact ⟨0, .inr ⟨D, hD, by rw [pow_zero, one_mul]; linarith, h⟩⟩
  | succ m ih =>
    obtain ⟨j, hj | ⟨D', h0, h1, h2⟩⟩ := ih
    · exact ⟨j, .inl hj⟩
    · obtain ⟨i, hi | ⟨D'', e0, e1, e2⟩⟩ := near_progress hp hup hmin hs j h2
      · exact ⟨j + i, .inl hi⟩
      · refine ⟨j + i, .inr ⟨D'', e0, e1.trans ((next_le h0 hdn hmin).trans ?_), e2⟩⟩
        calc rate o * D' + o.minDelta ≤ rate o * (rate o ^ m * D + o.minDelta / (1 - rate o)) + o.minDelta := by
              linarith [mul_le_mul_of_nonneg_left h1 hq0]
          _ = rate o ^ (m + 1) * D + (rate o * (o.minDelta / (1 - rate o)) + o.minDelta) := by ring
          _ = _ := by rw [ha]

/-- From some pass on, the parameter rests where the derivative is zero, or is within `ε` of the minimiser and moves by at most `ε`. -/
theorem coord_converges [Archimedean K] (hp : Passes o g v c b) (hup : 1 ≤ o.etaPlus) (hdn : 0 < o.etaMinus) (hmin : 0 < o.minDelta) (hq : rate o < 1)
    (hs : Side g t) {D : K} (hD : 0 ≤ D) (h : Near o g t D (v 0) (c 0)) (ε : K) (hε : o.minDelta / (1 - rate o) < ε) :
    ∃ N, ∀ k, N ≤ k → (g (v k) = 0 ∧ (c k).dx = 0) ∨ (|v k - t| ≤ ε ∧ |(c k).dx| ≤ ε) := by
  have hq0 : 0 ≤ rate o := by unfold rate; linarith
  have ha0 : 0 ≤ o.minDelta / (1 - rate o) := div_nonneg hmin.le (by linarith)
  have hε0 : 0 ≤ ε := ha0.trans hε.le
  have hnext : ∀ D', 0 ≤ D' → D' ≤ ε → next o D' ≤ ε := by
    intro D' h0 h1
    have h2 := next_le (o := o) h0 hdn hmin
    have h3 : rate o * D' ≤ rate o * ε := mul_le_mul_of_nonneg_left h1 hq0
    have h4 : o.minDelta < ε * (1 - rate o) := (div_lt_iff₀ (by linarith)).1 hε
    linarith [h2, h3, h4]
  obtain ⟨m, hm⟩ : ∃ m : ℕ, rate o ^ m * D ≤ ε - o.minDelta / (1 - rate o) := by
    by_cases hDz : D = 0
    · exact ⟨0, by rw [hDz, mul_zero]; linarith⟩
    · have hDp : 0 < D := lt_of_le_of_ne hD (Ne.symm hDz)
      obtain ⟨m, hm⟩ := exists_pow_lt_of_lt_one (show 0 < (ε - o.minDelta / (1 - rate o)) / D from div_pos (by linarith) hDp) hq
      exact ⟨m, ((lt_div_iff₀ hDp).1 hm).le⟩
  obtain ⟨j, hj⟩ := near_rounds hp hup hdn hmin hq hs hD h m
  have stay : ∀ i, Rest g (v (j + i)) (c (j + i)) ∨ ∃ D', 0 ≤ D' ∧ D' ≤ ε ∧ Near o g t D' (v (j + i)) (c (j + i)) := by
    intro i
    induction i with
    | zero =>
      rcases hj with hj | ⟨D', h0, h1, h2⟩
      · exact .inl hj
      · exact .inr ⟨D', h0, by linarith, h2⟩
    | succ i ih =>
      rcases ih with ih | ⟨D', h0, h1, h2⟩
      · left
        have := rest_step (o := o) (b (j + i)) ih
        rw [← hp.coord, ← hp.value] at this
        exact this
      · right
        obtain ⟨D'', e, e2⟩ := near_step hup hs (b (j + i)) (hmin.le.trans (hp.lo _)) h2
        rw [← hp.coord, ← hp.value] at e2
        rcases e with rfl | ⟨e0, e1⟩
        · exact ⟨D'', h0, h1, e2⟩
        · exact ⟨D'', e0, e1.trans (hnext D' h0 h1), e2⟩
  refine ⟨j, fun k hk => ?_⟩
  obtain ⟨i, rfl⟩ := Nat.exists_eq_add_of_le hk
  rcases stay i with h | ⟨D', h0, h1, h2⟩
  · exact .inl ⟨h.2.1, h.2.2⟩
  · rcases near_bound hup hs (hmin.le.trans (hp.lo _)) h2 with h | ⟨h3, h4⟩
    · exact .inl h
    · have : max D' (next o D') ≤ ε := max_le h1 (hnext D' h0 h1)
      exact .inr ⟨h3.trans this, h4.trans this⟩

end Seq

/-! ### Runs -/
variable {n : Nat} [NeZero n]

/-- A cost whose partial derivatives depend on one parameter each (`G i`) and change sign at `t i`, with parameters that are added to. -/
structure Separable (E : Env K (Fin n → K) n) (G : Fin n → K → K) (t : Fin n → K) : Prop where
  grad : ∀ x i, E.gradient x i = G i (x i)
  upd : ∀ x d i, E.update x d i = x i + d i
  side : ∀ i, Side (G i) (t i)

/-- The states reached after `k` passes that did not end the loop, OptimizerRprop.cpp:114-267. -/
inductive ReachN {X : Type} (E : Env K X n) (o : Opt K) (x : X) : ℕ → St K X n → Prop
  | start : ReachN E o x 0 (Rprop.start o x)
  | step {k : ℕ} {s s' : St K X n} (h : ReachN E o x k s) (hi : iter E o s = (s', true)) : ReachN E o x (k + 1) s'

/-- A pass without the tests that end the loop, OptimizerRprop.cpp:114-238. -/
def force {X : Type} (E : Env K X n) (o : Opt K) (s : St K X n) : St K X n :=
  let err := E.cost s.x
  let c := fun i => coord o (errorIncreased o s.prevError err) (s.c i) (E.gradient s.x i)
  ⟨E.update s.x fun i => (c i).dx, c, if o.method = .irpropPlus then some err else s.prevError, .inProgress, s.iterations + 1⟩

/-- The passes without the tests. -/
def forced {X : Type} (E : Env K X n) (o : Opt K) (x : X) : ℕ → St K X n
  | 0 => Rprop.start o x
  | k + 1 => force E o (forced E o x k)

omit [IsStrictOrderedRing K] in
theorem iter_force {X : Type} (E : Env K X n) (o : Opt K) (s s' : St K X n) (h : iter E o s = (s', true)) :
    s' = force E o s ∧ o.deltaX ≤ maxAbs fun i => (s'.c i).dx := by
  unfold iter at h
  simp only at h
  split at h
  · cases h
  · split at h
    · cases h
    · rename_i hm
      split at h
      · cases h
      · cases h
        exact ⟨rfl, not_lt.1 hm⟩

omit [IsStrictOrderedRing K] in
theorem reachN_forced {X : Type} (E : Env K X n) (o : Opt K) (x : X) (k : ℕ) (s : St K X n) (h : ReachN E o x k s) : s = forced E o x k := by
  induction h with
  | start => rfl
  | step _ hi ih => rw [(iter_force E o _ _ hi).1, ih]; rfl

theorem forced_passes (E : Env K (Fin n → K) n) (o : Opt K) (ho : Sane o) (G : Fin n → K → K) (t x : Fin n → K) (hE : Separable E G t) (i : Fin n) :
    Passes o (G i) (fun k => (forced E o x k).x i) (fun k => (forced E o x k).c i)
      (fun k => errorIncreased o (forced E o x k).prevError (E.cost (forced E o x k).x)) := by
  refine ⟨fun k => ?_, fun k => ?_, fun k => ?_⟩
  · show coord _ _ _ _ = _
    rw [hE.grad]
  · exact hE.upd _ _ _
  · obtain ⟨p1, p2, p3⟩ := ho.pos
    have : ∀ k, CInv o ((forced E o x k).c i) := by
      intro k
      induction k with
      | zero => exact ⟨ho.initLo, ho.initHi, by simp only [forced, Rprop.start, Coord.reset, abs_zero]; linarith, .inl rfl, fun _ h => absurd rfl h⟩
      | succ k ih => exact coord_inv ho _ _ _ ih
    exact (this k).lo

theorem forced_near (o : Opt K) (ho : Sane o) (E : Env K (Fin n → K) n) (G : Fin n → K → K) (t x : Fin n → K) (i : Fin n) :
    ∃ D, 0 ≤ D ∧ Near o (G i) (t i) D ((forced E o x 0).x i) ((forced E o x 0).c i) := by
  obtain ⟨p1, p2, p3⟩ := ho.pos
  have h0 : 0 ≤ |x i - t i| := abs_nonneg _
  have hi : 0 < o.initialDelta := lt_of_lt_of_le p2 ho.initLo
  have hd : 0 ≤ o.initialDelta / o.etaMinus := (div_pos hi p1).le
  refine ⟨max |x i - t i| (o.initialDelta / o.etaMinus), le_max_of_le_left h0, .inr (.inl ⟨rfl, le_max_left _ _, ?_, ?_⟩)⟩
  · show o.initialDelta ≤ _
    unfold shrunk
    refine le_max_of_le_left ?_
    calc o.initialDelta = o.etaMinus * (o.initialDelta / o.etaMinus) := by field_simp
      _ ≤ _ := mul_le_mul_of_nonneg_left (le_max_right _ _) p1.le
  · show |(0 : K)| ≤ _
    rw [abs_zero]; exact le_max_of_le_left h0

theorem forced_converges [Archimedean K] (E : Env K (Fin n → K) n) (o : Opt K) (ho : Sane o) (hq : rate o < 1) (G : Fin n → K → K)
    (t x : Fin n → K) (hE : Separable E G t) (ε : K) (hε : o.minDelta / (1 - rate o) < ε) :
    ∃ N, ∀ k, N ≤ k → ∀ i, (G i ((forced E o x k).x i) = 0 ∧ ((forced E o x k).c i).dx = 0) ∨
      (|(forced E o x k).x i - t i| ≤ ε ∧ |((forced E o x k).c i).dx| ≤ ε) := by
  obtain ⟨p1, p2, p3⟩ := ho.pos
  have each : ∀ i, ∃ N, ∀ k, N ≤ k → (G i ((forced E o x k).x i) = 0 ∧ ((forced E o x k).c i).dx = 0) ∨
      (|(forced E o x k).x i - t i| ≤ ε ∧ |((forced E o x k).c i).dx| ≤ ε) := by
    intro i
    obtain ⟨D, hD, hn⟩ := forced_near o ho E G t x i
    exact coord_converges (forced_passes E o ho G t x hE i) ho.up p1 p2 hq (hE.side i) hD hn ε hε
  choose N hN using each
  exact ⟨Finset.univ.sup N, fun k hk i => hN i k ((Finset.le_sup (f := N) (Finset.mem_univ i)).trans hk)⟩

/-- **C137** (where it goes). All four methods, for every separable convex cost (each partial derivative depends on one parameter and changes sign at a minimiser; it need not be continuous), from
every start, with sane options and `etaPlus + etaMinus < 2` (default 1.7): for every `ε` larger than `minDelta / (2 - etaPlus - etaMinus)` there is a number of passes after which every parameter
stays within `ε` of its minimiser, or at a point where its derivative is zero. -/
theorem C137_converges [Archimedean K] (E : Env K (Fin n → K) n) (o : Opt K) (ho : Sane o) (hq : o.etaPlus + o.etaMinus < 2)
    (G : Fin n → K → K) (t x : Fin n → K) (hE : Separable E G t) (ε : K) (hε : o.minDelta / (2 - o.etaPlus - o.etaMinus) < ε) :
    ∃ N, ∀ k s, N ≤ k → ReachN E o x k s → ∀ i, |s.x i - t i| ≤ ε ∨ E.gradient s.x i = 0 := by
  obtain ⟨N, hN⟩ := forced_converges E o ho (by unfold rate; linarith) G t x hE ε (by
    rwa [show 1 - rate o = 2 - o.etaPlus - o.etaMinus by unfold rate; ring])
  refine ⟨N, fun k s hk hs i => ?_⟩
  rw [reachN_forced E o x k s hs, hE.grad]
  rcases hN k hk i with h | h
  · exact .inr h.1
  · exact .inl h.1

/-- **C137** (it ends). If the threshold for the step is larger than `minDelta / (2 - etaPlus - etaMinus)`, every such run ends by itself, whatever the iteration budget. -/
theorem C137_ends [Archimedean K] (E : Env K (Fin n → K) n) (o : Opt K) (ho : Sane o) (hq : o.etaPlus + o.etaMinus < 2)
    (G : Fin n → K → K) (t x : Fin n → K) (hE : Separable E G t) (hx : o.minDelta / (2 - o.etaPlus - o.etaMinus) < o.deltaX) :
    ∃ N, ∀ k s, ReachN E o x k s → k ≤ N := by
  obtain ⟨p1, p2, p3⟩ := ho.pos
  obtain ⟨ε, h1, h2⟩ : ∃ ε, o.minDelta / (2 - o.etaPlus - o.etaMinus) < ε ∧ ε < o.deltaX :=
    ⟨(o.minDelta / (2 - o.etaPlus - o.etaMinus) + o.deltaX) / 2, by linarith, by linarith⟩
  have hε : 0 < ε := lt_trans (div_pos p2 (by linarith)) h1
  obtain ⟨N, hN⟩ := forced_converges E o ho (by unfold rate; linarith) G t x hE ε (by
    rwa [show 1 - rate o = 2 - o.etaPlus - o.etaMinus by unfold rate; ring])
  refine ⟨N, fun k s hs => ?_⟩
  by_contra hk
  have hk' : N < k := not_le.1 hk
  have hm : o.deltaX ≤ maxAbs fun i => (s.c i).dx := by
    cases hs with
    | start => omega
    | step _ hi => exact (iter_force E o _ _ hi).2
  have : maxAbs (fun i => (s.c i).dx) ≤ ε := by
    refine Finset.sup'_le _ _ fun i _ => ?_
    rw [reachN_forced E o x k s hs]
    rcases hN k hk'.le i with h | h
    · simp only [h.2, abs_zero]; exact hε.le
    · exact h.2
  linarith

/-! ### Concrete cases -/

/-- Cost `(x0 - 3)^2 + |x1 + 1|`: the second derivative jumps. -/
def two : Env ℚ (Fin 2 → ℚ) 2 where
  gradient x i := if i = 0 then 2 * (x 0 - 3) else if x 1 < -1 then -1 else if -1 < x 1 then 1 else 0
  cost x := (x 0 - 3) ^ 2 + |x 1 + 1|
  update x d := fun i => x i + d i
  norm g := |g 0| + |g 1|

/-- The hypotheses are met by the default options and the cost above, for every method. -/
example (m : Method) (x : Fin 2 → ℚ) : ∃ N, ∀ k s, ReachN two (defaults m) x k s → k ≤ N := by
  refine C137_ends two (defaults m) ?_ ?_
    (fun i v => if i = 0 then 2 * (v - 3) else if v < -1 then -1 else if -1 < v then 1 else 0) (fun i => if i = 0 then 3 else -1) x ?_ ?_
  · refine ⟨?_, ?_, ?_, ?_, ?_⟩
    · unfold defaults Opt.check; norm_num
    all_goals (unfold defaults; norm_num)
  · unfold defaults; norm_num
  · refine ⟨fun x i => ?_, fun _ _ _ => rfl, fun i => ?_⟩
    · unfold two
      by_cases hi : i = 0
      · subst hi; simp
      · have : i = 1 := by omega
        subst this; simp
    · by_cases hi : i = 0
      · subst hi
        constructor <;> intro v hv <;> simp at hv ⊢ <;> linarith
      · constructor <;> intro v hv <;> simp only [hi, if_false] at hv ⊢ <;> split_ifs at hv <;> linarith
  · unfold defaults; norm_num

/-- The parabola with minimum 3 as a problem with a vector of one parameter. -/
def bowl : Env ℚ (Fin 1 → ℚ) 1 where
  gradient x i := 2 * (x i - 3)
  cost x := (x 0 - 3) ^ 2
  update x d := fun i => x i + d i
  norm g := |g 0|

/-- Without `etaPlus + etaMinus < 2` it can fail: the check accepts `etaMinus = 1`, and RPROP_MINUS then jumps from one side of the minimum of a parabola to the other for ever. -/
theorem C137_eta_counterexample :
    let o : Opt ℚ := { defaults .rpropMinus with etaMinus := 1 }
    o.check = true ∧ Sane o ∧ ∀ k, ∃ s, ReachN bowl o (fun _ => 3 + 1 / 20) k s ∧ |s.x 0 - 3| = 1 / 20 := by
  intro o
  have ho : Sane o := by
    refine ⟨?_, ?_, ?_, ?_, ?_⟩
    · simp only [o]; unfold defaults Opt.check; norm_num
    all_goals (norm_num [o, defaults])
  refine ⟨ho.check, ho, fun k => ?_⟩
  obtain ⟨s, hs, e⟩ : ∃ s, ReachN bowl o (fun _ => 3 + 1 / 20) k s ∧ (s.c 0).delta = 1 / 10 ∧
      ((s.x 0 = 3 + 1 / 20 ∧ (s.c 0).prevG ≤ 0) ∨ (s.x 0 = 3 - 1 / 20 ∧ 0 ≤ (s.c 0).prevG)) := by
    induction k with
    | zero => exact ⟨_, .start, by simp [o, Rprop.start, Coord.reset, defaults], .inl ⟨rfl, le_refl _⟩⟩
    | succ k ih =>
      obtain ⟨s, hs, hd, h⟩ := ih
      have key : ∀ (g : ℚ), s.x 0 = 3 + g / 2 → |g| = 1 / 10 → (s.c 0).prevG * g ≤ 0 → ∃ s', iter bowl o s = (s', true) ∧ s' = force bowl o s ∧
          s'.x 0 = s.x 0 - sign g * (1 / 10) ∧ (s'.c 0).delta = 1 / 10 ∧ (s'.c 0).prevG = g := by
        intro g hx hg hp
        have hgr : bowl.gradient s.x 0 = g := by show 2 * (s.x 0 - 3) = g; rw [hx]; ring
        have ha : adapt o (s.c 0) g = 1 / 10 := by
          unfold adapt
          rw [if_neg (not_lt.2 hp)]
          split_ifs
          · rw [hd]; simp only [o]; unfold defaults; norm_num
          · exact hd
        have hc : ∀ b, coord o b (s.c 0) g = ⟨-sign g * (1 / 10), g, 1 / 10⟩ := by
          intro b
          unfold coord
          simp only [ha]
          rfl
        have hsg : |sign g * (1 / 10)| = 1 / 10 := by
          rcases lt_trichotomy g 0 with h | h | h
          · rw [sign_neg h]; norm_num
          · rw [h] at hg; norm_num at hg
          · rw [sign_pos h]; norm_num
        have hmax : maxAbs (fun i => ((force bowl o s).c i).dx) = 1 / 10 := by
          have h0 : |((force bowl o s).c 0).dx| = 1 / 10 := by
            show |(coord o (errorIncreased o s.prevError (bowl.cost s.x)) (s.c 0) (bowl.gradient s.x 0)).dx| = _
            rw [hgr, hc]
            simpa using hsg
          refine le_antisymm (Finset.sup'_le _ _ fun i _ => ?_) ?_
          · rw [Subsingleton.elim i 0]; exact h0.le
          · rw [← h0]; exact Finset.le_sup' (fun i => |((force bowl o s).c i).dx|) (Finset.mem_univ 0)
        have hnorm : ¬ bowl.norm (bowl.gradient s.x) < o.gradientNorm := by
          show ¬ |bowl.gradient s.x 0| < _
          rw [hgr, hg]
          simp only [o]; unfold defaults; norm_num
        refine ⟨force bowl o s, ?_, rfl, ?_, ?_, ?_⟩
        · unfold iter
          simp only
          rw [if_neg hnorm]
          have hm' : ¬ maxAbs (fun i => (coord o (errorIncreased o s.prevError (bowl.cost s.x)) (s.c i) (bowl.gradient s.x i)).dx) < o.deltaX := by
            have hmax' : maxAbs (fun i => (coord o (errorIncreased o s.prevError (bowl.cost s.x)) (s.c i) (bowl.gradient s.x i)).dx) = 1 / 10 := hmax
            rw [hmax']; simp only [o]; unfold defaults; norm_num
          have hmeth : ¬ (o.method = .irpropPlus) := by simp [o, defaults]
          rw [if_neg hm', if_neg (fun h => hmeth h.1)]
          rfl
        · show s.x 0 + (coord o (errorIncreased o s.prevError (bowl.cost s.x)) (s.c 0) (bowl.gradient s.x 0)).dx = _
          rw [hgr, hc]; ring
        · show (coord o (errorIncreased o s.prevError (bowl.cost s.x)) (s.c 0) (bowl.gradient s.x 0)).delta = _
          rw [hgr, hc]
        · show (coord o (errorIncreased o s.prevError (bowl.cost s.x)) (s.c 0) (bowl.gradient s.x 0)).prevG = _
          rw [hgr, hc]
      rcases h with ⟨hx, hp⟩ | ⟨hx, hp⟩
      · obtain ⟨s', h1, _, h3, h4, h5⟩ := key (1 / 10) (by rw [hx]; norm_num) (by norm_num) (by linarith)
        refine ⟨s', .step hs h1, h4, .inr ⟨?_, by rw [h5]; norm_num⟩⟩
        rw [h3, hx, sign_pos (by norm_num)]; norm_num
      · obtain ⟨s', h1, _, h3, h4, h5⟩ := key (-1 / 10) (by rw [hx]; norm_num) (by norm_num) (by linarith)
        refine ⟨s', .step hs h1, h4, .inl ⟨?_, by rw [h5]; norm_num⟩⟩
        rw [h3, hx, sign_neg (by norm_num)]; norm_num
  refine ⟨s, hs, ?_⟩
  rcases e.2 with ⟨h, _⟩ | ⟨h, _⟩ <;> rw [h] <;> norm_num

end Verif.Rprop
