import Verif.Rprop.Converge

/-! C34: what two consecutive passes of each Rprop method do to a parameter. -/
namespace Verif.Rprop

variable {K : Type} [LinearOrder K] [Field K] [IsStrictOrderedRing K] {n : Nat} [NeZero n]

/-- **C34** (moves). Two consecutive passes from `x0` over `x1` to `x2`, in the first of which the derivative by parameter `i` did not change its sign against the pass before (or there was none).
If it has opposite signs at `x0` and `x1`, the parameter goes back to its value at `x0` (RPROP_PLUS), steps back by the shortened step (RPROP_MINUS), stays (IRPROP_MINUS), or goes back if
the cost is larger at `x1` than at `x0` and stays otherwise (IRPROP_PLUS). If it has the same sign, the parameter moves on against the derivative by the lengthened step. -/
theorem C34_moves (E : Env K (Fin n → K) n) (hupd : ∀ x d i, E.update x d i = x i + d i) (o : Opt K) (ho : Sane o) (x : Fin n → K)
    (s0 s1 s2 : St K (Fin n → K) n) (b : Bool) (h : Reach E o x s0) (h1 : iter E o s0 = (s1, true)) (h2 : iter E o s1 = (s2, b)) (i : Fin n)
    (hprev : 0 ≤ (s0.c i).prevG * E.gradient s0.x i) (hg : ¬ E.norm (E.gradient s1.x) < o.gradientNorm) :
    let g0 := E.gradient s0.x i
    let g1 := E.gradient s1.x i
    let step := |s1.x i - s0.x i|
    (g0 * g1 < 0 → s2.x i = match o.method with
      | .rpropPlus => s0.x i
      | .rpropMinus => s1.x i - sign g1 * max (o.etaMinus * step) o.minDelta
      | .irpropMinus => s1.x i
      | .irpropPlus => if E.cost s0.x < E.cost s1.x then s0.x i else s1.x i) ∧
    (0 < g0 * g1 → s2.x i = s1.x i - sign g1 * min (o.etaPlus * step) o.maxDelta) := by
  obtain ⟨p1, p2, p3⟩ := ho.pos
  have hinv := reach_inv E ho x s0 h i
  obtain ⟨a1, a2⟩ := adapt_bounds ho (s0.c i) (E.gradient s0.x i) hinv.lo hinv.hi
  intro g0 g1 step
  have e1 := (iter_force E o s0 s1 h1).1
  have c1 : s1.c i = ⟨-sign g0 * adapt o (s0.c i) g0, g0, adapt o (s0.c i) g0⟩ := by
    rw [e1]
    exact coord_move _ (s0.c i) g0 hprev
  have x1 : s1.x i = s0.x i + (s1.c i).dx := by rw [e1]; exact hupd _ _ _
  have d1 : (s1.c i).delta = adapt o (s0.c i) g0 := by rw [c1]
  have pe : o.method = .irpropPlus → s1.prevError = some (E.cost s0.x) := by
    intro hm; rw [e1]; simp [force, hm]
  have hx2 : s2.x i = s1.x i + (coord o (errorIncreased o s1.prevError (E.cost s1.x)) (s1.c i) g1).dx := by
    unfold iter at h2
    simp only at h2
    rw [if_neg hg] at h2
    split at h2
    · cases h2; exact hupd _ _ _
    · split at h2
      · cases h2; exact hupd _ _ _
      · cases h2; exact hupd _ _ _
  have hstep : g0 ≠ 0 → step = (s1.c i).delta := by
    intro hz
    show |s1.x i - s0.x i| = _
    rw [x1, c1, add_sub_cancel_left, abs_sign_mul _ _ (by linarith), if_neg hz]
  constructor
  · intro hs
    have hz : g0 ≠ 0 := fun h => by rw [h, zero_mul] at hs; exact lt_irrefl _ hs
    have hy : switchYes (s1.c i) g1 = true := by rw [c1]; simpa [switchYes] using hs
    have ha : adapt o (s1.c i) g1 = max (o.etaMinus * step) o.minDelta := by
      unfold adapt
      rw [hy, hstep hz, if_neg, if_pos rfl, mul_comm]
      rw [c1]; exact not_lt.2 hs.le
    rw [hx2]
    unfold coord
    cases hm : o.method with
    | rpropPlus => simp only [hy, if_true]; rw [x1]; ring
    | rpropMinus => simp only [ha]; ring
    | irpropMinus => simp only [hy, if_true, add_zero]
    | irpropPlus =>
      simp only [hy, if_true]
      have hi : errorIncreased o s1.prevError (E.cost s1.x) = decide (E.cost s0.x < E.cost s1.x) := by
        rw [pe hm]; simp [errorIncreased, hm]
      rw [hi]
      by_cases hc : E.cost s0.x < E.cost s1.x
      · simp only [hc, decide_true, if_true]; rw [x1]; ring
      · simp only [hc, decide_false, if_false, Bool.false_eq_true, add_zero]
  · intro hs
    have hz : g0 ≠ 0 := fun h => by rw [h, zero_mul] at hs; exact lt_irrefl _ hs
    have hs' : 0 < (s1.c i).prevG * g1 := by rw [c1]; exact hs
    have ha : adapt o (s1.c i) g1 = min (o.etaPlus * step) o.maxDelta := by
      unfold adapt
      rw [if_pos hs', hstep hz, mul_comm]
    rw [hx2, coord_move _ _ _ hs'.le, ha]
    ring

/-- IRPROP_PLUS on the parabola, with a first step of 1 from 2.8: the derivative changes its sign and the cost increases from 0.04 to 0.64; the second pass goes back. -/
example : let o : Opt ℚ := { defaults .irpropPlus with initialDelta := 1 }
    let r := iter bowl o (start o fun _ => 28 / 10)
    r.2 = true ∧ r.1.x 0 = 38 / 10 ∧ (iter bowl o r.1).1.x 0 = 28 / 10 := by
  decide +kernel

end Verif.Rprop
