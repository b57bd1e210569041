import Verif.Trust.Model
import Verif.Optimizer2.Props
import Mathlib.Tactic.Ring
import Mathlib.Tactic.Linarith
import Mathlib.Tactic.FieldSimp
import Mathlib.Tactic.NormNum
import Mathlib.Tactic.Positivity
import Mathlib.Tactic.Module
import Mathlib.Analysis.Complex.Basic
import Mathlib.Analysis.InnerProductSpace.Basic

/-! Properties C27-C30 and C73. -/
namespace Verif.Trust
open Verif.Optimizer2

/-! ### C27: the gain -/

section Gain
variable {K X D P : Type} [LinearOrder K] [CommRing K]

/-- Any optimizer set-up with the base class of the policies around its policy. The policy state additionally
records the value of `get_dJ()` during each call of `solveSystemImplementation`. -/
def withBase (S : Setup K X D P) : Setup K X D (Base (Dbl K) × P × List (Dbl K)) where
  cost := S.cost
  update := S.update
  revert := S.revert
  maxAbs := S.maxAbs
  size := S.size
  numOpt := S.numOpt
  start q J := (Base.start J, S.start q.2.1 J, [])
  solve q x d J f :=
    let b := q.1.call J f
    let r := S.solve q.2.1 x d J f
    ((b.done, r.1, q.2.2 ++ [b.gain]), r.2.1, r.2.2)
  reverts := S.reverts

/-- **C27** (part). In a run in which every step is accepted, the gain the policy sees in its k-th call is the
cost before the last step minus the cost after it (zero in the first call, `k - 1 = 0`). (Missing: runs with
rejected steps, where it is false, see the counterexample.) -/
theorem C27_gain_without_rejections_partial (S : Setup K X D P) (hrev : S.reverts = true) (o : Options K) (x : X)
    (q : Base (Dbl K) × P × List (Dbl K)) (dx : D) (r) (h : optimize (withBase S) o (fresh x q dx) = .ok r) (hf : r.failed = 0) :
    r.events.length = r.p.2.2.length + 1 ∧
    ∀ k, k < r.p.2.2.length → r.p.2.2.getD k .nan =
      Dbl.sub ((r.events.map Prod.fst).getD (k - 1) .nan) ((r.events.map Prod.fst).getD k .nan) := by
  obtain ⟨s, e, hr⟩ := run_ok (show run (withBase S) o (initObj (fresh x q dx)) = .ok r from h)
  have := (loop_inv (S := withBase S) (o := o) (fun s => 0 ≤ s.failed ∧ (s.failed = 0 → s.prevFailed = false ∧
      s.events.length = s.p.2.2.length + 1 ∧
      (s.events.map Prod.fst).getD s.p.2.2.length .nan = s.error ∧
      (s.events.map Prod.fst).getD (s.p.2.2.length - 1) .nan = s.p.1.J ∧
      ∀ k, k < s.p.2.2.length → s.p.2.2.getD k .nan =
        Dbl.sub ((s.events.map Prod.fst).getD (k - 1) .nan) ((s.events.map Prod.fst).getD k .nan))) ?_ _ ?_ _ e).1
  · have hs := this.2 (by rw [hr] at hf; exact hf)
    rw [hr]
    exact ⟨hs.2.1, hs.2.2.2.2⟩
  · intro s s' _ hi ⟨h0, hI⟩
    rcases iter_cases hi with ⟨_, rfl⟩ | ⟨_, _, _, rfl⟩ | ⟨_, hl, rfl⟩
    · refine ⟨by simp only [afterFailure]; omega, fun hz => ?_⟩
      simp only [afterFailure] at hz; omega
    · refine ⟨by simp only [afterReject]; omega, fun hz => ?_⟩
      simp only [afterReject] at hz; omega
    · refine ⟨by simp only [afterAccept]; exact h0, fun hz => ?_⟩
      have hz' : s.failed = 0 := hz
      obtain ⟨h1, h2, h3, h4, h5⟩ := hI hz'
      have hv : (withBase S).reverts = true := hrev
      simp only [afterAccept, hv, if_true, h1, withBase, List.length_append, List.length_singleton, List.map_append,
        List.map_cons, List.map_nil]
      have hlen : (s.events.map Prod.fst).length = s.p.2.2.length + 1 := by simpa using h2
      refine ⟨by simp, by omega, ?_, ?_, ?_⟩
      · rw [List.getD_eq_getElem?_getD, List.getElem?_append_right (by omega), hlen]
        simp
      · rw [Nat.add_sub_cancel, List.getD_eq_getElem?_getD, List.getElem?_append_left (by omega),
          ← List.getD_eq_getElem?_getD, h3]
        rfl
      · intro k hk
        have hA : ∀ j, j < s.p.2.2.length + 1 → ∀ z : Dbl K, ((s.events.map Prod.fst) ++ [z]).getD j .nan =
            (s.events.map Prod.fst).getD j .nan := by
          intro j hj z
          rw [List.getD_eq_getElem?_getD, List.getElem?_append_left (by omega), ← List.getD_eq_getElem?_getD]
        rw [hA _ (by omega), hA _ (by omega)]
        by_cases hk' : k < s.p.2.2.length
        · rw [List.getD_eq_getElem?_getD, List.getElem?_append_left hk', ← List.getD_eq_getElem?_getD, h5 k hk']
        · have hk2 : k = s.p.2.2.length := by omega
          subst hk2
          rw [List.getD_eq_getElem?_getD, List.getElem?_append_right (le_refl _)]
          simp only [Nat.sub_self, List.getElem?_cons_zero, Option.getD_some]
          rw [h3, h4]
          simp [Base.gain, Base.call]
  · refine ⟨by simp [enter, initObj, fresh], fun _ => ?_⟩
    simp [enter, initObj, fresh, withBase, Base.start]

/-- Costs 100, 25 (accepted), 49 (rejected), 16 (accepted). In the call after the rejected step the policy sees a
gain of 100 - 49 = 51, as if the step had been very good, instead of 25 - 49; after the next accepted step it
sees 49 - 16 = 33 instead of 25 - 16. -/
theorem C27_gain_after_rejection_counterexample :
    ∃ r, optimize (withBase (demo (fun x => .fin (x * x)) true)) ⟨0, 0, 4⟩
        (fresh (10, 10) (Base.start (.fin 0), [some (-5), some 2, some (-1)], []) 0) = .ok r ∧
      (r.events.map Prod.fst).take 4 = [.fin 100, .fin 25, .fin 49, .fin 16] ∧
      r.p.2.2 = [.fin 0, .fin 75, .fin 51, .fin 33] ∧ r.failed = 1 :=
  optimize_check 10 _ (by decide)

example : ∃ r, optimize (withBase (demo (fun x => .fin (x * x)) true)) ⟨0, 0, 4⟩
        (fresh (10, 10) (Base.start (.fin 0), [some (-5), some (-1), some (-1), some (-1)], []) 0) = .ok r ∧
      r.failed = 0 ∧ r.p.2.2 = [.fin 0, .fin 75, .fin 9, .fin 7] :=
  optimize_check 10 _ (by decide)

end Gain

/-! ### C28: Levenberg-Marquardt -/

section LM
variable {K : Type} [LinearOrder K] [Field K] [IsStrictOrderedRing K]

/-- A sequence of calls after the first: whether the previous iteration failed, and the gain ratio. -/
def lmRun (s : LM K) : List (Bool × Dbl K) → Option (LM K)
  | [] => some s
  | (f, rho) :: l => (lmUpdate s false f rho).bind fun q => lmRun q.1 l

/-- Parameters for which the damping works: `gamma > 0`, `beta >= 1`, `mu >= 1`, `p >= 1` (the defaults are
3, 2, 2, 3). -/
structure LMOk (s : LM K) : Prop where
  lambda : 0 < s.lambda
  gamma : 0 < s.gamma
  beta : 1 ≤ s.beta
  mu : 1 ≤ s.mu
  p : 1 ≤ s.p

theorem pow_bound {r : K} (hr : 0 < r) {p : Int} (hp : 1 ≤ p) : -1 < (2 * r - 1) ^ p := by
  obtain ⟨n, rfl⟩ := Int.eq_ofNat_of_zero_le (by omega : 0 ≤ p)
  rw [zpow_natCast]
  rcases le_or_gt 0 (2 * r - 1) with h | h
  · exact lt_of_lt_of_le (by norm_num) (pow_nonneg h n)
  · have h1 : |2 * r - 1| < 1 := by rw [abs_of_neg h]; linarith
    have h2 : |(2 * r - 1) ^ n| < 1 := by
      rw [abs_pow]
      exact pow_lt_one₀ (abs_nonneg _) h1 (by omega)
    exact (abs_lt.1 h2).1

/-- One update with a gain ratio that is a number. -/
theorem lmUpdate_spec (s : LM K) (hs : LMOk s) (f : Bool) (rho : Dbl K) (hn : rho ≠ .nan) (hp : rho = .pinf → 1 < s.beta) :
    ∃ s' b, lmUpdate s false f rho = some (s', b) ∧ LMOk s' ∧ s'.gamma = s.gamma ∧ s'.beta = s.beta ∧ s'.p = s.p ∧
      ((f = true ∨ Dbl.le rho (.fin 0) = true) → 2 * s.lambda ≤ s'.lambda ∧ b = false) ∧
      (f = false → Dbl.le rho (.fin 0) = false → b = true ∧
        (1 / 10 ^ 16 < s.lambda → s.lambda / s.gamma ≤ s'.lambda ∧ s'.lambda ≤ max (1 / s.gamma) s.beta * s.lambda) ∧
        (s.lambda ≤ 1 / 10 ^ 16 → s'.lambda = 1 / 10 ^ 15)) := by
  obtain ⟨h1, h2, h3, h4, h5⟩ := hs
  unfold lmUpdate
  simp only [Bool.false_eq_true, if_false]
  cases f with
  | true =>
    rw [if_pos rfl]
    refine ⟨_, _, rfl, ⟨by simp only; nlinarith, h2, h3, by simp only; linarith, h5⟩, rfl, rfl, rfl, ?_, by simp⟩
    intro _
    refine ⟨?_, rfl⟩
    simp only
    nlinarith
  | false =>
    rw [if_neg (by simp)]
    cases hr : Dbl.le rho (.fin 0) with
    | true =>
      rw [if_pos rfl]
      refine ⟨_, _, rfl, ⟨by simp only; nlinarith, h2, h3, by simp only; linarith, h5⟩, rfl, rfl, rfl, ?_, by simp⟩
      intro _
      refine ⟨?_, rfl⟩
      simp only
      nlinarith
    | false =>
      rw [if_neg (by simp)]
      by_cases hl : s.lambda > 1 / 10 ^ 16
      · rw [if_pos hl]
        have hu1 : 0 < 1 / s.gamma := by positivity
        cases rho with
        | nan => exact absurd rfl hn
        | ninf => simp [Dbl.le, Dbl.lt] at hr
        | pinf =>
          simp only
          rw [if_pos (hp rfl)]
          refine ⟨_, _, rfl, ⟨by simp only; positivity, h2, h3, h3, h5⟩, rfl, rfl, rfl, by simp, ?_⟩
          intro _ _
          refine ⟨rfl, fun _ => ⟨?_, ?_⟩, fun h => absurd h (not_le.2 hl)⟩
          · simp only; rw [div_eq_mul_one_div]
          · simp only; rw [mul_comm]; exact mul_le_mul_of_nonneg_right (le_max_left _ _) h1.le
        | fin r =>
          have hr' : 0 < r := by
            rw [← not_le, ← Dbl.le_fin]; simp [hr]
          have hb := pow_bound hr' h5
          simp only
          set u2 := 1 - (s.beta - 1) * (2 * r - 1) ^ s.p with hu2
          have hu2b : u2 ≤ s.beta := by
            rw [hu2]; nlinarith
          set u := if 1 / s.gamma > u2 then 1 / s.gamma else u2 with hu
          have hul : 1 / s.gamma ≤ u := by
            rw [hu]; split
            · exact le_refl _
            · rename_i h; exact not_lt.1 h
          have huu : u ≤ max (1 / s.gamma) s.beta := by
            rw [hu]; split
            · exact le_max_left _ _
            · exact le_trans hu2b (le_max_right _ _)
          have hup : 0 < u := lt_of_lt_of_le hu1 hul
          refine ⟨_, _, rfl, ⟨by simp only; positivity, h2, h3, h3, h5⟩, rfl, rfl, rfl, by simp, ?_⟩
          intro _ _
          refine ⟨rfl, fun _ => ⟨?_, ?_⟩, fun h => absurd h (not_le.2 hl)⟩
          · simp only; rw [div_eq_mul_one_div]; exact mul_le_mul_of_nonneg_left hul h1.le
          · simp only; rw [mul_comm]; exact mul_le_mul_of_nonneg_right huu h1.le
      · rw [if_neg hl]
        refine ⟨_, _, rfl, ⟨by simp only; positivity, h2, h3, h4, h5⟩, rfl, rfl, rfl, by simp, ?_⟩
        intro _ _
        exact ⟨rfl, fun h => absurd h hl, fun _ => rfl⟩

/-- **C28** (part). After any sequence of updates with gain ratios that are numbers: lambda is positive; the next
update at least doubles it if the iteration failed or had no gain (keeping the old system), and otherwise
(rebuilding the system) keeps it between `lambda/gamma` and `max(1/gamma, beta)·lambda`, except that a lambda
of at most 1e-16 is set to 1e-15. (Missing: gain ratio NaN, see the counterexample.) -/
theorem C28_damping_partial (s : LM K) (hs : LMOk s) (hb : 1 < s.beta) (calls : List (Bool × Dbl K)) (hn : ∀ c ∈ calls, c.2 ≠ .nan)
    (f : Bool) (rho : Dbl K) (hrho : rho ≠ .nan) :
    ∃ s1 s' b, lmRun s calls = some s1 ∧ 0 < s1.lambda ∧ lmUpdate s1 false f rho = some (s', b) ∧ 0 < s'.lambda ∧
      ((f = true ∨ Dbl.le rho (.fin 0) = true) → 2 * s1.lambda ≤ s'.lambda ∧ b = false) ∧
      (f = false → Dbl.le rho (.fin 0) = false → b = true ∧
        (1 / 10 ^ 16 < s1.lambda → s1.lambda / s.gamma ≤ s'.lambda ∧ s'.lambda ≤ max (1 / s.gamma) s.beta * s1.lambda) ∧
        (s1.lambda ≤ 1 / 10 ^ 16 → s'.lambda = 1 / 10 ^ 15)) := by
  have hrun : ∃ s1, lmRun s calls = some s1 ∧ LMOk s1 ∧ s1.gamma = s.gamma ∧ s1.beta = s.beta := by
    induction calls generalizing s with
    | nil => exact ⟨s, rfl, hs, rfl, rfl⟩
    | cons c l ih =>
      obtain ⟨s', b, e, h1, h2, h3, h4, _⟩ := lmUpdate_spec s hs c.1 c.2 (hn c List.mem_cons_self) (fun _ => hb)
      obtain ⟨s1, e1, g1, g2, g3⟩ := ih s' h1 (by rw [h3]; exact hb) (fun c hc => hn c (List.mem_cons_of_mem _ hc))
      refine ⟨s1, ?_, g1, by rw [g2, h2], by rw [g3, h3]⟩
      show (lmUpdate s false c.1 c.2).bind _ = _
      rw [e]
      exact e1
  obtain ⟨s1, e1, h1, h2, h3⟩ := hrun
  obtain ⟨s', b, e, g1, g2, g3, g4, g5, g6⟩ := lmUpdate_spec s1 h1 f rho hrho (fun _ => by rw [h3]; exact hb)
  refine ⟨s1, s', b, e1, h1.lambda, e, g1.lambda, g5, ?_⟩
  rw [h2, h3] at g6
  exact g6

/-- After `k` failed iterations in a row, lambda has been multiplied by `mu^k · 2^(1+2+…+k)`. -/
theorem C28_failures_in_a_row (s : LM K) (k : Nat) (rho : Dbl K) :
    ∃ s', lmRun s (List.replicate k (true, rho)) = some s' ∧ s'.lambda = s.lambda * s.mu ^ k * 2 ^ (k * (k + 1) / 2) ∧
      s'.mu = s.mu * 2 ^ k := by
  have key : ∀ k (s : LM K), ∃ s', lmRun s (List.replicate k (true, rho)) = some s' ∧
      s'.lambda = s.lambda * s.mu ^ k * 2 ^ (k * (k + 1) / 2) ∧ s'.mu = s.mu * 2 ^ k := by
    intro k
    induction k with
    | zero => intro s; exact ⟨s, rfl, by simp, by simp⟩
    | succ k ih =>
      intro s
      obtain ⟨s', e, h1, h2⟩ := ih { s with mu := s.mu * 2, lambda := s.lambda * (s.mu * 2) }
      refine ⟨s', ?_, ?_, ?_⟩
      · rw [List.replicate_succ]
        show (lmUpdate s false true rho).bind _ = _
        exact e
      · rw [h1]
        simp only
        have : (k + 1) * (k + 1 + 1) / 2 = k * (k + 1) / 2 + (k + 1) := by
          have : (k + 1) * (k + 1 + 1) = k * (k + 1) + (k + 1) * 2 := by ring
          rw [this, Nat.add_mul_div_right _ _ (by norm_num)]
        rw [this, pow_add, mul_pow]
        ring
      · rw [h2]
        simp only
        ring
  exact key k s

/-- If cost change and predicted change are both zero the gain ratio is NaN and lambda becomes NaN. -/
theorem C28_nan_counterexample : lmUpdate (K := K) ⟨1 / 1000, 3, 2, 3, 2⟩ false false (lmRho 0 0) = none := by
  have h : (1 : K) / 1000 > 1 / 10 ^ 16 := by norm_num
  have e : lmRho (0 : K) 0 = .nan := by simp [lmRho, Dbl.div]
  unfold lmUpdate
  simp only [Bool.false_eq_true, if_false, e, Dbl.le_nan_left, if_pos h]

example : LMOk (⟨1 / 1000, 3, 2, 3, 2⟩ : LM ℚ) := ⟨by norm_num, by norm_num, by norm_num, by norm_num, by norm_num⟩

end LM

/-! ### C29: dog-leg -/

section DL
variable {V : Type} [NormedAddCommGroup V] [InnerProductSpace ℝ V]

/-- `beta` solves the equation of the trust-region boundary. -/
theorem dlBeta_norm (sd gn : V) (delta : ℝ) (hd : 0 ≤ delta) (hne : gn ≠ sd)
    (hdisc : 0 ≤ (inner ℝ sd (gn - sd)) * (inner ℝ sd (gn - sd)) + ‖gn - sd‖ ^ 2 * (delta * delta - ‖sd‖ * ‖sd‖)) :
    ‖sd + dlBeta sd gn ‖sd‖ delta • (gn - sd)‖ = delta := by
  set d := gn - sd with hdd
  set n := ‖d‖ ^ 2 with hn
  set c := inner ℝ sd d with hc
  set q := delta * delta - ‖sd‖ * ‖sd‖ with hq
  set D := c * c + n * q with hD
  have hnpos : 0 < n := by
    rw [hn]
    have : d ≠ 0 := by rw [hdd]; exact sub_ne_zero.2 hne
    positivity
  have hsq := Real.mul_self_sqrt hdisc
  have hsn := Real.sqrt_nonneg D
  have key : n * dlBeta sd gn ‖sd‖ delta ^ 2 + 2 * c * dlBeta sd gn ‖sd‖ delta = q := by
    unfold dlBeta
    simp only [← hdd, ← hn, ← hc, ← hq, ← hD]
    split
    · field_simp
      nlinarith
    · rename_i h
      have hw : 0 < c + Real.sqrt D := by push Not at h; linarith
      field_simp
      have : Real.sqrt D ^ 2 = c * c + n * q := by rw [pow_two]; exact hsq
      nlinarith
  have hnorm : ‖sd + dlBeta sd gn ‖sd‖ delta • d‖ ^ 2 = delta ^ 2 := by
    rw [norm_add_sq_real, inner_smul_right, norm_smul, mul_pow, Real.norm_eq_abs, sq_abs]
    have : ‖sd‖ ^ 2 = delta * delta - q := by rw [hq]; ring
    rw [this, ← hc, ← hn]
    nlinarith
  have := abs_eq_abs.2 (sq_eq_sq_iff_eq_or_eq_neg.1 hnorm)
  rwa [abs_of_nonneg (norm_nonneg _), abs_of_nonneg hd] at this

/-- If the steepest-descent step is inside and the Gauss-Newton step outside, `beta` lies between 0 and 1. -/
theorem dlBeta_range (sd gn : V) (delta : ℝ) (hs : ‖sd‖ ≤ delta) (hg : delta < ‖gn‖) :
    0 ≤ dlBeta sd gn ‖sd‖ delta ∧ dlBeta sd gn ‖sd‖ delta ≤ 1 := by
  set d := gn - sd with hdd
  set n := ‖d‖ ^ 2 with hn
  set c := inner ℝ sd d with hc
  set q := delta * delta - ‖sd‖ * ‖sd‖ with hq
  set D := c * c + n * q with hD
  have hs0 := norm_nonneg sd
  have hq0 : 0 ≤ q := by rw [hq]; nlinarith
  have hne : gn ≠ sd := by rintro rfl; linarith
  have hnpos : 0 < n := by
    rw [hn]
    have : d ≠ 0 := by rw [hdd]; exact sub_ne_zero.2 hne
    positivity
  have hgn : ‖gn‖ ^ 2 = ‖sd‖ ^ 2 + 2 * c + n := by
    have : gn = sd + d := by rw [hdd]; abel
    rw [this, norm_add_sq_real]
  have hqn : q < n + 2 * c := by
    have h1 : delta * delta < ‖gn‖ ^ 2 := by nlinarith [norm_nonneg gn]
    rw [hq]; nlinarith
  have hDn : 0 ≤ D := by rw [hD]; nlinarith [mul_self_nonneg c, mul_nonneg hnpos.le hq0]
  have hsq := Real.mul_self_sqrt hDn
  have hsn := Real.sqrt_nonneg D
  unfold dlBeta
  simp only [← hdd, ← hn, ← hc, ← hq, ← hD]
  split
  · rename_i h
    constructor
    · apply div_nonneg _ hnpos.le; linarith
    · rw [div_le_one hnpos]
      have : Real.sqrt D ≤ n + c := by
        rw [show n + c = Real.sqrt ((n + c) * (n + c)) from (Real.sqrt_mul_self (by linarith)).symm]
        apply Real.sqrt_le_sqrt
        rw [hD]; nlinarith
      linarith
  · rename_i h
    push Not at h
    have hw : 0 < c + Real.sqrt D := by linarith
    constructor
    · exact div_nonneg hq0 hw.le
    · rw [div_le_one hw]
      rcases le_total q c with h1 | h1
      · linarith
      · have : q - c ≤ Real.sqrt D := by
          rw [show q - c = Real.sqrt ((q - c) * (q - c)) from (Real.sqrt_mul_self (by linarith)).symm]
          apply Real.sqrt_le_sqrt
          rw [hD]; nlinarith
        linarith

/-- The stored norms belong to the stored vectors. -/
structure DInv (s : DL V) : Prop where
  sd : s.sdNorm = ‖s.sd‖
  gn : s.gnNorm = ‖s.gn‖
  delta : 0 ≤ s.delta

/-- What a returned step is allowed to be. -/
def StepOk (s : DL V) : Prop :=
  ‖s.dx‖ ≤ s.delta ∧
  ((s.dx = s.gn) ∨
   (‖s.dx‖ = s.delta ∧ ∃ t : ℝ, 0 ≤ t ∧ t ≤ 1 ∧ s.dx = t • s.sd) ∨
   (‖s.dx‖ = s.delta ∧ ∃ b : ℝ, s.dx = s.sd + b • (s.gn - s.sd) ∧ (‖s.sd‖ ≤ s.delta → 0 ≤ b ∧ b ≤ 1)))

theorem dlDelta_nonneg (s : DL V) (h : DInv s) (first : Bool) (gain : ℝ) : 0 ≤ dlDelta s first gain := by
  have h1 := h.delta
  have h2 : 0 ≤ s.gnNorm := by rw [h.gn]; exact norm_nonneg _
  unfold dlDelta
  simp only
  repeat' split
  all_goals first | exact h1 | positivity

theorem dlGn_spec (s : DL V) (J : ℝ) (hsd : s.sdNorm = ‖s.sd‖) (hgn : s.gnNorm = ‖s.gn‖) (hd : 0 ≤ s.delta)
    (hin : s.delta = 0 ∨ s.sdNorm < s.delta) : DInv (dlGn s J) ∧ StepOk (dlGn s J) := by
  unfold dlGn
  simp only
  set delta := if s.delta = 0 then ‖s.sd + (1 / 2 : ℝ) • (s.gn - s.sd)‖ else s.delta with hdelta
  have hd0 : 0 ≤ delta := by
    rw [hdelta]; split
    · exact norm_nonneg _
    · exact hd
  split
  · rename_i hle
    refine ⟨⟨hsd, hgn, hd0⟩, ?_, .inl rfl⟩
    simp only
    rw [← hgn]; exact hle
  · rename_i hlt
    push Not at hlt
    rw [hgn] at hlt
    have hdisc : 0 ≤ (inner ℝ s.sd (s.gn - s.sd)) * (inner ℝ s.sd (s.gn - s.sd)) +
        ‖s.gn - s.sd‖ ^ 2 * (delta * delta - ‖s.sd‖ * ‖s.sd‖) := by
      by_cases hz : s.delta = 0
      · have e : delta = ‖s.sd + (1 / 2 : ℝ) • (s.gn - s.sd)‖ := by rw [hdelta, if_pos hz]
        have e2 : delta * delta = ‖s.sd‖ ^ 2 + inner ℝ s.sd (s.gn - s.sd) + ‖s.gn - s.sd‖ ^ 2 / 4 := by
          rw [e, ← pow_two, norm_add_sq_real, inner_smul_right, norm_smul, mul_pow]
          norm_num
          ring
        rw [e2]
        have : ∀ c n a : ℝ, c * c + n * (a ^ 2 + c + n / 4 - a * a) = (c + n / 2) ^ 2 := by intros; ring
        rw [this]
        positivity
      · have e : delta = s.delta := by rw [hdelta, if_neg hz]
        have h1 : s.sdNorm < s.delta := by rcases hin with h | h; exact absurd h hz; exact h
        rw [hsd] at h1
        rw [e]
        have := norm_nonneg s.sd
        have h2 : 0 ≤ s.delta * s.delta - ‖s.sd‖ * ‖s.sd‖ := by nlinarith
        have := mul_self_nonneg (inner ℝ s.sd (s.gn - s.sd))
        positivity
    have hne : s.gn ≠ s.sd := by
      intro h
      by_cases hz : s.delta = 0
      · have e : delta = ‖s.sd + (1 / 2 : ℝ) • (s.gn - s.sd)‖ := by rw [hdelta, if_pos hz]
        rw [h] at e hlt
        simp only [sub_self, smul_zero, add_zero] at e
        rw [e] at hlt
        exact lt_irrefl _ hlt
      · have e : delta = s.delta := by rw [hdelta, if_neg hz]
        have h1 : s.sdNorm < s.delta := by rcases hin with h | h; exact absurd h hz; exact h
        rw [hsd] at h1
        rw [h, e] at hlt
        linarith
    have hnorm := dlBeta_norm s.sd s.gn delta hd0 hne hdisc
    rw [hsd]
    refine ⟨⟨rfl, hgn, hd0⟩, ?_, .inr (.inr ⟨hnorm, _, rfl, fun h => dlBeta_range _ _ _ h hlt⟩)⟩
    simp only
    rw [hnorm]

theorem dlCall_spec (s s' : DL V) (first prevFailed : Bool) (gain J : ℝ) (l : Lin V) (b : Bool)
    (hd : 0 ≤ dlDelta s first gain) (hs : prevFailed = true → DInv s)
    (hg : b = false → s.gnNorm = ‖s.gn‖) (hgs : s.gnNorm = ‖s.gn‖ ∨ (first = true ∧ s.delta = 0))
    (h : dlCall s first prevFailed gain J l = some (s', b)) : DInv s' ∧ (b = true → StepOk s') := by
  unfold dlCall at h
  simp only at h
  split at h
  · cases h
  · rename_i s1 e1
    have hs1 : s1.sdNorm = ‖s1.sd‖ ∧ s1.gnNorm = s.gnNorm ∧ s1.gn = s.gn ∧ s1.delta = dlDelta s first gain := by
      cases prevFailed with
      | true =>
        rw [if_pos rfl] at e1
        cases e1
        exact ⟨(hs rfl).sd, rfl, rfl, rfl⟩
      | false =>
        rw [if_neg (by simp)] at e1
        unfold dlRebuild at e1
        split at e1
        · cases e1
        · cases e1
          exact ⟨rfl, rfl, rfl, rfl⟩
    have hd1 : 0 ≤ s1.delta := by rw [hs1.2.2.2]; exact hd
    split at h
    · rename_i hc
      cases h
      have hpos : 0 < s1.delta := lt_of_le_of_ne hd1 (Ne.symm hc.2)
      have hgn : s1.gnNorm = ‖s1.gn‖ := by
        rcases hgs with h | ⟨h1, h2⟩
        · rw [hs1.2.1, hs1.2.2.1, h]
        · exfalso
          apply hc.2
          rw [hs1.2.2.2]
          unfold dlDelta
          simp only
          rw [if_pos h1]; exact h2
      refine ⟨⟨hs1.1, hgn, hd1⟩, fun _ => ?_⟩
      have hn : ‖(s1.delta / s1.sdNorm) • s1.sd‖ = s1.delta := by
        rw [norm_smul, Real.norm_eq_abs, hs1.1]
        have : 0 < ‖s1.sd‖ := by rw [← hs1.1]; exact lt_of_lt_of_le hpos hc.1
        rw [abs_of_pos (by positivity)]
        field_simp
      refine ⟨hn.le, .inr (.inl ⟨hn, s1.delta / s1.sdNorm, ?_, ?_, rfl⟩)⟩
      · apply div_nonneg hd1; rw [hs1.1]; exact norm_nonneg _
      · rw [div_le_one (lt_of_lt_of_le hpos hc.1)]; exact hc.1
    · rename_i hc
      have hin : s1.delta = 0 ∨ s1.sdNorm < s1.delta := by
        by_cases hz : s1.delta = 0
        · exact .inl hz
        · right
          by_contra h'
          exact hc ⟨not_lt.1 h', hz⟩
      split at h
      · rename_i hp
        cases h
        have := dlGn_spec s1 J hs1.1 (by rw [hs1.2.1, hs1.2.2.1]; exact (hs hp).gn) hd1 hin
        exact ⟨this.1, fun _ => this.2⟩
      · split at h
        · cases h
          exact ⟨⟨hs1.1, by rw [hs1.2.1, hs1.2.2.1]; exact hg rfl, hd1⟩, by simp⟩
        · rename_i g _
          cases h
          have := dlGn_spec { s1 with gn := g, gnNorm := ‖g‖ } J hs1.1 rfl hd1 hin
          exact ⟨this.1, fun _ => this.2⟩

/-- A call of the policy after the first one. -/
structure Call (V : Type) where
  prevFailed : Bool
  gain : ℝ
  J : ℝ
  lin : Lin V

/-- Runs through calls; `none` if a quantity is not finite. -/
noncomputable def dlRun (s : DL V) : List (Call V) → Option (DL V)
  | [] => some s
  | c :: cs => (dlCall s false c.prevFailed c.gain c.J c.lin).bind fun q => dlRun q.1 cs

theorem dlRun_inv (calls : List (Call V)) (s1 s2 : DL V) (hs : DInv s1) (h2 : dlRun s1 calls = some s2) : DInv s2 := by
  induction calls generalizing s1 with
  | nil => cases h2; exact hs
  | cons c cs ih =>
    unfold dlRun at h2
    cases e : dlCall s1 false c.prevFailed c.gain c.J c.lin with
    | none => rw [e] at h2; cases h2
    | some q =>
      rw [e] at h2
      exact ih q.1 (dlCall_spec s1 q.1 false c.prevFailed c.gain c.J c.lin q.2 (dlDelta_nonneg s1 hs _ _)
        (fun _ => hs) (fun _ => hs.gn) (.inl hs.gn) e).1 h2

/-- **C29** (part). Whatever the policy did in earlier optimizations (`s0`), if the first linear solve of this
one succeeds, then after any sequence of calls (rejected and accepted steps, failing solves, any gains) every
step returned has norm at most delta; it is the Gauss-Newton step, or a steepest-descent step scaled to norm
exactly delta, or the point of norm exactly delta on the line from the one to the other, between the two if
the steepest-descent step is inside. (Missing: the first solve fails, see the counterexample.) -/
theorem C29_step_in_trust_region_partial (s0 s1 : DL V) (g0 J0 : ℝ) (l0 : Lin V)
    (h1 : dlCall s0.start true false g0 J0 l0 = some (s1, true)) (calls : List (Call V)) (s2 : DL V)
    (h2 : dlRun s1 calls = some s2) (c : Call V) (s3 : DL V)
    (h3 : dlCall s2 false c.prevFailed c.gain c.J c.lin = some (s3, true)) :
    StepOk s1 ∧ StepOk s3 := by
  have hfirst := dlCall_spec s0.start s1 true false g0 J0 l0 true (by unfold dlDelta DL.start; simp) (by simp) (by simp)
    (.inr ⟨rfl, rfl⟩) h1
  have hrun : DInv s2 := by
    exact dlRun_inv calls s1 s2 hfirst.1 h2
  have := dlCall_spec s2 s3 false c.prevFailed c.gain c.J c.lin true (dlDelta_nonneg s2 hrun _ _)
          (fun _ => hrun) (fun _ => hrun.gn) (.inl hrun.gn) h3
  exact ⟨hfirst.2 rfl, this.2 rfl⟩

/-- **C29** (delta). As long as Gauss-Newton steps are not zero, the radius stays positive. -/
theorem C29_delta_positive (s s' : DL V) (hs : DInv s) (hp : 0 < s.delta) (hg : s.gn ≠ 0) (prevFailed : Bool) (gain J : ℝ)
    (l : Lin V) (b : Bool) (h : dlCall s false prevFailed gain J l = some (s', b)) : 0 < s'.delta := by
  have hgn : 0 < s.gnNorm := by rw [hs.gn]; exact norm_pos_iff.2 hg
  have hd : 0 < dlDelta s false gain := by
    unfold dlDelta
    simp only
    split
    · exact hp
    · split
      · split
        · exact lt_of_lt_of_le hp (by assumption)
        · exact hp
      · repeat' split
        all_goals first | exact hp | positivity
  have hdl : ∀ (t : DL V), t.delta = dlDelta s false gain → 0 < (dlGn t J).delta := by
    intro t ht
    unfold dlGn
    simp only
    rw [ht, if_neg (ne_of_gt hd)]
    split <;> exact hd
  unfold dlCall at h
  simp only at h
  split at h
  · cases h
  · rename_i s1 e1
    have hs1 : s1.delta = dlDelta s false gain := by
      cases prevFailed with
      | true => rw [if_pos rfl] at e1; cases e1; rfl
      | false =>
        rw [if_neg (by simp)] at e1
        unfold dlRebuild at e1
        split at e1
        · cases e1
        · cases e1; rfl
    split at h
    · cases h; simp only; rw [hs1]; exact hd
    · split at h
      · cases h; exact hdl _ hs1
      · split at h
        · cases h; rw [hs1]; exact hd
        · cases h; exact hdl _ hs1

/-- **C29** (radius). How the radius follows the step just returned: halved at least when the cost did not go down, halved when
less than a quarter of the predicted decrease was reached, unchanged between a quarter and three quarters, and beyond that
enlarged to three times the length of the step if that is more. -/
theorem C29_radius (s s' : DL V) (first prevFailed : Bool) (gain J : ℝ) (l : Lin V)
    (h : dlCall s first prevFailed gain J l = some (s', true)) (hL : 0 < s'.L0) (hd : 0 ≤ s'.delta) (gain' : ℝ) :
    (gain' ≤ 0 → dlDelta s' false gain' ≤ s'.delta / 2) ∧
    (0 < gain' → gain' < s'.L0 / 4 → dlDelta s' false gain' = s'.delta / 2) ∧
    (s'.L0 / 4 ≤ gain' → gain' ≤ 3 * s'.L0 / 4 → dlDelta s' false gain' = s'.delta) ∧
    (3 * s'.L0 / 4 < gain' → dlDelta s' false gain' = max s'.delta (3 * ‖s'.dx‖)) := by
  have hgn : s'.step = .gn → s'.gnNorm ≤ s'.delta := by
    have hdl : ∀ t : DL V, (dlGn t J).step = .gn → (dlGn t J).gnNorm ≤ (dlGn t J).delta := by
      intro t
      unfold dlGn
      simp only
      generalize (if t.delta = 0 then _ else t.delta) = d
      split
      · exact fun _ => by assumption
      · intro hh
        cases hh
    unfold dlCall at h
    simp only at h
    split at h
    · cases h
    · split at h
      · cases h
        intro hh
        cases hh
      · split at h
        · cases h
          exact hdl _
        · split at h
          · cases h
          · cases h
            exact hdl _
  have hr : Dbl.div gain' s'.L0 = .fin (gain' / s'.L0) := by unfold Dbl.div; rw [if_neg (ne_of_gt hL)]
  have e1 : Dbl.lt (.fin (3 / 4)) (.fin (gain' / s'.L0)) = decide (3 * s'.L0 / 4 < gain') := by
    simp only [Dbl.lt, decide_eq_decide, lt_div_iff₀ hL]
    constructor <;> intro h <;> linarith
  have e2 : Dbl.lt (.fin 0) (.fin (gain' / s'.L0)) = decide (0 < gain') := by
    simp only [Dbl.lt, lt_div_iff₀ hL, zero_mul]
  have e3 : Dbl.lt (.fin (gain' / s'.L0)) (.fin (1 / 4)) = decide (gain' < s'.L0 / 4) := by
    simp only [Dbl.lt, decide_eq_decide, div_lt_iff₀ hL]
    constructor <;> intro h <;> linarith
  have e4 : Dbl.le (.fin (gain' / s'.L0)) (.fin 0) = decide (gain' ≤ 0) := by
    simp only [Dbl.le, e2, ← decide_not, not_lt]
  have key : dlDelta s' false gain' = if 3 * s'.L0 / 4 < gain' then (if s'.delta ≤ 3 * ‖s'.dx‖ then 3 * ‖s'.dx‖ else s'.delta)
      else if 0 < gain' ∧ gain' < s'.L0 / 4 then s'.delta / 2
      else if gain' ≤ 0 then (if s'.step = .gn then s'.gnNorm / 2 else s'.delta / 2) else s'.delta := by
    unfold dlDelta
    simp only [hr, e1, e2, e3, e4, Bool.false_eq_true, if_false, decide_eq_true_eq, Bool.and_eq_true]
  rw [key]
  refine ⟨fun h1 => ?_, fun h1 h2 => ?_, fun h1 h2 => ?_, fun h1 => ?_⟩
  · rw [if_neg (by linarith), if_neg (by rintro ⟨h2, -⟩; linarith), if_pos h1]
    split
    · have := hgn (by assumption)
      linarith
    · exact le_refl _
  · rw [if_neg (by linarith), if_pos ⟨h1, h2⟩]
  · rw [if_neg (by linarith), if_neg (by rintro ⟨-, h3⟩; linarith), if_neg (by linarith)]
  · rw [if_pos h1]
    split
    · rw [max_eq_right (by assumption)]
    · rw [max_eq_left (by linarith)]

example : ∃ s' : DL ℝ, dlCall (⟨0, 0, 0, 0, 0, 0, 0, 0, .none⟩ : DL ℝ) true false 0 8 ⟨2, 8, some 1⟩ = some (s', true) ∧
    0 < s'.L0 ∧ 0 ≤ s'.delta := by
  refine ⟨_, by norm_num [dlCall, dlRebuild, dlDelta, dlGn]; rfl, ?_, ?_⟩ <;> norm_num

/-- The linear system the policy works with: a failed iteration keeps the old one. -/
def curLin (l : Lin V) (c : Call V) : Lin V := if c.prevFailed then l else c.lin

/-- Runs through calls together with the system in use. -/
noncomputable def dlRunL (q : DL V × Lin V) : List (Call V) → Option (DL V × Lin V)
  | [] => some q
  | c :: cs => (dlCall q.1 false c.prevFailed c.gain c.J c.lin).bind fun r => dlRunL (r.1, curLin q.2 c) cs

/-- The stored Gauss-Newton step solves the system in use, or the last step was a steepest-descent step. -/
def Fresh (s : DL V) (l : Lin V) : Prop :=
  l.sol = some s.gn ∨ (s.step = .sd ∧ s.delta ≤ s.sdNorm ∧ 0 < s.delta ∧ 0 < s.L0 ∧ 0 < s.scale)

/-- Calls as a correct caller would make them: gains of failed iterations are not positive, the linear solver
always succeeds, `‖A rhs‖^2` is not negative. -/
def CallOk (c : Call V) : Prop :=
  (c.prevFailed = true → c.gain ≤ 0) ∧ (c.lin.sol ≠ none) ∧ 0 ≤ c.lin.rJJr

theorem dlGn_gn (s : DL V) (J : ℝ) : (dlGn s J).gn = s.gn := by
  unfold dlGn; simp only; generalize (if s.delta = 0 then _ else s.delta) = d; split <;> rfl

theorem dlGn_step (s : DL V) (J : ℝ) : (dlGn s J).step ≠ .sd := by
  unfold dlGn; simp only; generalize (if s.delta = 0 then _ else s.delta) = d; split <;> simp

theorem fresh_step (s s' : DL V) (l : Lin V) (hs : DInv s) (hf : Fresh s l) (c : Call V) (hc : CallOk c) (b : Bool)
    (h : dlCall s false c.prevFailed c.gain c.J c.lin = some (s', b)) :
    Fresh s' (curLin l c) ∧ (s'.step = .sd ∨ (curLin l c).sol = some s'.gn) := by
  have hd0 := dlDelta_nonneg s hs false c.gain
  obtain ⟨f, gain, J, li⟩ := c
  obtain ⟨c1, c2, c3⟩ := hc
  simp only at h c1 c2 c3 hd0
  cases f with
  | true =>
    simp only [curLin, if_true]
    unfold dlCall at h
    simp only [if_true] at h
    rcases hf with hf | ⟨f1, f2, f3, f4, f5⟩
    · split at h
      · cases h; exact ⟨.inl hf, .inl rfl⟩
      · cases h
        refine ⟨.inl ?_, .inr ?_⟩ <;> rw [dlGn_gn] <;> exact hf
    · have hdel : dlDelta s false gain = s.delta / 2 := by
        have hr : Dbl.div gain s.L0 = .fin (gain / s.L0) := by unfold Dbl.div; rw [if_neg (ne_of_gt f4)]
        have hle : gain / s.L0 ≤ 0 := div_nonpos_of_nonpos_of_nonneg (c1 rfl) f4.le
        unfold dlDelta
        simp only [hr, f1]
        have e1 : Dbl.lt (.fin (3 / 4)) (.fin (gain / s.L0)) = false := by
          rw [Bool.eq_false_iff, ne_eq, Dbl.lt_fin]; linarith
        have e2 : Dbl.lt (.fin 0) (.fin (gain / s.L0)) = false := by
          rw [Bool.eq_false_iff, ne_eq, Dbl.lt_fin]; linarith
        have e3 : Dbl.le (.fin (gain / s.L0)) (.fin 0) = true := by rw [Dbl.le_fin]; exact hle
        simp [e1, e2, e3]
      have hcond : s.sdNorm ≥ dlDelta s false gain ∧ dlDelta s false gain ≠ 0 := by
        rw [hdel]; exact ⟨by linarith, by positivity⟩
      rw [if_pos hcond] at h
      cases h
      refine ⟨.inr ⟨rfl, hcond.1, lt_of_le_of_ne hd0 (Ne.symm hcond.2), ?_, f5⟩, .inl rfl⟩
      simp only
      rw [hdel]
      have : 0 < 2 * s.sdNorm - s.delta / 2 := by linarith
      positivity
  | false =>
    simp only [curLin, Bool.false_eq_true, if_false]
    unfold dlCall dlRebuild at h
    simp only [Bool.false_eq_true, if_false] at h
    by_cases hz : li.rJJr = 0
    · rw [if_pos hz] at h; cases h
    · rw [if_neg hz] at h
      simp only at h
      have hr : 0 < li.rJJr := lt_of_le_of_ne c3 (Ne.symm hz)
      split at h
      · rename_i hcond
        cases h
        have hdpos : 0 < dlDelta s false gain := lt_of_le_of_ne hd0 (Ne.symm hcond.2)
        have hsdn := lt_of_lt_of_le hdpos hcond.1
        have hg : 0 < ‖li.rhs‖ := by
          rw [norm_pos_iff]
          intro h0
          rw [h0] at hsdn
          simp at hsdn
        have hscale : 0 < ‖li.rhs‖ ^ 2 / li.rJJr := by positivity
        refine ⟨.inr ⟨rfl, hcond.1, hdpos, ?_, hscale⟩, .inl rfl⟩
        simp only
        have : 0 < 2 * ‖(‖li.rhs‖ ^ 2 / li.rJJr) • li.rhs‖ - dlDelta s false gain := by
          have := hcond.1
          linarith
        positivity
      · split at h
        · rename_i hsol
          exact absurd hsol c2
        · rename_i g hsol
          cases h
          refine ⟨.inl ?_, .inr ?_⟩ <;> rw [dlGn_gn] <;> exact hsol

/-- **C29** (part: which Gauss-Newton step). If all linear solves succeed and the gains after failed iterations
are not positive, then every step that is not a steepest-descent step is built from the solution of the system
in use (the one built at the current state). (Missing: with the gains the optimizer really passes (C27) it is
false, see the counterexample.) -/
theorem C29_current_gauss_newton_partial (s0 s1 : DL V) (g0 J0 : ℝ) (l0 : Lin V) (hl0 : 0 ≤ l0.rJJr)
    (h1 : dlCall s0.start true false g0 J0 l0 = some (s1, true)) (calls : List (Call V)) (hc : ∀ c ∈ calls, CallOk c)
    (q : DL V × Lin V) (h2 : dlRunL (s1, l0) calls = some q) (c : Call V) (hcc : CallOk c) (s3 : DL V) (b : Bool)
    (h3 : dlCall q.1 false c.prevFailed c.gain c.J c.lin = some (s3, b)) :
    s3.step = .sd ∨ (curLin q.2 c).sol = some s3.gn := by
  have hfirst := (dlCall_spec s0.start s1 true false g0 J0 l0 true (by unfold dlDelta DL.start; simp) (by simp) (by simp)
    (.inr ⟨rfl, rfl⟩) h1).1
  have hf : Fresh s1 l0 := by
    unfold dlCall dlRebuild at h1
    simp only [Bool.false_eq_true, if_false] at h1
    by_cases hz : l0.rJJr = 0
    · rw [if_pos hz] at h1; cases h1
    · rw [if_neg hz] at h1
      simp only at h1
      rw [if_neg (by simp [dlDelta, DL.start])] at h1
      split at h1
      · cases h1
      · rename_i g hsol
        cases h1
        left
        rw [dlGn_gn]; exact hsol
  have hrun : DInv q.1 ∧ Fresh q.1 q.2 := by
    clear h1 h3
    induction calls generalizing s1 l0 with
    | nil => cases h2; exact ⟨hfirst, hf⟩
    | cons c cs ih =>
      unfold dlRunL at h2
      cases e : dlCall s1 false c.prevFailed c.gain c.J c.lin with
      | none => simp only [e] at h2; cases h2
      | some r =>
        simp only [e] at h2
        have hok := hc c List.mem_cons_self
        have hf' := (fresh_step s1 r.1 l0 hfirst hf c hok r.2 e).1
        have hi := (dlCall_spec s1 r.1 false c.prevFailed c.gain c.J c.lin r.2 (dlDelta_nonneg s1 hfirst _ _)
          (fun _ => hfirst) (fun _ => hfirst.gn) (.inl hfirst.gn) e).1
        refine ih r.1 (curLin l0 c) ?_ (fun c hc' => hc c (List.mem_cons_of_mem _ hc')) h2 hi hf'
        unfold curLin
        split
        · exact hl0
        · exact hok.2.2
  exact (fresh_step q.1 s3 q.2 hrun.1 hrun.2 c hcc b h3).2

/-- A call whose steepest-descent step is inside and whose Gauss-Newton step fits. -/
theorem dlCall_gn (s : DL V) (first : Bool) (gain J : ℝ) (l : Lin V) (sc : ℝ) (sd g : V) (n d d' m : ℝ) (hr : l.rJJr ≠ 0)
    (hsc : ‖l.rhs‖ ^ 2 / l.rJJr = sc) (hsd : sc • l.rhs = sd) (hn : ‖sd‖ = n) (hd : dlDelta s first gain = d)
    (hin : ¬(n ≥ d ∧ d ≠ 0)) (hg : l.sol = some g) (hm : ‖g‖ = m)
    (hd' : (if d = 0 then ‖sd + (1 / 2 : ℝ) • (g - sd)‖ else d) = d') (hle : m ≤ d') :
    dlCall s first false gain J l = some (⟨g, sd, g, n, m, J, sc, d', .gn⟩, true) := by
  unfold dlCall dlRebuild
  simp only [Bool.false_eq_true, if_false, if_neg hr, hsc, hsd, hn, hd, if_neg hin, hg, hm]
  unfold dlGn
  simp only [hd', if_pos hle]

/-- In the second optimization with the same policy the first linear solve fails. The next call, made after the
failure, does not solve again: it reports success and returns the Gauss-Newton step left over from the
previous optimization (100), which is outside the trust region (50.5). -/
theorem C29_stale_step_counterexample :
    let s0 : DL ℝ := ⟨100, 0, 100, 0, 100, 0, 0, 0, .gn⟩
    ∃ s1 s2, dlCall s0.start true false 0 1 ⟨1, 1, none⟩ = some (s1, false) ∧
      dlCall s1 false true 0 1 ⟨1, 1, none⟩ = some (s2, true) ∧ s2.dx = 100 ∧ s2.delta = 101 / 2 := by
  refine ⟨⟨100, 1, 100, 1, 0, 0, 1, 0, .gn⟩, ⟨100, 1, 100, 1, 0, 1, 1, 101 / 2, .gn⟩, ?_, ?_, rfl, rfl⟩
  · simp [dlCall, DL.start, dlDelta, dlRebuild]
  · have hm : ‖(1 : ℝ) + (1 / 2 : ℝ) • (100 - 1 : ℝ)‖ = 101 / 2 := by
      rw [Real.norm_eq_abs, abs_of_pos] <;> norm_num
    have hdel : dlDelta (⟨100, 1, 100, 1, 0, 0, 1, 0, .gn⟩ : DL ℝ) false 0 = 0 := by
      simp [dlDelta, Dbl.div, Dbl.lt, Dbl.le]
    unfold dlCall
    simp only [if_true, hdel]
    rw [if_neg (by simp)]
    unfold dlGn
    simp only [if_true, hm]
    rw [if_pos (by norm_num)]

/-- Three calls: a Gauss-Newton step 2; an accepted step with a small gain, so the radius is 1.5 and the next step
is steepest descent; that step is rejected but the gain passed is positive (as C27 shows possible), so the radius
grows to 4.5 and the policy returns the Gauss-Newton step 2 of the first system although the solution of the
current one is 5. -/
theorem C29_stale_gauss_newton_counterexample :
    ∃ s1 s2 s3 : DL ℝ, dlCall (⟨0, 0, 0, 0, 0, 0, 0, 0, .none⟩ : DL ℝ).start true false 0 10 ⟨2, 2, some 2⟩ = some (s1, true) ∧
      dlCall s1 false false 1 9 ⟨1, 1 / 2, some 5⟩ = some (s2, true) ∧
      dlCall s2 false true 10 20 ⟨1, 1 / 2, some 5⟩ = some (s3, true) ∧ s3.step = .gn ∧ s3.dx = 2 := by
  refine ⟨⟨2, 4, 2, 4, 2, 10, 2, 3, .gn⟩, ⟨3 / 2, 2, 2, 2, 2, 15 / 16, 2, 3 / 2, .sd⟩, ⟨2, 2, 2, 2, 2, 20, 2, 9 / 2, .gn⟩,
    ?_, ?_, ?_, rfl, rfl⟩
  · apply dlCall_gn (d := 0)
    · norm_num
    · norm_num
    · norm_num
    · norm_num
    · simp [dlDelta, DL.start]
    · simp
    · rfl
    · norm_num
    · norm_num
    · norm_num
  · have hdel : dlDelta (⟨2, 4, 2, 4, 2, 10, 2, 3, .gn⟩ : DL ℝ) false 1 = 3 / 2 := by
      norm_num [dlDelta, Dbl.div, Dbl.lt, Dbl.le]
    unfold dlCall dlRebuild
    norm_num [hdel]
  · have hdel : dlDelta (⟨3 / 2, 2, 2, 2, 2, 15 / 16, 2, 3 / 2, .sd⟩ : DL ℝ) false 10 = 9 / 2 := by
      norm_num [dlDelta, Dbl.div, Dbl.lt, Dbl.le]
    unfold dlCall
    norm_num [hdel]
    norm_num [dlGn]

/-- A call sequence that meets the hypotheses of the partial theorems. -/
example : ∃ s1 s2 : DL ℝ, dlCall (⟨0, 0, 0, 0, 0, 0, 0, 0, .none⟩ : DL ℝ).start true false 0 10 ⟨2, 2, some 2⟩ = some (s1, true) ∧
      dlRunL (s1, ⟨2, 2, some 2⟩) [⟨false, 1, 9, ⟨1, 1 / 2, some 5⟩⟩] = some (s2, ⟨1, 1 / 2, some 5⟩) ∧ s2.step = .sd ∧
      CallOk (⟨false, 1, 9, ⟨1, 1 / 2, some 5⟩⟩ : Call ℝ) := by
  obtain ⟨s1, s2, s3, h1, h2, _⟩ := C29_stale_gauss_newton_counterexample
  refine ⟨⟨2, 4, 2, 4, 2, 10, 2, 3, .gn⟩, ⟨3 / 2, 2, 2, 2, 2, 15 / 16, 2, 3 / 2, .sd⟩, ?_, ?_, rfl, ?_⟩
  · apply dlCall_gn (d := 0)
    · norm_num
    · norm_num
    · norm_num
    · norm_num
    · simp [dlDelta, DL.start]
    · simp
    · rfl
    · norm_num
    · norm_num
    · norm_num
  · have hdel : dlDelta (⟨2, 4, 2, 4, 2, 10, 2, 3, .gn⟩ : DL ℝ) false 1 = 3 / 2 := by
      norm_num [dlDelta, Dbl.div, Dbl.lt, Dbl.le]
    unfold dlRunL dlCall dlRebuild
    norm_num [hdel, dlRunL, curLin]
  · refine ⟨by simp, by simp, by norm_num⟩

end DL

/-! ### C73: predicted reduction of the dog-leg steps -/

section Predicted
variable {V W : Type} [NormedAddCommGroup V] [InnerProductSpace ℝ V] [NormedAddCommGroup W] [InnerProductSpace ℝ W]

/-- Reduction of the linearised cost `‖e + A h‖^2` for right-hand side `rhs = -A^T e`: `2 rhs·h - ‖A h‖^2`. -/
noncomputable def modelReduction (rhs : V) (A : V →ₗ[ℝ] W) (h : V) : ℝ := 2 * inner ℝ rhs h - ‖A h‖ ^ 2

/-- **C73** (part). For a steepest-descent step the predicted reduction is exactly half the reduction of the
linearised cost. (So the gain ratio is twice the true one; for the interpolated step see the counterexample.) -/
theorem C73_sd_predicts_half_partial (s s' : DL V) (A : V →ₗ[ℝ] W) (l : Lin V) (hl : l.rJJr = ‖A l.rhs‖ ^ 2) (first : Bool) (gain J : ℝ)
    (h : dlCall s first false gain J l = some (s', true)) (hst : s'.step = .sd)
    (hd : 0 < dlDelta s first gain) (hin : dlDelta s first gain ≤ ‖(‖l.rhs‖ ^ 2 / l.rJJr) • l.rhs‖) :
    2 * s'.L0 = modelReduction l.rhs A s'.dx := by
  unfold dlCall dlRebuild at h
  simp only [Bool.false_eq_true, if_false] at h
  by_cases hz : l.rJJr = 0
  · rw [if_pos hz] at h; cases h
  · rw [if_neg hz] at h
    simp only at h
    rw [if_pos ⟨hin, ne_of_gt hd⟩] at h
    cases h
    simp only
    set δ := dlDelta s first gain
    have hr : 0 < l.rJJr := lt_of_le_of_ne (by rw [hl]; positivity) (Ne.symm hz)
    have hsdn : 0 < ‖(‖l.rhs‖ ^ 2 / l.rJJr) • l.rhs‖ := lt_of_lt_of_le hd hin
    have hg : 0 < ‖l.rhs‖ := by
      rw [norm_pos_iff]
      rintro h0
      rw [h0] at hsdn
      simp at hsdn
    have hn : ‖(‖l.rhs‖ ^ 2 / l.rJJr) • l.rhs‖ = ‖l.rhs‖ ^ 3 / l.rJJr := by
      rw [norm_smul, Real.norm_eq_abs, abs_of_pos (by positivity)]
      ring
    unfold modelReduction
    rw [hn, smul_smul, map_smul, inner_smul_right, norm_smul, mul_pow, Real.norm_eq_abs, sq_abs, real_inner_self_eq_norm_sq,
      ← hl]
    field_simp

/-- **C73** (what is lost). For a step interpolated between the steepest-descent and the exact Gauss-Newton step the
prediction misses `(1-β)^2·scale·‖rhs‖^2` (the summand the integer division `1/2` drops) and replaces the
Gauss-Newton reduction by the whole cost `J`. -/
theorem C73_interpolated_error (s : DL V) (J : ℝ) (A : V →ₗ[ℝ] W) (rhs : V) (hr : ‖A rhs‖ ^ 2 ≠ 0)
    (hsc : s.scale = ‖rhs‖ ^ 2 / ‖A rhs‖ ^ 2) (hsd : s.sd = s.scale • rhs)
    (hgn : ∀ v, inner ℝ (A s.gn) (A v) = inner ℝ rhs v) (hst : (dlGn s J).step = .dl) :
    ∃ b, (dlGn s J).dx = s.sd + b • (s.gn - s.sd) ∧
      modelReduction rhs A (dlGn s J).dx = (dlGn s J).L0 + (1 - b) ^ 2 * s.scale * ‖rhs‖ ^ 2 +
        b * (2 - b) * (modelReduction rhs A s.gn - J) := by
  unfold dlGn at hst ⊢
  simp only at hst ⊢
  generalize (if s.delta = 0 then _ else s.delta) = d at hst ⊢
  split at hst
  · simp at hst
  · rename_i hlt
    rw [if_neg hlt]
    refine ⟨_, rfl, ?_⟩
    simp only
    generalize dlBeta s.sd s.gn s.sdNorm d = b
    unfold modelReduction
    have e : s.sd + b • (s.gn - s.sd) = ((1 - b) * s.scale) • rhs + b • s.gn := by rw [hsd]; module
    have h1 := hgn s.gn
    have h2 := hgn rhs
    rw [real_inner_self_eq_norm_sq] at h1 h2
    rw [e, map_add, map_smul, map_smul, norm_add_sq_real, norm_smul, norm_smul, mul_pow, mul_pow, Real.norm_eq_abs,
      Real.norm_eq_abs, sq_abs, sq_abs, inner_add_right, inner_smul_right, inner_smul_right, inner_smul_left, inner_smul_right,
      real_inner_self_eq_norm_sq, real_inner_comm (A s.gn) (A rhs), h2, h1]
    have h3 : s.scale * ‖A rhs‖ ^ 2 = ‖rhs‖ ^ 2 := by rw [hsc]; exact div_mul_cancel₀ _ hr
    simp only [RCLike.conj_to_real]
    have h4 : s.scale ^ 2 * ‖A rhs‖ ^ 2 = s.scale * ‖rhs‖ ^ 2 := by rw [pow_two, mul_assoc, h3]
    have h5 : ((1 - b) * s.scale) ^ 2 * ‖A rhs‖ ^ 2 = (1 - b) ^ 2 * (s.scale * ‖rhs‖ ^ 2) := by rw [← h4]; ring
    rw [h5]
    ring

/-- The map `(x, y) ↦ (x, 2y)` of the plane. -/
noncomputable def stretch : ℂ →ₗ[ℝ] ℂ where
  toFun z := ⟨z.re, 2 * z.im⟩
  map_add' x y := by apply Complex.ext <;> simp; ring
  map_smul' a x := by apply Complex.ext <;> simp; ring

/-- Right-hand side (1,1), steepest descent (2/5, 2/5), Gauss-Newton step (1, 1/4), three quarters of its length as
radius. -/
noncomputable def plane : DL ℂ :=
  ⟨0, (2 / 5 : ℝ) • ⟨1, 1⟩, ⟨1, 1 / 4⟩, ‖(2 / 5 : ℝ) • (⟨1, 1⟩ : ℂ)‖, ‖(⟨1, 1 / 4⟩ : ℂ)‖, 0, 2 / 5, 3 / 4 * ‖(⟨1, 1 / 4⟩ : ℂ)‖, .none⟩

/-- An interpolated step whose predicted reduction is too small even if the cost is exactly what the Gauss-Newton
step removes. -/
theorem C73_interpolated_counterexample :
    let J := modelReduction (⟨1, 1⟩ : ℂ) stretch plane.gn
    (dlGn plane J).step = .dl ∧ (dlGn plane J).L0 < modelReduction (⟨1, 1⟩ : ℂ) stretch (dlGn plane J).dx := by
  intro J
  have n1 : ‖(⟨1, 1⟩ : ℂ)‖ ^ 2 = 2 := by rw [← Complex.normSq_eq_norm_sq, Complex.normSq_mk]; norm_num
  have n2 : ‖stretch (⟨1, 1⟩ : ℂ)‖ ^ 2 = 5 := by
    rw [← Complex.normSq_eq_norm_sq]; simp [stretch, Complex.normSq_mk]; norm_num
  have n3 : ‖(⟨1, 1 / 4⟩ : ℂ)‖ ^ 2 = 17 / 16 := by rw [← Complex.normSq_eq_norm_sq, Complex.normSq_mk]; norm_num
  have hpos : 0 < ‖(⟨1, 1 / 4⟩ : ℂ)‖ := by
    rcases (norm_nonneg (⟨1, 1 / 4⟩ : ℂ)).lt_or_eq with h | h
    · exact h
    · rw [← h] at n3; norm_num at n3
  have hst : (dlGn plane J).step = .dl := by
    unfold dlGn plane
    simp only
    rw [if_neg (by positivity : ¬ 3 / 4 * ‖(⟨1, 1 / 4⟩ : ℂ)‖ = 0), if_neg (by linarith)]
  refine ⟨hst, ?_⟩
  obtain ⟨b, h1, h2⟩ := C73_interpolated_error plane J stretch ⟨1, 1⟩ (by rw [n2]; norm_num)
    (by rw [n1, n2]; rfl) rfl
    (by intro v; simp [plane, stretch, Complex.inner]; ring) hst
  have n4 : ‖(2 / 5 : ℝ) • (⟨1, 1⟩ : ℂ)‖ ^ 2 = 8 / 25 := by
    rw [norm_smul, mul_pow, n1]; norm_num
  have hle : ‖(2 / 5 : ℝ) • (⟨1, 1⟩ : ℂ)‖ ≤ 3 / 4 * ‖(⟨1, 1 / 4⟩ : ℂ)‖ := by
    nlinarith [norm_nonneg ((2 / 5 : ℝ) • (⟨1, 1⟩ : ℂ))]
  have hok := dlGn_spec plane J rfl rfl (by unfold plane; simp only; positivity) (.inr (by
    unfold plane
    simp only
    nlinarith [norm_nonneg ((2 / 5 : ℝ) • (⟨1, 1⟩ : ℂ))]))
  have hdelta : (dlGn plane J).delta = 3 / 4 * ‖(⟨1, 1 / 4⟩ : ℂ)‖ := by
    unfold dlGn plane
    simp only
    rw [if_neg (by positivity : ¬ 3 / 4 * ‖(⟨1, 1 / 4⟩ : ℂ)‖ = 0)]
    split <;> rfl
  have hb : b ≠ 1 := by
    rintro rfl
    have hdx : (dlGn plane J).dx = ⟨1, 1 / 4⟩ := by rw [h1]; simp [plane]
    have := hok.2.1
    rw [hdx, hdelta] at this
    linarith
  have hJ : modelReduction (⟨1, 1⟩ : ℂ) stretch plane.gn - J = 0 := sub_self _
  rw [h2, hJ, n1]
  have : 0 < (1 - b) ^ 2 := by
    have : 1 - b ≠ 0 := sub_ne_zero.2 (Ne.symm hb)
    positivity
  have hs : plane.scale = 2 / 5 := rfl
  rw [hs]
  linarith

/-- **C75** (dog-leg policy). After a rebuild the steepest-descent step is the best point of the linearised cost along the
right-hand side: no other multiple of it reduces the linearised cost more. -/
theorem C75_cauchy_point_partial (s s' : DL V) (A : V →ₗ[ℝ] W) (l : Lin V) (hl : l.rJJr = ‖A l.rhs‖ ^ 2)
    (h : dlRebuild s l = some s') (t : ℝ) :
    modelReduction l.rhs A (t • l.rhs) ≤ modelReduction l.rhs A s'.sd := by
  unfold dlRebuild at h
  by_cases hz : l.rJJr = 0
  · rw [if_pos hz] at h; cases h
  · rw [if_neg hz] at h
    cases h
    have hr : 0 < l.rJJr := lt_of_le_of_ne (by rw [hl]; positivity) (Ne.symm hz)
    have e : ∀ t : ℝ, modelReduction l.rhs A (t • l.rhs) = 2 * t * ‖l.rhs‖ ^ 2 - t ^ 2 * l.rJJr := by
      intro t
      unfold modelReduction
      rw [map_smul, inner_smul_right, norm_smul, mul_pow, Real.norm_eq_abs, sq_abs, real_inner_self_eq_norm_sq, ← hl]
      ring
    simp only
    rw [e, e]
    have : 2 * (‖l.rhs‖ ^ 2 / l.rJJr) * ‖l.rhs‖ ^ 2 - (‖l.rhs‖ ^ 2 / l.rJJr) ^ 2 * l.rJJr -
        (2 * t * ‖l.rhs‖ ^ 2 - t ^ 2 * l.rJJr) = (‖l.rhs‖ ^ 2 - t * l.rJJr) ^ 2 / l.rJJr := by
      field_simp
      ring
    have h2 : 0 ≤ (‖l.rhs‖ ^ 2 - t * l.rJJr) ^ 2 / l.rJJr := by positivity
    linarith

example : dlRebuild (⟨0, 0, 0, 0, 0, 0, 0, 0, .none⟩ : DL ℝ) ⟨2, ‖(LinearMap.id : ℝ →ₗ[ℝ] ℝ) 2‖ ^ 2, none⟩ ≠ none := by
  unfold dlRebuild
  norm_num
  simp

end Predicted

/-! ### C30: line search policy -/

section LS
variable {K V : Type} [LinearOrder K] [Field K] [IsStrictOrderedRing K] [AddCommGroup V] [Module K V]

/-- Calls after the first: the previous iteration failed or the linear solver delivers a new solution. -/
inductive LSCall (V : Type) where
  | rejected
  | accepted (g : V)

/-- One call, with a linear solver that succeeds; state: policy, output vector, last solution of the linear
solver. -/
def lsStep (q : LS K × V × V) : LSCall V → LS K × V × V
  | .rejected =>
    let r := LS.call q.1 false true (true, q.2.2) q.2.1
    (r.1, r.2.2, q.2.2)
  | .accepted g =>
    let r := LS.call q.1 false false (true, g) q.2.1
    (r.1, r.2.2, g)

/-- The state after the first call. -/
def lsFirst (s : LS K) (g : V) : LS K × V × V :=
  let r := LS.call s true false (true, g) g
  (r.1, r.2.2, g)

/-- **C30** (part). For every policy that the constructor accepts with `resetScaleAfterSuccess` and a scale step other
than zero (all others outside (0,1) are refused), after any sequence of rejected and accepted steps the reported scale lies in (0,1], the step is the last solution of the linear solver times the
reported scale, and a rejection multiplies both by the scale step. (Missing: without reset, and a scale step of
zero; see the counterexamples.) -/
theorem C30_scale_reset_partial (c : K) (hc : c ≠ 0) (s : LS K) (hs : LS.new c true = .ok s) (g : V)
    (calls : List (LSCall V)) :
    0 < c ∧ c < 1 ∧
    let q := calls.foldl lsStep (lsFirst s g)
    0 < q.1.cur ∧ q.1.cur ≤ 1 ∧ q.2.1 = q.1.cur • q.2.2 ∧
      (lsStep q .rejected).1.cur = q.1.cur * c ∧ (lsStep q .rejected).1.cur < q.1.cur ∧
      (lsStep q .rejected).2.1 = c • q.2.1 ∧
      ∀ g', (lsStep q (.accepted g')).1.cur = 1 ∧ (lsStep q (.accepted g')).2.1 = g' := by
  have hn : 0 ≤ c ∧ c < 1 := by
    by_contra hn
    unfold LS.new at hs
    rw [if_neg hn] at hs
    cases hs
  have hs' : s = ⟨c, true, 1⟩ := by
    unfold LS.new at hs
    rw [if_pos hn] at hs
    cases hs; rfl
  have hr : s.reset = true := by rw [hs']
  have h0 : 0 < s.scaleStep := by rw [hs']; exact lt_of_le_of_ne hn.1 (Ne.symm hc)
  have h1 : s.scaleStep < 1 := by rw [hs']; exact hn.2
  have hcs : s.scaleStep = c := by rw [hs']
  refine ⟨hcs ▸ h0, hn.2, ?_⟩
  rw [← hcs]
  intro q
  have hq : q.1.scaleStep = s.scaleStep ∧ q.1.reset = true ∧ 0 < q.1.cur ∧ q.1.cur ≤ 1 ∧ q.2.1 = q.1.cur • q.2.2 := by
    have key : ∀ (calls : List (LSCall V)) (q : LS K × V × V), q.1.scaleStep = s.scaleStep → q.1.reset = true → 0 < q.1.cur →
        q.1.cur ≤ 1 → q.2.1 = q.1.cur • q.2.2 →
        let q' := calls.foldl lsStep q
        q'.1.scaleStep = s.scaleStep ∧ q'.1.reset = true ∧ 0 < q'.1.cur ∧ q'.1.cur ≤ 1 ∧ q'.2.1 = q'.1.cur • q'.2.2 := by
      intro calls
      induction calls with
      | nil => intro q a b c d e; exact ⟨a, b, c, d, e⟩
      | cons c cs ih =>
        intro q a b c' d e
        rw [List.foldl_cons]
        cases c with
        | rejected =>
          apply ih
          · exact a
          · exact b
          · simp only [lsStep, LS.call]; simp; rw [a]; positivity
          · simp only [lsStep, LS.call]; simp; rw [a]; nlinarith
          · simp only [lsStep, LS.call]; simp; rw [e, smul_smul, mul_comm]
        | accepted g' =>
          apply ih
          · exact a
          · exact b
          · simp [lsStep, LS.call, b]
          · simp [lsStep, LS.call, b]
          · simp [lsStep, LS.call, b]
    apply key
    · rfl
    · exact hr
    · simp [lsFirst, LS.call]
    · simp [lsFirst, LS.call]
    · simp [lsFirst, LS.call]
  obtain ⟨a, b, c, d, e⟩ := hq
  refine ⟨c, d, e, ?_, ?_, ?_, ?_⟩
  · simp [lsStep, LS.call, a]
  · simp [lsStep, LS.call, a]; nlinarith
  · simp [lsStep, LS.call, a]
  · intro g'
    simp [lsStep, LS.call, b]

/-- Without reset: after two rejections and an accepted step the reported scale is 1/2 but the step returned is
the full solution of the linear solver. -/
theorem C30_scale_not_applied_counterexample :
    let q := ([.rejected, .rejected, .accepted 5] : List (LSCall ℚ)).foldl lsStep (lsFirst (⟨1 / 2, false, 1⟩ : LS ℚ) 8)
    q.1.cur = 1 / 2 ∧ q.2.1 = 5 ∧ q.2.1 ≠ q.1.cur • q.2.2 := by
  norm_num [lsStep, lsFirst, LS.call]

/-- A scale step of zero passes the check of the constructor ("on the interval (0,1)"); one rejection then sets
scale and step to zero. -/
theorem C30_zero_scale_counterexample :
    ∃ s : LS ℚ, LS.new 0 true = .ok s ∧ (lsStep (lsFirst s (8 : ℚ)) .rejected).1.cur = 0 ∧
      (lsStep (lsFirst s (8 : ℚ)) .rejected).2.1 = 0 := by
  refine ⟨⟨0, true, 1⟩, ?_, ?_, ?_⟩
  · unfold LS.new; norm_num
  · norm_num [lsStep, lsFirst, LS.call]
  · norm_num [lsStep, lsFirst, LS.call]

example : ∃ s : LS ℚ, LS.new (1 / 2) true = .ok s := ⟨⟨1 / 2, true, 1⟩, by unfold LS.new; norm_num⟩

example : (([.rejected, .accepted 4, .rejected, .rejected] : List (LSCall ℚ)).foldl lsStep
    (lsFirst (⟨1 / 2, true, 1⟩ : LS ℚ) 8)).2.1 = 1 := by
  norm_num [lsStep, lsFirst, LS.call]

end LS

end Verif.Trust
