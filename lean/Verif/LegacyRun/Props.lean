import Verif.LegacyRun.Model
import Verif.Legacy.Props
import Mathlib.Algebra.Order.Archimedean.Basic
import Mathlib.Algebra.Order.Ring.Pow
import Mathlib.Algebra.Ring.Parity
import Mathlib.Tactic.Linarith
import Mathlib.Tactic.Ring

/-!
C125: the damping of the Levenberg-Marquardt method of the legacy optimizer; with exact linear algebra the method does not increase the cost and ends, whatever the limit of iterations is.
-/
namespace Verif.LegacyRun
open Verif.Legacy Verif.LegacyCov

variable {K X D M : Type} [LinearOrder K] [Field K] [IsStrictOrderedRing K]

/-! ### The damping -/

/-- **C125** (rejected steps). After `k` rejected steps or failed solves in a row, `λ` has been multiplied by `μ^k 2^(k(k-1)/2)` and `μ` by `2^k`. -/
theorem C125_rejections (l mu : K) (k : Nat) : failed^[k] ⟨.fin l, mu⟩ = ⟨.fin (l * (mu ^ k * 2 ^ (k * (k - 1) / 2))), mu * 2 ^ k⟩ := by
  induction k with
  | zero => simp
  | succ k ih =>
    rw [Function.iterate_succ_apply', ih]
    simp only [failed, scale, Damp.mk.injEq, Dbl.fin.injEq]
    have : (k + 1) * (k + 1 - 1) / 2 = k * (k - 1) / 2 + k := by
      cases k with
      | zero => rfl
      | succ k =>
        have : (k + 1 + 1) * (k + 1 + 1 - 1) = (k + 1) * (k + 1 - 1) + (k + 1) * 2 := by
          simp only [Nat.add_sub_cancel]; ring
        rw [this, Nat.add_mul_div_right _ _ (by decide)]
    rw [this]
    constructor <;> ring

example : failed^[3] (⟨.fin (1 / 1000), 2⟩ : Damp ℚ) = ⟨.fin (1 / 1000 * 64), 16⟩ := by rw [C125_rejections]; norm_num

theorem powD_fin (a : K) (p : Nat) : powD (.fin a) p = .fin (a ^ p) := by
  by_cases h : p = 0
  · rw [h, pow_zero]; rfl
  · unfold powD; rw [if_neg h]

theorem u2_fin (lo : LmOptions K) (r : K) : u2 lo (.fin r) = .fin (1 - ((lo.beta : K) - 1) * (2 * r - 1) ^ lo.p) := by
  show Dbl.sub (.fin 1) (scale ((lo.beta : K) - 1) (powD (.fin (2 * r - 1)) lo.p)) = _
  rw [powD_fin]
  rfl

/-- **C125** (accepted steps). Let `gamma ≥ 1`, `beta ≥ 1`, `p` odd, `λ > 1e-16`. An accepted step with the gain ratio `rho > 0` divides `λ` by at most `gamma` and multiplies it by at most `beta`; a ratio of at least 1/2 does not increase it, one of at
most 1/2 does not reduce it. -/
theorem C125_accepted (lo : LmOptions K) (hg : 1 ≤ lo.gamma) (hb : 1 ≤ lo.beta) (hp : Odd lo.p) (l mu r : K) (hl : 1 / 10 ^ 16 < l) (hr : 0 < r) :
    ∃ l', good lo ⟨.fin l, mu⟩ (.fin r) = ⟨.fin l', lo.beta⟩ ∧ l / lo.gamma ≤ l' ∧ l' ≤ lo.beta * l ∧ (1 / 2 ≤ r → l' ≤ l) ∧ (r ≤ 1 / 2 → l ≤ l') := by
  have hg0 : 0 < lo.gamma := by linarith
  have hl0 : 0 < l := lt_trans (by positivity) hl
  have hb' : (1 : K) ≤ (lo.beta : K) := by exact_mod_cast hb
  have hu1 : 1 / lo.gamma ≤ 1 := by rw [div_le_one hg0]; exact hg
  set w : K := 1 - ((lo.beta : K) - 1) * (2 * r - 1) ^ lo.p with hw
  have hpow : -1 ≤ (2 * r - 1) ^ lo.p := by
    have : (-1 : K) ^ lo.p ≤ (2 * r - 1) ^ lo.p := hp.pow_le_pow.2 (by linarith)
    rwa [hp.neg_one_pow] at this
  have hwb : w ≤ lo.beta := by
    have := mul_le_mul_of_nonneg_left hpow (sub_nonneg.2 hb')
    rw [hw]; linarith
  have hwhi : 1 / 2 ≤ r → w ≤ 1 := by
    intro h
    have : 0 ≤ (2 * r - 1) ^ lo.p := pow_nonneg (by linarith) _
    have := mul_nonneg (sub_nonneg.2 hb') this
    rw [hw]; linarith
  have hwlo : r ≤ 1 / 2 → 1 ≤ w := by
    intro h
    have : (2 * r - 1) ^ lo.p ≤ 0 := hp.pow_nonpos (by linarith)
    have := mul_nonpos_of_nonneg_of_nonpos (sub_nonneg.2 hb') this
    rw [hw]; linarith
  have e : good lo ⟨.fin l, mu⟩ (.fin r) = ⟨.fin (l * max (1 / lo.gamma) w), lo.beta⟩ := by
    unfold good
    rw [u2_fin, ← hw]
    simp only [Dbl.lt, decide_eq_true hl, if_true, Dbl.div, if_neg hg0.ne', mulD, scale]
    by_cases h : w < 1 / lo.gamma
    · rw [decide_eq_true h, if_pos rfl, max_eq_left h.le]
    · rw [decide_eq_false h, if_neg (by simp), max_eq_right (not_lt.1 h)]
  refine ⟨_, e, ?_, ?_, ?_, ?_⟩
  · rw [div_eq_mul_one_div]
    exact mul_le_mul_of_nonneg_left (le_max_left _ _) hl0.le
  · rw [mul_comm]
    exact mul_le_mul_of_nonneg_right (max_le (hu1.trans hb') hwb) hl0.le
  · intro h
    calc _ ≤ l * 1 := mul_le_mul_of_nonneg_left (max_le hu1 (hwhi h)) hl0.le
      _ = l := mul_one l
  · intro h
    calc l = l * 1 := (mul_one l).symm
      _ ≤ _ := mul_le_mul_of_nonneg_left ((hwlo h).trans (le_max_right _ _)) hl0.le

/-- The default options (gamma 3, beta 2, p 3) meet the hypotheses; a ratio of 1/4 gives 9/8 of the damping, a ratio of 1 a third. -/
example : let lo : LmOptions ℚ := ⟨1 / 1000, 3, 2, 3, 2, -1⟩
    (1 ≤ lo.gamma ∧ 1 ≤ lo.beta ∧ Odd lo.p) ∧ good lo ⟨.fin 8, 4⟩ (.fin (1 / 4)) = ⟨.fin 9, 2⟩ ∧ good lo ⟨.fin 9, 4⟩ (.fin 1) = ⟨.fin 3, 2⟩ := by
  refine ⟨⟨by norm_num, by norm_num, ⟨1, rfl⟩⟩, ?_, ?_⟩
  · simp [good, u2, powD, scale, mulD, Dbl.sub, Dbl.lt, Dbl.div]; norm_num
  · simp [good, u2, powD, scale, mulD, Dbl.sub, Dbl.lt, Dbl.div]; norm_num

/-- **C125** (why `p` must be odd: nothing checks it). With p = 2 an accepted step that achieves almost nothing of what was predicted lowers the damping. -/
theorem C125_even_counterexample : let lo : LmOptions ℚ := ⟨1 / 1000, 3, 2, 2, 2, -1⟩
    ∃ l', good lo ⟨.fin 9, 2⟩ (.fin (1 / 100)) = ⟨.fin l', 2⟩ ∧ l' = 3 := by
  refine ⟨_, ?_, rfl⟩
  simp [good, u2, powD, scale, mulD, Dbl.sub, Dbl.lt, Dbl.div]; norm_num

/-! ### The loop -/

omit [IsStrictOrderedRing K] in
theorem loop_eq (S : Setup K X D P) (o : Options K) : ∀ (n : Nat) (s : Legacy.St K X P),
    ∃ k, k ≤ n ∧ loop S o n s = (iter S o)^[k] s ∧ (∀ j, j < k → running o ((iter S o)^[j] s) = true) := by
  intro n
  induction n with
  | zero => intro s; exact ⟨0, le_rfl, rfl, fun j hj => absurd hj (Nat.not_lt_zero _)⟩
  | succ n ih =>
    intro s
    by_cases h : running o s = true
    · obtain ⟨k, hk, e, hr⟩ := ih (iter S o s)
      refine ⟨k + 1, by omega, ?_, ?_⟩
      · rw [loop, if_pos h, e, Function.iterate_succ_apply]
      · intro j hj
        cases j with
        | zero => exact h
        | succ j => rw [Function.iterate_succ_apply]; exact hr j (by omega)
    · exact ⟨0, by omega, by rw [loop, if_neg h]; rfl, fun j hj => absurd hj (Nat.not_lt_zero _)⟩

omit [IsStrictOrderedRing K] in
theorem iter_iterations (S : Setup K X D P) (o : Options K) (s : Legacy.St K X P) : (iter S o s).iterations = s.iterations + 1 := by
  unfold iter finish
  split
  · rfl
  · dsimp only
    split_ifs <;> rfl

omit [IsStrictOrderedRing K] in
theorem iterate_iterations (S : Setup K X D P) (o : Options K) (k : Nat) (s : Legacy.St K X P) : ((iter S o)^[k] s).iterations = s.iterations + k := by
  induction k with
  | zero => simp
  | succ k ih => rw [Function.iterate_succ_apply', iter_iterations, ih]; push_cast; ring

/-- The part of the loop condition that does not count iterations. -/
def going (o : Options K) (s : Legacy.St K X P) : Prop := Dbl.lt (.fin o.convergenceDeltaX) s.deltaX = true ∧ Dbl.lt (.fin o.convergenceDeltaJ) (Dbl.abs s.deltaJ) = true

/-- What the linear algebra is assumed to do. Costs are finite and not negative; a reverted update restores the cost; with every positive `λ` the solve succeeds and predicts no increase; and the size of the step is at most inversely proportional to `λ`. -/
structure Sound (S : Prob K X D M) : Prop where
  cost : ∀ x, ∃ r, 0 ≤ r ∧ S.cost x = .fin r
  revert : ∀ x d, S.cost (S.revert (S.update x d).1) = S.cost x
  solve : ∀ (l : K) m, 0 < l → ∃ d, S.solve (.fin l) m = some d ∧ 0 ≤ S.den (.fin l) m d
  size : ∀ m, ∃ C : K, ∀ (l : K) d, 0 < l → S.solve (.fin l) m = some d → ∀ x, ∃ v, (S.update x d).2 = .fin v ∧ v ≤ C / l

/-- What holds before every pass of the loop; `r` is the cost of the estimate. -/
structure Inv (S : Prob K X D M) (s : Legacy.St K X (M × Damp K)) (r l mu : K) : Prop where
  cost : S.cost s.x = .fin r
  pJ : s.pJ = .fin r
  nonneg : 0 ≤ r
  damp : s.p.2 = ⟨.fin l, mu⟩
  lpos : 0 < l
  mupos : 0 < mu

theorem good_pos (lo : LmOptions K) (hg : 0 < lo.gamma) (hb : 1 < lo.beta) (l mu : K) (hl : 0 < l) (hmu : 0 < mu) (rho : Dbl K) (h : rho = .pinf ∨ ∃ r, rho = .fin r) :
    ∃ l' mu', good lo ⟨.fin l, mu⟩ rho = ⟨.fin l', mu'⟩ ∧ 0 < l' ∧ 0 < mu' := by
  have hb' : (1 : K) < (lo.beta : K) := by exact_mod_cast hb
  have hu : 0 < 1 / lo.gamma := by positivity
  have hu2 : u2 lo rho = .ninf ∨ ∃ w, u2 lo rho = .fin w := by
    rcases h with rfl | ⟨r, rfl⟩
    · have h2 : Dbl.sub (scale (2 : K) .pinf) (.fin 1) = .pinf := by
        simp [scale, Dbl.sub]
      unfold u2
      rw [h2]
      by_cases hp : lo.p = 0
      · right; unfold powD; rw [if_pos hp]; exact ⟨_, rfl⟩
      · left
        unfold powD
        rw [if_neg hp]
        simp [scale, Dbl.sub, sub_ne_zero.2 hb'.ne', sub_pos.2 hb']
    · right; exact ⟨_, u2_fin lo r⟩
  unfold good
  by_cases hc : (1 / 10 ^ 16 : K) < l
  · simp only [Dbl.lt, decide_eq_true hc, if_true, Dbl.div, if_neg hg.ne']
    rcases hu2 with e | ⟨w, e⟩
    · rw [e]
      exact ⟨_, _, rfl, mul_pos hl hu, by linarith⟩
    · rw [e]
      by_cases hw : w < 1 / lo.gamma
      · refine ⟨l * (1 / lo.gamma), lo.beta, ?_, mul_pos hl hu, by linarith⟩
        simp only [decide_eq_true hw]
        simp [mulD, scale]
      · refine ⟨l * w, lo.beta, ?_, mul_pos hl (lt_of_lt_of_le hu (not_lt.1 hw)), by linarith⟩
        simp only [decide_eq_false hw]
        simp [mulD, scale]
  · simp only [Dbl.lt, decide_eq_false hc]
    exact ⟨_, _, rfl, by positivity, hmu⟩

/-- One pass of the loop. -/
theorem pass {S : Prob K X D M} (hS : Sound S) (lo : LmOptions K) (hg : 0 < lo.gamma) (hb : 1 < lo.beta) (o : Options K) (hlm : o.doLevenbergMarquardt = true) (hcJ : 0 < o.convergenceDeltaJ)
    {s : Legacy.St K X (M × Damp K)} {r l mu : K} (h : Inv S s r l mu) (C : M → K) (hC : ∀ m (l : K) d, 0 < l → S.solve (.fin l) m = some d → ∀ x, ∃ v, (S.update x d).2 = .fin v ∧ v ≤ C m / l) :
    let s' := iter (S.parts lo).setup o s
    let m := if s.regr then s.p.1 else S.build s.x
    s'.p.1 = m ∧
    ((s'.regr = true ∧ Inv S s' r (mu * l) (mu * 2) ∧ ∃ v, s'.deltaX = .fin v ∧ v ≤ C m / l) ∨
     (s'.regr = false ∧ ∃ r', r' ≤ r ∧ S.cost s'.x = .fin r' ∧ s'.J = .fin r' ∧ s'.pJ = .fin r' ∧ (going o s' → r' < r - o.convergenceDeltaJ ∧ ∃ l' mu', Inv S s' r' l' mu'))) := by
  intro s' m
  obtain ⟨d, hd, hden⟩ := hS.solve l m h.lpos
  obtain ⟨rn, hrn0, hrn⟩ := hS.cost (S.update s.x d).1
  obtain ⟨v, hv, hvC⟩ := hC m l d h.lpos hd s.x
  have hl0 : lambda0 lo (S.maxDiag (S.build s.x)) s.p.2 = s.p.2 := by
    unfold lambda0
    rw [if_neg]
    rw [h.damp]
    simp only [Dbl.fin.injEq]
    exact h.lpos.ne'
  have hprep : (S.parts lo).setup.prepare s.p s.x s.regr = ((m, s.p.2), some d) := by
    show (let p := if s.regr then s.p else (S.build s.x, lambda0 lo (S.maxDiag (S.build s.x)) s.p.2); (p, S.solve p.2.lambda p.1)) = _
    rw [hl0]
    have : (if s.regr = true then s.p else (S.build s.x, s.p.2)) = (m, s.p.2) := by
      simp only [m]; split_ifs <;> rfl
    simp only [this]
    rw [h.damp, hd]
  have hs' : s' = iter (S.parts lo).setup o s := rfl
  unfold iter at hs'
  rw [hprep] at hs'
  simp only [hlm, if_true] at hs'
  have hcost : (S.parts lo).setup.cost = S.cost := rfl
  have hupd : (S.parts lo).setup.update = S.update := rfl
  have hden' : (S.parts lo).setup.den (m, s.p.2) d = S.den (.fin l) m d := by
    show S.den s.p.2.lambda m d = _
    rw [h.damp]
  rw [hcost, hupd, hden', hrn, h.pJ] at hs'
  set den := S.den (.fin l) m d with hdd
  cases hr : Dbl.le (divD (Dbl.sub (.fin r) (.fin rn)) den) (.fin 0) with
  | true =>
    rw [hr, if_pos rfl] at hs'
    have hnlt := rejected_not_lt (K := K) hden hr
    simp only [finish, hnlt, Bool.false_eq_true, if_false] at hs'
    refine ⟨by rw [hs']; rfl, .inl ⟨by rw [hs'], ?_, v, by rw [hs', hv], hvC⟩⟩
    have hq : (S.parts lo).setup.failed (m, s.p.2) = (m, ⟨.fin (mu * l), mu * 2⟩) := by
      show (m, failed s.p.2) = _
      rw [h.damp]; rfl
    rw [hq] at hs'
    exact {
      cost := by rw [hs']; show S.cost (S.revert _) = _; rw [hS.revert, h.cost]
      pJ := by rw [hs']
      nonneg := h.nonneg
      damp := by rw [hs']
      lpos := mul_pos h.mupos h.lpos
      mupos := mul_pos h.mupos two_pos }
  | false =>
    rw [hr, if_neg (by simp)] at hs'
    have hle : rn ≤ r := (Dbl.le_fin _ _).1 (accepted_le hden (by simp) (by simp) hr)
    have hif : (if Dbl.lt (.fin rn) (.fin r) = true then (Dbl.fin rn : Dbl K) else .fin r) = .fin rn := by
      cases hlt : Dbl.lt (.fin rn : Dbl K) (.fin r) with
      | true => rfl
      | false => rw [if_neg (by simp)]; exact (eq_of_le_not_lt ((Dbl.le_fin _ _).2 hle) hlt).symm
    simp only [finish, hif] at hs'
    refine ⟨by rw [hs']; rfl, .inr ⟨by rw [hs'], rn, hle, by rw [hs']; exact hrn, by rw [hs'], by rw [hs'], ?_⟩⟩
    rintro ⟨-, hJ⟩
    rw [hs'] at hJ
    simp only [Dbl.sub, Dbl.abs, Dbl.lt, decide_eq_true_eq] at hJ
    rw [abs_of_nonneg (by linarith)] at hJ
    refine ⟨by linarith, ?_⟩
    have hrho : divD (Dbl.sub (.fin r) (.fin rn)) den = .pinf ∨ ∃ q, divD (Dbl.sub (.fin r) (.fin rn)) den = .fin q := by
      simp only [Dbl.sub, divD, Dbl.div]
      split_ifs with h1 h2 h3
      · linarith
      · left; rfl
      · exact absurd (by linarith) h3
      · right; exact ⟨_, rfl⟩
    obtain ⟨l', mu', e, hl', hmu'⟩ := good_pos lo hg hb l mu h.lpos h.mupos _ hrho
    have hq : (S.parts lo).setup.good (m, s.p.2) (divD (Dbl.sub (.fin r) (.fin rn)) den) = (m, ⟨.fin l', mu'⟩) := by
      show (m, good lo s.p.2 _) = _
      rw [h.damp, e]
    rw [hq] at hs'
    exact ⟨l', mu', {
      cost := by rw [hs']; exact hrn
      pJ := by rw [hs']
      nonneg := hrn0
      damp := by rw [hs']
      lpos := hl'
      mupos := hmu' }⟩

theorem growth [Archimedean K] (l mu : K) (hl : 0 < l) (hmu : 0 < mu) (B : K) : ∃ k : Nat, B < l * (mu ^ k * 2 ^ (k * (k - 1) / 2)) := by
  -- a number of steps after which `μ` has reached 4
  obtain ⟨j, hj⟩ := pow_unbounded_of_one_lt (4 / mu) (one_lt_two : (1 : K) < 2)
  have hj' : 4 ≤ mu * 2 ^ j := by rw [div_lt_iff₀ hmu] at hj; linarith
  have hrec : ∀ k, l * (mu ^ (k + 1) * 2 ^ ((k + 1) * (k + 1 - 1) / 2)) = (mu * 2 ^ k) * (l * (mu ^ k * 2 ^ (k * (k - 1) / 2))) := by
    intro k
    have h1 := C125_rejections l mu (k + 1)
    rw [Function.iterate_succ_apply', C125_rejections] at h1
    simp only [failed, scale, Damp.mk.injEq, Dbl.fin.injEq] at h1
    rw [← h1.1]
  set f : Nat → K := fun k => l * (mu ^ k * 2 ^ (k * (k - 1) / 2)) with hf
  have hpos : ∀ k, 0 < f k := fun k => by simp only [hf]; positivity
  have hgrow : ∀ k, f j * 2 ^ k ≤ f (j + k) := by
    intro k
    induction k with
    | zero => simp
    | succ k ih =>
      rw [← Nat.add_assoc, show f (j + k + 1) = (mu * 2 ^ (j + k)) * f (j + k) from hrec (j + k)]
      have h2 : 2 ≤ mu * 2 ^ (j + k) := by
        rw [pow_add, ← mul_assoc]
        have : (1 : K) ≤ 2 ^ k := one_le_pow₀ one_le_two
        nlinarith
      calc f j * 2 ^ (k + 1) = 2 * (f j * 2 ^ k) := by ring
        _ ≤ 2 * f (j + k) := by linarith
        _ ≤ _ := mul_le_mul_of_nonneg_right h2 (hpos _).le
  obtain ⟨k, hk⟩ := pow_unbounded_of_one_lt (B / f j) (one_lt_two : (1 : K) < 2)
  refine ⟨j + k, ?_⟩
  rw [div_lt_iff₀ (hpos j)] at hk
  have := hgrow k
  show B < f (j + k)
  linarith

/-- From a good state on the loop condition becomes false. -/
theorem stops [Archimedean K] {S : Prob K X D M} (hS : Sound S) (lo : LmOptions K) (hg : 0 < lo.gamma) (hb : 1 < lo.beta) (o : Options K) (hlm : o.doLevenbergMarquardt = true) (hcX : 0 < o.convergenceDeltaX)
    (hcJ : 0 < o.convergenceDeltaJ) (s : Legacy.St K X (M × Damp K)) (r l mu : K) (h : Inv S s r l mu) : ∃ n : Nat, ¬ going o ((iter (S.parts lo).setup o)^[n] s) := by
  by_contra hcon
  push Not at hcon
  choose C hC using hS.size
  set T := iter (S.parts lo).setup o with hT
  have hinv : ∀ n, ∃ r l mu, Inv S (T^[n] s) r l mu := by
    intro n
    induction n with
    | zero => exact ⟨r, l, mu, h⟩
    | succ n ih =>
      obtain ⟨r, l, mu, h⟩ := ih
      rw [Function.iterate_succ_apply']
      rcases (pass hS lo hg hb o hlm hcJ h C hC).2 with ⟨-, h, -⟩ | ⟨-, r', -, -, -, -, h⟩
      · exact ⟨_, _, _, h⟩
      · have := hcon (n + 1)
        rw [Function.iterate_succ_apply'] at this
        obtain ⟨-, l', mu', h⟩ := h this
        exact ⟨_, _, _, h⟩
  -- a run of rejected steps is finite
  have hrun : ∀ n, ∃ j, (T^[n + j + 1] s).regr = false := by
    intro n
    by_contra hrej
    push Not at hrej
    simp only [Bool.not_eq_false] at hrej
    obtain ⟨r, l, mu, h⟩ := hinv (n + 1)
    set s1 := T^[n + 1] s with hs1
    have hit : ∀ j, T^[n + j + 1] s = T^[j] s1 := by
      intro j
      rw [hs1, ← Function.iterate_add_apply, show j + (n + 1) = n + j + 1 by omega]
    have hchain : ∀ j, (T^[j] s1).p.1 = s1.p.1 ∧ ∃ r, Inv S (T^[j] s1) r (l * (mu ^ j * 2 ^ (j * (j - 1) / 2))) (mu * 2 ^ j) := by
      intro j
      induction j with
      | zero => exact ⟨rfl, r, by simpa using h⟩
      | succ j ih =>
        obtain ⟨hm, r, hI⟩ := ih
        have hreg : (T^[j] s1).regr = true := by rw [← hit]; exact hrej j
        have hp := pass hS lo hg hb o hlm hcJ hI C hC
        rw [Function.iterate_succ_apply']
        rw [hreg, if_pos rfl, hm] at hp
        refine ⟨hp.1, r, ?_⟩
        rcases hp.2 with ⟨-, h', -⟩ | ⟨hf, -⟩
        · have h1 := C125_rejections l mu (j + 1)
          rw [Function.iterate_succ_apply', C125_rejections] at h1
          simp only [failed, scale, Damp.mk.injEq, Dbl.fin.injEq] at h1
          rw [← h1.1, ← h1.2]
          exact h'
        · have := hrej (j + 1)
          rw [hit, Function.iterate_succ_apply', hT, hf] at this
          cases this
    obtain ⟨k, hk⟩ := growth l mu h.lpos h.mupos (C s1.p.1 / o.convergenceDeltaX)
    obtain ⟨hm, r', hI⟩ := hchain k
    have hreg : (T^[k] s1).regr = true := by rw [← hit]; exact hrej k
    have hp := pass hS lo hg hb o hlm hcJ hI C hC
    rw [hreg, if_pos rfl, hm] at hp
    rcases hp.2 with ⟨-, -, v, hv, hvC⟩ | ⟨hf, -⟩
    · have hgo := (hcon (n + (k + 1) + 1)).1
      rw [hit, Function.iterate_succ_apply', hT, hv, Dbl.lt_fin] at hgo
      rw [div_lt_iff₀ hcX] at hk
      have hlp := hI.lpos
      rw [le_div_iff₀ hlp] at hvC
      nlinarith
    · have := hrej (k + 1)
      rw [hit, Function.iterate_succ_apply', hT, hf] at this
      cases this
  -- so costs decrease again and again
  have hdec : ∀ n r l mu, Inv S (T^[n] s) r l mu → ∃ n' r' l' mu', Inv S (T^[n'] s) r' l' mu' ∧ r' < r - o.convergenceDeltaJ := by
    intro n r l mu hI
    obtain ⟨j, hj⟩ := hrun n
    induction j generalizing n r l mu with
    | zero =>
      rw [Nat.add_zero, Function.iterate_succ_apply'] at hj
      rcases (pass hS lo hg hb o hlm hcJ hI C hC).2 with ⟨hf, -⟩ | ⟨-, r', -, -, -, -, h⟩
      · rw [← hT, hj] at hf; cases hf
      · have hgo := hcon (n + 1)
        rw [Function.iterate_succ_apply'] at hgo
        obtain ⟨h1, l', mu', h2⟩ := h hgo
        exact ⟨n + 1, r', l', mu', by rw [Function.iterate_succ_apply']; exact h2, h1⟩
    | succ j ih =>
      have hgo := hcon (n + 1)
      rw [Function.iterate_succ_apply'] at hgo
      rcases (pass hS lo hg hb o hlm hcJ hI C hC).2 with ⟨-, h', -⟩ | ⟨-, r', -, -, -, -, h⟩
      · exact ih (n + 1) r _ _ (by rw [Function.iterate_succ_apply']; exact h') (by rw [show n + 1 + j + 1 = n + (j + 1) + 1 by omega]; exact hj)
      · obtain ⟨h1, l', mu', h2⟩ := h hgo
        exact ⟨n + 1, r', l', mu', by rw [Function.iterate_succ_apply']; exact h2, h1⟩
  have hfin : ∀ (k : Nat) n r l mu, Inv S (T^[n] s) r l mu → k * o.convergenceDeltaJ ≤ r := by
    intro k
    induction k with
    | zero => intro n r l mu hI; simpa using hI.nonneg
    | succ k ih =>
      intro n r l mu hI
      obtain ⟨n', r', l', mu', hI', hlt⟩ := hdec n r l mu hI
      have := ih n' r' l' mu' hI'
      push_cast
      linarith
  obtain ⟨k, hk⟩ := exists_nat_gt (r / o.convergenceDeltaJ)
  have := hfin k 0 r l mu h
  rw [div_lt_iff₀ hcJ] at hk
  linarith

omit [IsStrictOrderedRing K] in
/-- The first pass of the loop is that of a good state. -/
theorem first (S : Prob K X D M) (lo : LmOptions K) (o : Options K) (x : X) (m : M) :
    iter (S.parts lo).setup o (enter (S.parts lo).setup o x (m, ⟨.fin 0, lo.muInit⟩)) =
    iter (S.parts lo).setup o { enter (S.parts lo).setup o x (m, ⟨.fin 0, lo.muInit⟩) with p := (S.build x, lambda0 lo (S.maxDiag (S.build x)) ⟨.fin 0, lo.muInit⟩) } := by
  have hidem : ∀ q : Damp K, lambda0 lo (S.maxDiag (S.build x)) (lambda0 lo (S.maxDiag (S.build x)) q) = lambda0 lo (S.maxDiag (S.build x)) q := by
    intro q
    unfold lambda0
    by_cases h : q.lambda = .fin 0
    · simp only [h, if_true]
      split_ifs <;> simp_all
    · simp [h]
  have : (S.parts lo).setup.prepare (m, ⟨.fin 0, lo.muInit⟩) x false = (S.parts lo).setup.prepare (S.build x, lambda0 lo (S.maxDiag (S.build x)) ⟨.fin 0, lo.muInit⟩) x false := by
    show (let p := (S.build x, lambda0 lo (S.maxDiag (S.build x)) ⟨.fin 0, lo.muInit⟩); (p, S.solve p.2.lambda p.1)) = _
    show _ = (let p := (S.build x, lambda0 lo (S.maxDiag (S.build x)) (lambda0 lo (S.maxDiag (S.build x)) ⟨.fin 0, lo.muInit⟩)); (p, S.solve p.2.lambda p.1))
    rw [hidem]
  unfold iter enter
  simp only [this]

/-- **C125** (the method descends and ends). Let the linear algebra be exact and the costs finite and not negative, `Sound`; let gamma and the initial `μ` be positive, beta at least 2, both convergence thresholds positive, and the initial damping positive. Then
`optimize` with Levenberg-Marquardt steps does not increase the cost, reports the cost of the returned estimate unless the last step was rejected, and there is a number of passes that it never exceeds, however large `maxIterations` is. -/
theorem C125_converges_partial [Archimedean K] (S : Prob K X D M) (hS : Sound S) (lo : LmOptions K) (hg : 0 < lo.gamma) (hb : 1 < lo.beta) (hmu : 0 < lo.muInit) (o : Options K) (hlm : o.doLevenbergMarquardt = true)
    (hcX : 0 < o.convergenceDeltaX) (hcJ : 0 < o.convergenceDeltaJ) (x : X) (m : M) (hl : 0 < if lo.estimateScale ≤ 0 then lo.lambdaInit else S.maxDiag (S.build x) * lo.estimateScale) :
    (∃ N : Nat, ∀ maxIt : Int, (optimizeLM S lo { o with maxIterations := maxIt } x m).iterations ≤ N) ∧
    ∀ maxIt : Int, let r := optimizeLM S lo { o with maxIterations := maxIt } x m
      r.JStart = S.cost x ∧ Dbl.le (S.cost r.x) (S.cost x) = true ∧
      ((loop (S.parts lo).setup { o with maxIterations := maxIt } maxIt.toNat (enter (S.parts lo).setup { o with maxIterations := maxIt } x (m, ⟨.fin 0, lo.muInit⟩))).regr = false → r.JFinal = S.cost r.x) := by
  obtain ⟨r0, hr0, hc0⟩ := hS.cost x
  set s0 := enter (S.parts lo).setup o x (m, ⟨.fin 0, lo.muInit⟩) with hs0
  set s1 : Legacy.St K X (M × Damp K) := { s0 with p := (S.build x, lambda0 lo (S.maxDiag (S.build x)) ⟨.fin 0, lo.muInit⟩) } with hs1
  have hI : Inv S s1 r0 (if lo.estimateScale ≤ 0 then lo.lambdaInit else S.maxDiag (S.build x) * lo.estimateScale) lo.muInit :=
    ⟨hc0, hc0, hr0, by simp [hs1, lambda0], hl, hmu⟩
  have hiter : ∀ k, (iter (S.parts lo).setup o)^[k + 1] s0 = (iter (S.parts lo).setup o)^[k + 1] s1 := by
    intro k
    rw [Function.iterate_succ_apply, Function.iterate_succ_apply, hs1, ← first S lo o x m, hs0]
  constructor
  · obtain ⟨n, hn⟩ := stops hS lo hg hb o hlm hcX hcJ s1 _ _ _ hI
    refine ⟨n, fun maxIt => ?_⟩
    obtain ⟨k, -, e, hrun⟩ := loop_eq (S.parts lo).setup { o with maxIterations := maxIt } maxIt.toNat (enter (S.parts lo).setup { o with maxIterations := maxIt } x (m, ⟨.fin 0, lo.muInit⟩))
    show (loop _ _ _ _).iterations ≤ _
    rw [e, iterate_iterations]
    have hk : k ≤ n := by
      by_contra hlt
      have hr := hrun n (by omega)
      simp only [running, Bool.and_eq_true] at hr
      apply hn
      have : (iter (S.parts lo).setup { o with maxIterations := maxIt })^[n] (enter (S.parts lo).setup { o with maxIterations := maxIt } x (m, ⟨.fin 0, lo.muInit⟩)) = (iter (S.parts lo).setup o)^[n] s0 := rfl
      rw [this] at hr
      cases n with
      | zero => exact ⟨hr.1.2, hr.2⟩
      | succ n => rw [← hiter]; exact ⟨hr.1.2, hr.2⟩
    show (0 : Int) + k ≤ n
    omega
  · intro maxIt r
    obtain ⟨k, -, e, hrun⟩ := loop_eq (S.parts lo).setup { o with maxIterations := maxIt } maxIt.toNat (enter (S.parts lo).setup { o with maxIterations := maxIt } x (m, ⟨.fin 0, lo.muInit⟩))
    choose C hC using hS.size
    have key : ∀ j, j ≤ k → (∃ q, q ≤ r0 ∧ S.cost ((iter (S.parts lo).setup o)^[j] s1).x = .fin q ∧ (((iter (S.parts lo).setup o)^[j] s1).regr = false → ((iter (S.parts lo).setup o)^[j] s1).J = .fin q)) ∧
        (j < k → ∃ q l mu, q ≤ r0 ∧ Inv S ((iter (S.parts lo).setup o)^[j] s1) q l mu) := by
      intro j
      induction j with
      | zero => intro _; exact ⟨⟨r0, le_rfl, hc0, fun _ => hc0⟩, fun _ => ⟨_, _, _, le_rfl, hI⟩⟩
      | succ j ih =>
        intro hj
        obtain ⟨q, l, mu, hq, hIj⟩ := (ih (by omega)).2 (by omega)
        have hp := (pass hS lo hg hb o hlm hcJ hIj C hC).2
        rw [Function.iterate_succ_apply']
        rcases hp with ⟨hf, hI', -⟩ | ⟨-, r', hr', hc', hJ', -, h'⟩
        · exact ⟨⟨q, hq, hI'.cost, fun h => by rw [hf] at h; cases h⟩, fun _ => ⟨_, _, _, hq, hI'⟩⟩
        · refine ⟨⟨r', hr'.trans hq, hc', fun _ => hJ'⟩, fun hlt => ?_⟩
          have hr := hrun (j + 1) hlt
          have he : (iter (S.parts lo).setup { o with maxIterations := maxIt })^[j + 1] (enter (S.parts lo).setup { o with maxIterations := maxIt } x (m, ⟨.fin 0, lo.muInit⟩)) = (iter (S.parts lo).setup o)^[j + 1] s0 := rfl
          rw [he, hiter, Function.iterate_succ_apply'] at hr
          simp only [running, Bool.and_eq_true] at hr
          obtain ⟨-, l', mu', hI'⟩ := h' ⟨hr.1.2, hr.2⟩
          exact ⟨r', l', mu', hr'.trans hq, hI'⟩
    obtain ⟨⟨q, hq, hcq, hJq⟩, -⟩ := key k le_rfl
    have hx : r.x = ((iter (S.parts lo).setup o)^[k] s1).x ∧ r.JFinal = ((iter (S.parts lo).setup o)^[k] s1).J ∧
        (loop (S.parts lo).setup { o with maxIterations := maxIt } maxIt.toNat (enter (S.parts lo).setup { o with maxIterations := maxIt } x (m, ⟨.fin 0, lo.muInit⟩))).regr = ((iter (S.parts lo).setup o)^[k] s1).regr := by
      show (loop _ _ _ _).x = _ ∧ (loop _ _ _ _).J = _ ∧ _
      rw [e]
      show ((iter (S.parts lo).setup o)^[k] s0).x = _ ∧ ((iter (S.parts lo).setup o)^[k] s0).J = _ ∧ ((iter (S.parts lo).setup o)^[k] s0).regr = _
      cases k with
      | zero => exact ⟨rfl, rfl, rfl⟩
      | succ k => rw [hiter]; exact ⟨rfl, rfl, rfl⟩
    refine ⟨rfl, ?_, ?_⟩
    · rw [hx.1, hcq, hc0, Dbl.le_fin]; exact hq
    · rw [hx.2.2, hx.2.1, hx.1, hcq]; exact hJq

/-! ### A concrete case and the case of no damping -/

/-- One variable (with its previous value), cost `x²`, and a linearisation whose curvature is a third of the true one, so that undamped steps overshoot. -/
def demo : Prob ℚ (ℚ × ℚ) ℚ ℚ where
  cost x := .fin (x.1 * x.1)
  update x d := ((x.1 + d, x.1), .fin |d|)
  revert x := (x.2, x.2)
  build x := x.1
  maxDiag _ := 0
  solve l m := match l with
    | .fin l => some (-3 * m / (1 + l))
    | _ => none
  den _ m _ := m * m

/-- The hypotheses of `C125_converges_partial` are met. -/
theorem demo_sound : Sound demo where
  cost x := ⟨_, mul_self_nonneg _, rfl⟩
  revert _ _ := rfl
  solve l m _ := ⟨_, rfl, mul_self_nonneg _⟩
  size m := by
    refine ⟨3 * |m|, fun l d hl hd x => ⟨_, rfl, ?_⟩⟩
    simp only [demo, Option.some.injEq] at hd
    subst hd
    rw [abs_div, abs_mul, abs_of_pos (show (0 : ℚ) < 1 + l by linarith)]
    rw [div_le_div_iff₀ (by linarith) hl]
    norm_num
    nlinarith [abs_nonneg m]

example : (∃ N : Nat, ∀ maxIt : Int, (optimizeLM demo ⟨1 / 1000, 3, 2, 3, 2, -1⟩ ⟨1 / 1000, 1 / 1000, maxIt, true⟩ (1, 1) 1).iterations ≤ N) :=
  (C125_converges_partial demo demo_sound ⟨1 / 1000, 3, 2, 3, 2, -1⟩ (by norm_num) (by norm_num) (by norm_num) ⟨1 / 1000, 1 / 1000, 20, true⟩ rfl (by norm_num) (by norm_num) (1, 1) 1 (by norm_num)).1

/-- **C125** (no damping, no end). With an initial damping of zero a rejected step is tried again and again unchanged until `maxIterations` is reached, because zero is multiplied by `μ`. A damping of zero is what the estimate of the initial
damping yields for a Hessian block `diag(1, 2)`, see `Legacy.setInitialLambda`. -/
theorem C125_zero_damping_counterexample :
    Legacy.setInitialLambda (0 : ℚ) (1 / 1000) 1 [some [[1, 0], [0, 2]]] = .ok 0 ∧
    ∀ n : Nat, (optimizeLM demo ⟨1 / 1000, 3, 2, 3, 2, 1⟩ ⟨1 / 1000, 1 / 1000, n, true⟩ (1, 1) 1).iterations = n := by
  refine ⟨by decide +kernel, fun n => ?_⟩
  set lo : LmOptions ℚ := ⟨1 / 1000, 3, 2, 3, 2, 1⟩ with hlo
  have key : ∀ (k : Nat) (s : Legacy.St ℚ (ℚ × ℚ) (ℚ × Damp ℚ)), s.x.1 = 1 → s.pJ = .fin 1 → (s.regr = true → s.p.1 = 1) → s.p.2.lambda = .fin 0 → going (⟨1 / 1000, 1 / 1000, n, true⟩ : Options ℚ) s → s.iterations + k = n →
      (loop (demo.parts lo).setup ⟨1 / 1000, 1 / 1000, n, true⟩ k s).iterations = n := by
    intro k
    induction k with
    | zero => intro s _ _ _ _ _ h; simpa [loop] using h
    | succ k ih =>
      intro s hx hp hm hl hgo hit
      have hrun : running (⟨1 / 1000, 1 / 1000, n, true⟩ : Options ℚ) s = true := by
        unfold running
        rw [hgo.1, hgo.2]
        simp only [Bool.and_true, decide_eq_true_eq]
        push_cast at hit
        omega
      rw [loop, if_pos hrun]
      have hl0 : lambda0 lo (demo.maxDiag (demo.build s.x)) s.p.2 = s.p.2 := by
        unfold lambda0
        rw [if_pos hl]
        simp only [hlo, demo]
        rcases h : s.p.2 with ⟨a, b⟩
        rw [h] at hl
        simp only at hl
        rw [hl]
        simp
      have hprep : (demo.parts lo).setup.prepare s.p s.x s.regr = ((1, s.p.2), some (-3)) := by
        show (let p := if s.regr then s.p else (demo.build s.x, lambda0 lo (demo.maxDiag (demo.build s.x)) s.p.2); (p, demo.solve p.2.lambda p.1)) = _
        rw [hl0]
        have : (if s.regr = true then s.p else (demo.build s.x, s.p.2)) = (1, s.p.2) := by
          split_ifs with hr
          · rw [← hm hr]
          · show (s.x.1, s.p.2) = _
            rw [hx]
        simp only [this, hl]
        norm_num [demo]
      have hiter : iter (demo.parts lo).setup ⟨1 / 1000, 1 / 1000, n, true⟩ s =
          { s with x := (s.x.1, s.x.1), J := .fin 4, deltaX := .fin 3, deltaJ := .fin (-3), regr := true, p := (1, failed s.p.2), failedIt := s.failedIt + 1, iterations := s.iterations + 1, solverFailed := false } := by
        unfold iter
        rw [hprep]
        have hc : (demo.parts lo).setup.cost ((demo.parts lo).setup.update s.x (-3)).1 = .fin 4 := by
          show Dbl.fin ((s.x.1 + -3) * (s.x.1 + -3)) = _
          rw [hx]; norm_num
        have hd : divD (Dbl.sub (.fin 1) (.fin 4)) ((demo.parts lo).setup.den (1, s.p.2) (-3)) = (.fin (-3) : Dbl ℚ) := by
          show divD (Dbl.sub (.fin 1) (.fin 4)) (1 * 1 : ℚ) = _
          norm_num [divD, Dbl.sub, Dbl.div]
        simp only [hc, hp, hd, if_true]
        rw [if_pos (by decide)]
        unfold finish
        have h3 : ((demo.parts lo).setup.update s.x (-3)).2 = (.fin 3 : Dbl ℚ) := by
          show Dbl.fin |(-3 : ℚ)| = _
          norm_num
        have h4 : Dbl.lt (.fin 4 : Dbl ℚ) (.fin 1) = false := by decide
        have h5 : Dbl.sub (.fin 1 : Dbl ℚ) (.fin 4) = .fin (-3) := by norm_num [Dbl.sub]
        simp only [h3, h4, h5, Bool.false_eq_true, if_false, hp]
        rfl
      rw [hiter]
      apply ih
      · exact hx
      · exact hp
      · intro _; rfl
      · show scale s.p.2.mu s.p.2.lambda = _
        rw [hl]; simp [scale]
      · constructor
        · show Dbl.lt (.fin (1 / 1000)) (.fin 3) = true
          rw [Dbl.lt_fin]; norm_num
        · show Dbl.lt (.fin (1 / 1000)) (Dbl.abs (.fin (-3))) = true
          simp only [Dbl.abs]
          rw [Dbl.lt_fin]; norm_num
      · show s.iterations + 1 + (k : Int) = n
        push_cast at hit
        omega
  apply key
  · rfl
  · show Dbl.fin ((1 : ℚ) * 1) = _; norm_num
  · intro h; cases h
  · rfl
  · constructor
    · show Dbl.lt (.fin (1 / 1000)) (.fin (1 / 1000 + 1 : ℚ)) = true
      rw [Dbl.lt_fin]; norm_num
    · show Dbl.lt (.fin (1 / 1000)) (Dbl.abs (.fin (1 / 1000 + 1 : ℚ))) = true
      simp only [Dbl.abs]
      rw [Dbl.lt_fin]; norm_num
  · show (0 : Int) + ((n : Int).toNat : Nat) = n
    omega

end Verif.LegacyRun
