import Verif.Policy.Live
import Mathlib.Analysis.Calculus.Deriv.Mul
import Mathlib.Tactic.FieldSimp
import Mathlib.Tactic.Ring

/-! Property C95 for the dog-leg policy. -/
namespace Verif.Policy
open Verif.Optimizer2 Verif.Trust

variable {V : Type} [NormedAddCommGroup V] [InnerProductSpace ℝ V]

/-- What the linear solver returns belongs to a system with a symmetric positive definite matrix `H`. -/
def Normal (l : Lin V) : Prop :=
  ∃ H : V →ₗ[ℝ] V, (∀ a b, inner ℝ (H a) b = inner ℝ a (H b)) ∧ (∀ d, d ≠ 0 → 0 < inner ℝ (H d) d) ∧
    l.rJJr = inner ℝ (H l.rhs) l.rhs ∧ ∀ g, l.sol = some g → H g = l.rhs

theorem Normal.nonneg {l : Lin V} (h : Normal l) : 0 ≤ l.rJJr := by
  obtain ⟨H, _, h2, h3, _⟩ := h
  rw [h3]
  by_cases hz : l.rhs = 0
  · rw [hz, map_zero, inner_zero_left]
  · exact (h2 _ hz).le

/-- The steepest-descent step is not longer than its projection on the Gauss-Newton step. -/
theorem Normal.cauchy {l : Lin V} (h : Normal l) (hr : l.rJJr ≠ 0) {g : V} (hg : l.sol = some g) :
    ‖(‖l.rhs‖ ^ 2 / l.rJJr) • l.rhs‖ ^ 2 ≤ inner ℝ ((‖l.rhs‖ ^ 2 / l.rJJr) • l.rhs) g := by
  have hpos : 0 < l.rJJr := lt_of_le_of_ne h.nonneg (Ne.symm hr)
  obtain ⟨H, hsym, hpd, hj, hsol⟩ := h
  have hgr := hsol g hg
  set r := l.rhs with hrdef
  set m := l.rJJr with hm
  have hnn : ∀ d, 0 ≤ inner ℝ (H d) d := by
    intro d
    by_cases hz : d = 0
    · rw [hz, map_zero, inner_zero_left]
    · exact (hpd _ hz).le
  -- the quadratic form at `m • g - ‖r‖² • r`
  have hq := hnn (m • g - (‖r‖ ^ 2) • r)
  have e1 : inner ℝ (H g) r = ‖r‖ ^ 2 := by rw [hgr, real_inner_self_eq_norm_sq]
  have e2 : inner ℝ (H r) g = ‖r‖ ^ 2 := by rw [hsym, hgr, real_inner_self_eq_norm_sq]
  have e3 : inner ℝ (H g) g = inner ℝ r g := by rw [hgr]
  have e4 : inner ℝ (H (m • g - (‖r‖ ^ 2) • r)) (m • g - (‖r‖ ^ 2) • r) =
      m * (m * inner ℝ r g - (‖r‖ ^ 2) ^ 2) := by
    rw [map_sub, map_smul, map_smul, inner_sub_left, inner_sub_right, inner_sub_right]
    simp only [inner_smul_left, inner_smul_right, e1, e2, e3, ← hj]
    simp
    ring
  rw [e4] at hq
  have hq' : (‖r‖ ^ 2) ^ 2 ≤ m * inner ℝ r g := by
    have := nonneg_of_mul_nonneg_right hq hpos
    linarith
  rw [norm_smul, inner_smul_left, mul_pow, Real.norm_eq_abs, sq_abs]
  simp only [conj_trivial]
  have : (‖r‖ ^ 2 / m) ^ 2 * ‖r‖ ^ 2 = (‖r‖ ^ 2 / m) * ((‖r‖ ^ 2) ^ 2 / m) := by ring
  rw [this]
  apply mul_le_mul_of_nonneg_left _ (by positivity)
  rw [div_le_iff₀ hpos]
  linarith

theorem dlGn_L0 (s : DL V) (J : ℝ) (hJ : 0 ≤ J) (hsd : s.sdNorm = ‖s.sd‖) (hgn : s.gnNorm = ‖s.gn‖)
    (hin : s.sdNorm < s.delta ∨ (s.delta = 0 ∧ ‖s.sd‖ ^ 2 ≤ inner ℝ s.sd s.gn)) :
    0 ≤ (dlGn s J).L0 ∧ ((dlGn s J).step = .gn → (dlGn s J).gnNorm ≤ (dlGn s J).delta ∧ (dlGn s J).dx = (dlGn s J).gn) ∧
      (dlGn s J).sd = s.sd ∧ (dlGn s J).scale = s.scale := by
  unfold dlGn
  simp only
  set delta := if s.delta = 0 then ‖s.sd + (1 / 2 : ℝ) • (s.gn - s.sd)‖ else s.delta with hdelta
  have hle : ‖s.sd‖ ≤ delta := by
    rcases hin with h | ⟨h, hc⟩
    · have : s.delta ≠ 0 := by
        intro h0
        rw [h0, hsd] at h
        exact absurd h (not_lt.2 (norm_nonneg _))
      rw [hdelta, if_neg this, ← hsd]
      exact h.le
    · rw [hdelta, if_pos h]
      apply le_of_sq_le_sq _ (norm_nonneg _)
      have hcs : ‖s.sd‖ ^ 2 ≤ ‖s.sd‖ * ‖s.gn‖ := le_trans hc (real_inner_le_norm _ _)
      have hge : ‖s.sd‖ ^ 2 ≤ ‖s.gn‖ ^ 2 := by
        have h1 := norm_nonneg s.sd
        have h2 := norm_nonneg s.gn
        rcases h1.eq_or_lt with h0 | h0
        · rw [← h0]; simp
        · have : ‖s.sd‖ ≤ ‖s.gn‖ := by
            by_contra hlt
            push Not at hlt
            nlinarith
          exact pow_le_pow_left₀ h1 this 2
      have e : s.sd + (1 / 2 : ℝ) • (s.gn - s.sd) = (1 / 2 : ℝ) • (s.sd + s.gn) := by
        rw [smul_sub, smul_add]
        have : s.sd = (1 / 2 : ℝ) • s.sd + (1 / 2 : ℝ) • s.sd := by rw [← add_smul]; norm_num
        nth_rw 1 [this]
        abel
      rw [e, norm_smul, mul_pow, norm_add_sq_real]
      norm_num
      nlinarith
  split
  · exact ⟨hJ, fun _ => ⟨by assumption, rfl⟩, rfl, rfl⟩
  · rename_i hlt
    push Not at hlt
    rw [hgn] at hlt
    have hb := dlBeta_range s.sd s.gn delta hle hlt
    rw [hsd]
    refine ⟨?_, (fun h => by cases h), rfl, rfl⟩
    have h1 := hb.1
    have h2 : 0 ≤ 2 - dlBeta s.sd s.gn ‖s.sd‖ delta := by linarith [hb.2]
    simp only
    positivity

/-- What is known of the policy besides `DInv` and `StepOk`. -/
theorem dlCall_L0 (s s' : DL V) (first prevFailed : Bool) (gain J : ℝ) (l : Lin V) (hn : Normal l) (hJ : 0 ≤ J)
    (hd : 0 ≤ dlDelta s first gain) (hs : prevFailed = true → DInv s ∧ 0 ≤ s.scale ∧ dlDelta s first gain ≠ 0)
    (hgz : s.gn ≠ 0 ∨ (first = true ∧ s.delta = 0)) (hpf : prevFailed = true → first = false)
    (h : dlCall s first prevFailed gain J l = some (s', true)) :
    s'.gn ≠ 0 ∧ 0 ≤ s'.L0 ∧ 0 ≤ s'.scale ∧ (s'.step = .gn → s'.gnNorm ≤ s'.delta ∧ s'.dx = s'.gn) ∧
      (prevFailed = true → s'.sd = s.sd ∧ s'.scale = s.scale) ∧
      (prevFailed = false → l.rJJr ≠ 0 ∧ s'.scale = ‖l.rhs‖ ^ 2 / l.rJJr ∧ s'.sd = s'.scale • l.rhs) := by
  unfold dlCall at h
  simp only at h
  split at h
  · cases h
  · rename_i s1 e1
    have hs1 : s1.sdNorm = ‖s1.sd‖ ∧ s1.gnNorm = s.gnNorm ∧ s1.gn = s.gn ∧ s1.delta = dlDelta s first gain ∧ 0 ≤ s1.scale ∧
        (prevFailed = true → s1.sd = s.sd ∧ s1.scale = s.scale) ∧
        (prevFailed = false → l.rJJr ≠ 0 ∧ s1.scale = ‖l.rhs‖ ^ 2 / l.rJJr ∧ s1.sd = s1.scale • l.rhs) := by
      cases prevFailed with
      | true =>
        rw [if_pos rfl] at e1
        cases e1
        exact ⟨(hs rfl).1.sd, rfl, rfl, rfl, (hs rfl).2.1, fun _ => ⟨rfl, rfl⟩, fun h => by cases h⟩
      | false =>
        rw [if_neg (by simp)] at e1
        unfold dlRebuild at e1
        split at e1
        · cases e1
        · rename_i hr
          cases e1
          exact ⟨rfl, rfl, rfl, rfl, div_nonneg (by positivity) hn.nonneg, (fun h => by cases h), fun _ => ⟨hr, rfl, rfl⟩⟩
    obtain ⟨k1, k2, k3, k4, k5, k6, k7⟩ := hs1
    have hd1 : 0 ≤ s1.delta := by rw [k4]; exact hd
    split at h
    · rename_i hc
      cases h
      refine ⟨?_, ?_, k5, fun h => (by cases h), k6, k7⟩
      · rcases hgz with h | ⟨h1, h2⟩
        · show s1.gn ≠ 0; rw [k3]; exact h
        · exfalso
          apply hc.2
          rw [k4]; unfold dlDelta; simp only; rw [if_pos h1]; exact h2
      simp only
      have : 0 ≤ 2 * s1.sdNorm - s1.delta := by have := hc.1; linarith
      positivity
    · rename_i hc
      split at h
      · rename_i hp
        cases h
        have hin : s1.sdNorm < s1.delta := by
          by_contra h'
          exact hc ⟨not_lt.1 h', by rw [k4]; exact (hs hp).2.2⟩
        obtain ⟨a1, a2, a3, a4⟩ := dlGn_L0 s1 J hJ k1 (by rw [k2, k3]; exact (hs hp).1.gn) (.inl hin)
        have hgn0 : s1.gn ≠ 0 := by
          rcases hgz with h | ⟨h1, _⟩
          · rw [k3]; exact h
          · rw [hpf hp] at h1; cases h1
        exact ⟨by rw [dlGn_gn]; exact hgn0, a1, by rw [a4]; exact k5, a2, by rw [a3, a4]; exact k6, by rw [a3, a4]; exact k7⟩
      · rename_i hp
        have hp' : prevFailed = false := by simpa using hp
        split at h
        · cases h
        · rename_i g hg
          cases h
          have hin : s1.sdNorm < s1.delta ∨ (s1.delta = 0 ∧ ‖s1.sd‖ ^ 2 ≤ inner ℝ s1.sd g) := by
            by_cases hz : s1.delta = 0
            · refine .inr ⟨hz, ?_⟩
              rw [(k7 hp').2.2, (k7 hp').2.1]
              exact hn.cauchy (k7 hp').1 hg
            · left
              by_contra h'
              exact hc ⟨not_lt.1 h', hz⟩
          obtain ⟨a1, a2, a3, a4⟩ := dlGn_L0 { s1 with gn := g, gnNorm := ‖g‖ } J hJ k1 rfl hin
          have hgn0 : g ≠ 0 := by
            rintro rfl
            obtain ⟨H, _, _, hj, hsol⟩ := hn
            have h0 := hsol 0 hg
            rw [map_zero] at h0
            apply (k7 hp').1
            rw [hj, ← h0, map_zero, inner_zero_left]
          exact ⟨by rw [dlGn_gn]; exact hgn0, a1, by rw [a4]; exact k5, a2, by rw [a3, a4]; exact k6, by rw [a3, a4]; exact k7⟩

omit [InnerProductSpace ℝ V] in
theorem dlDelta_pos (s : DL V) (first : Bool) (gain : ℝ) (hd : 0 < s.delta) (hg : s.step = .gn → 0 < s.gnNorm) :
    0 < dlDelta s first gain := by
  unfold dlDelta
  simp only
  repeat' split
  all_goals first
    | exact hd
    | (rename_i h; exact lt_of_lt_of_le hd h)
    | (rename_i h; have := hg h; positivity)
    | positivity

omit [InnerProductSpace ℝ V] in
theorem dlDelta_half (s : DL V) (gain : ℝ) (hgain : gain < 0) (hL : 0 ≤ s.L0) (hg : s.step = .gn → s.gnNorm ≤ s.delta) :
    dlDelta s false gain ≤ s.delta / 2 := by
  have hle : Dbl.le (Dbl.div gain s.L0) (.fin 0) = true := by
    unfold Dbl.div
    rcases hL.eq_or_lt with h | h
    · rw [if_pos h.symm, if_neg hgain.ne, if_neg (not_lt.2 hgain.le)]; rfl
    · rw [if_neg h.ne']
      exact (Dbl.le_fin _ _).2 (div_nonpos_of_nonpos_of_nonneg hgain.le hL)
  have hlt : ∀ a : ℝ, 0 ≤ a → Dbl.lt (.fin a) (Dbl.div gain s.L0) = false := by
    intro a ha
    unfold Dbl.div
    rcases hL.eq_or_lt with h | h
    · rw [if_pos h.symm, if_neg hgain.ne, if_neg (not_lt.2 hgain.le)]; rfl
    · rw [if_neg h.ne']
      cases hh : Dbl.lt (Dbl.fin a) (Dbl.fin (gain / s.L0)) with
      | false => rfl
      | true =>
        have := (Dbl.lt_fin _ _).1 hh
        have h2 := div_nonpos_of_nonpos_of_nonneg hgain.le hL
        linarith
  unfold dlDelta
  simp only [Bool.false_eq_true, if_false, hlt _ (show (0 : ℝ) ≤ 3 / 4 by norm_num), hlt _ (le_refl (0 : ℝ)), hle, if_true,
    Bool.false_and]
  split
  · rename_i h
    have := hg h
    linarith
  · exact le_refl _

/-- After a rejected step the policy always returns a step, with the new radius. -/
theorem dlCall_rejected (s : DL V) (first : Bool) (gain J : ℝ) (l : Lin V) (hd : dlDelta s first gain ≠ 0) :
    ∃ s', dlCall s first true gain J l = some (s', true) ∧ s'.delta = dlDelta s first gain ∧
      (dlDelta s first gain ≤ s.sdNorm → s'.dx = (dlDelta s first gain / s.sdNorm) • s.sd) := by
  unfold dlCall
  simp only [if_true]
  split
  · exact ⟨_, rfl, rfl, fun _ => rfl⟩
  · rename_i hc
    refine ⟨_, rfl, ?_, fun h => absurd ⟨h, hd⟩ hc⟩
    unfold dlGn
    simp only [if_neg hd]
    split <;> rfl

/-- What is known about the dog-leg policy before a pass, as long as no solve has failed. -/
def DLInv (cost : V → ℝ) (lin : V → Lin V) (s : St ℝ (V × V) V (DLP V)) : Prop :=
  s.pJ = .fin (cost s.x.1) ∧ (s.lsf = false → ∃ e J p, s.error = .fin e ∧ s.p.base.J = .fin J ∧ s.p.base.pJ = .fin p ∧ 0 ≤ e ∧
    (s.p.base.first = true → s.prevFailed = false ∧ s.p.dl.delta = 0) ∧
    (s.p.base.first = false → DInv s.p.dl ∧ s.p.dl.gn ≠ 0 ∧ ‖s.p.dl.dx‖ ≤ s.p.dl.delta ∧ 0 ≤ s.p.dl.L0 ∧ 0 ≤ s.p.dl.scale ∧
      (s.p.dl.step = .gn → s.p.dl.gnNorm ≤ s.p.dl.delta ∧ s.p.dl.dx = s.p.dl.gn) ∧
      (s.prevFailed = true → cost s.x.1 < e ∧ s.p.dl.dx ≠ 0 ∧ (lin s.x.1).rJJr ≠ 0 ∧
        s.p.dl.scale = ‖(lin s.x.1).rhs‖ ^ 2 / (lin s.x.1).rJJr ∧ s.p.dl.sd = s.p.dl.scale • (lin s.x.1).rhs)))

theorem dl_solve (cost maxAbs : V → ℝ) (lin : V → Lin V) (s : St ℝ (V × V) V (DLP V)) (e J p : ℝ) (he : s.error = .fin e)
    (hJ : s.p.base.J = .fin J) (hp : s.p.base.pJ = .fin p) :
    (dl cost maxAbs lin).solve s.p s.x s.dx s.error s.prevFailed =
      match dlCall s.p.dl s.p.base.first s.prevFailed ((if s.prevFailed then p else J) - e) e (lin s.x.1) with
      | some (t, true) => (⟨(s.p.base.call s.error s.prevFailed).done, t⟩, true, t.dx)
      | some (t, false) => (⟨(s.p.base.call s.error s.prevFailed).done, t⟩, false, s.dx)
      | none => (⟨(s.p.base.call s.error s.prevFailed).done, s.p.dl⟩, false, s.dx) := by
  have hg : (s.p.base.call s.error s.prevFailed).gain = .fin ((if s.prevFailed then p else J) - e) := by
    unfold Base.gain Base.call
    simp only [he]
    cases s.prevFailed with
    | true => simp only [if_true]; rw [hp]; rfl
    | false => simp only [Bool.false_eq_true, if_false]; rw [hJ]; rfl
  show (match (s.p.base.call s.error s.prevFailed).gain, s.error with
    | .fin g, .fin j =>
      match dlCall s.p.dl (s.p.base.call s.error s.prevFailed).first s.prevFailed g j (lin s.x.1) with
      | some (t, true) => ((⟨(s.p.base.call s.error s.prevFailed).done, t⟩ : DLP V), true, t.dx)
      | some (t, false) => (⟨(s.p.base.call s.error s.prevFailed).done, t⟩, false, s.dx)
      | none => (⟨(s.p.base.call s.error s.prevFailed).done, s.p.dl⟩, false, s.dx)
    | _, _ => (⟨(s.p.base.call s.error s.prevFailed).done, s.p.dl⟩, false, s.dx)) = _
  rw [hg]
  simp only [he]
  rfl

theorem dl_pass (cost maxAbs : V → ℝ) (lin : V → Lin V) (hn : ∀ q, Normal (lin q)) (hcost : ∀ q, 0 ≤ cost q)
    (s s' : St ℝ (V × V) V (DLP V)) (hI : DLInv cost lin s) (hi : iter (dl cost maxAbs lin) s = .ok s') :
    DLInv cost lin s' := by
  obtain ⟨h0, hI⟩ := hI
  have hpJ : s'.pJ = .fin (cost s'.x.1) := by
    rcases iter_cases hi with ⟨_, rfl⟩ | ⟨_, _, _, rfl⟩ | ⟨_, _, rfl⟩
    · exact h0
    · exact h0
    · rfl
  refine ⟨hpJ, fun hl' => ?_⟩
  have hl : s.lsf = false := by
    rcases iter_cases hi with ⟨_, rfl⟩ | ⟨_, _, _, rfl⟩ | ⟨_, _, rfl⟩
    · simp [afterFailure] at hl'
    · exact hl'
    · exact hl'
  obtain ⟨e, J, p, he, hJ, hp, he0, hA, hB⟩ := hI hl
  have hsolve := dl_solve cost maxAbs lin s e J p he hJ hp
  have hok : ((dl cost maxAbs lin).solve s.p s.x s.dx s.error s.prevFailed).2.1 = true := by
    rcases iter_cases hi with ⟨_, rfl⟩ | ⟨h, _, _, rfl⟩ | ⟨h, _, rfl⟩
    · simp [afterFailure] at hl'
    · exact h
    · exact h
  obtain ⟨t, ht⟩ : ∃ t, dlCall s.p.dl s.p.base.first s.prevFailed ((if s.prevFailed then p else J) - e) e (lin s.x.1) =
      some (t, true) := by
    rw [hsolve] at hok
    cases hc : dlCall s.p.dl s.p.base.first s.prevFailed ((if s.prevFailed then p else J) - e) e (lin s.x.1) with
    | none => rw [hc] at hok; cases hok
    | some q =>
      obtain ⟨t, b⟩ := q
      cases b with
      | true => exact ⟨t, rfl⟩
      | false => rw [hc] at hok; cases hok
  rw [ht] at hsolve
  simp only at hsolve
  set g := (if s.prevFailed then p else J) - e with hg
  have hd0 : 0 ≤ dlDelta s.p.dl s.p.base.first g := by
    cases hf : s.p.base.first with
    | true =>
      unfold dlDelta
      simp only [if_true]
      rw [(hA hf).2]
    | false => exact dlDelta_nonneg _ (hB hf).1 _ _
  have hgs : s.p.dl.gnNorm = ‖s.p.dl.gn‖ ∨ (s.p.base.first = true ∧ s.p.dl.delta = 0) := by
    cases hf : s.p.base.first with
    | true => exact .inr ⟨rfl, (hA hf).2⟩
    | false => exact .inl (hB hf).1.gn
  have hpf : s.prevFailed = true → s.p.base.first = false := by
    intro h
    cases hf : s.p.base.first with
    | true => rw [(hA hf).1] at h; cases h
    | false => rfl
  have hneg : s.prevFailed = true → dlDelta s.p.dl s.p.base.first g ≠ 0 := by
    intro h
    obtain ⟨b1, _, b2, b3, b4, b5, b6⟩ := hB (hpf h)
    have hx := norm_pos_iff.2 (b6 h).2.1
    refine (dlDelta_pos _ _ _ (lt_of_lt_of_le hx b2) fun hst => ?_).ne'
    rw [b1.gn, ← (b5 hst).2]
    exact hx
  obtain ⟨c1, c2⟩ := dlCall_spec s.p.dl t s.p.base.first s.prevFailed g e (lin s.x.1) true hd0
    (fun h => (hB (hpf h)).1) (by simp) hgs ht
  have hgz : s.p.dl.gn ≠ 0 ∨ (s.p.base.first = true ∧ s.p.dl.delta = 0) := by
    cases hf : s.p.base.first with
    | true => exact .inr ⟨rfl, (hA hf).2⟩
    | false => exact .inl (hB hf).2.1
  obtain ⟨dz, d1, d2, d3, d4, d5⟩ := dlCall_L0 s.p.dl t s.p.base.first s.prevFailed g e (lin s.x.1) (hn _) he0 hd0
    (fun h => ⟨(hB (hpf h)).1, (hB (hpf h)).2.2.2.2.1, hneg h⟩) hgz hpf ht
  have hfresh : (lin s.x.1).rJJr ≠ 0 ∧ t.scale = ‖(lin s.x.1).rhs‖ ^ 2 / (lin s.x.1).rJJr ∧ t.sd = t.scale • (lin s.x.1).rhs := by
    cases hpv : s.prevFailed with
    | true =>
      obtain ⟨_, _, _, _, _, _, b6⟩ := hB (hpf hpv)
      obtain ⟨_, _, b7, b8, b9⟩ := b6 hpv
      rw [(d4 hpv).1, (d4 hpv).2]
      exact ⟨b7, b8, b9⟩
    | false => exact d5 hpv
  have hbase : (s.p.base.call s.error s.prevFailed).done.J = .fin e ∧
      ∃ p', (s.p.base.call s.error s.prevFailed).done.pJ = .fin p' := by
    refine ⟨he, ?_⟩
    unfold Base.call Base.done
    simp only
    split
    · exact ⟨p, hp⟩
    · exact ⟨J, hJ⟩
  obtain ⟨g1, p', g2⟩ := hbase
  have hcand : candidate (dl cost maxAbs lin) s = (s.x.1 + t.dx, s.x.1) := by
    unfold candidate
    rw [hsolve]; rfl
  rcases iter_cases hi with ⟨_, rfl⟩ | ⟨_, _, hrej, rfl⟩ | ⟨_, _, rfl⟩
  · simp [afterFailure] at hl'
  · have hlt : cost s.x.1 < cost (s.x.1 + t.dx) := by
      rw [h0, hcand] at hrej
      exact (Dbl.lt_fin _ _).1 (Dbl.lt_of_sub_neg hrej)
    refine ⟨cost (s.x.1 + t.dx), e, p', ?_, ?_, ?_, hcost _, ?_, ?_⟩
    · show (dl cost maxAbs lin).cost (candidate (dl cost maxAbs lin) s) = _
      rw [hcand]; rfl
    · show ((dl cost maxAbs lin).solve s.p s.x s.dx s.error s.prevFailed).1.base.J = _
      rw [hsolve]; exact g1
    · show ((dl cost maxAbs lin).solve s.p s.x s.dx s.error s.prevFailed).1.base.pJ = _
      rw [hsolve]; exact g2
    · intro hf
      have : ((dl cost maxAbs lin).solve s.p s.x s.dx s.error s.prevFailed).1.base.first = true := hf
      rw [hsolve] at this; cases this
    · intro _
      have hx : (afterReject (dl cost maxAbs lin) s).x.1 = s.x.1 := by
        show (candidate (dl cost maxAbs lin) s).2 = _
        rw [hcand]
      have hdl : (afterReject (dl cost maxAbs lin) s).p.dl = t := by
        show ((dl cost maxAbs lin).solve s.p s.x s.dx s.error s.prevFailed).1.dl = t
        rw [hsolve]
      rw [hx, hdl]
      refine ⟨c1, dz, (c2 rfl).1, d1, d2, d3, fun _ => ⟨hlt, ?_, hfresh⟩⟩
      intro hz
      rw [hz, add_zero] at hlt
      exact lt_irrefl _ hlt
  · refine ⟨cost (s.x.1 + t.dx), e, p', ?_, ?_, ?_, hcost _, ?_, ?_⟩
    · show (dl cost maxAbs lin).cost (candidate (dl cost maxAbs lin) s) = _
      rw [hcand]; rfl
    · show ((dl cost maxAbs lin).solve s.p s.x s.dx s.error s.prevFailed).1.base.J = _
      rw [hsolve]; exact g1
    · show ((dl cost maxAbs lin).solve s.p s.x s.dx s.error s.prevFailed).1.base.pJ = _
      rw [hsolve]; exact g2
    · intro hf
      have : ((dl cost maxAbs lin).solve s.p s.x s.dx s.error s.prevFailed).1.base.first = true := hf
      rw [hsolve] at this; cases this
    · intro _
      have hdl : (afterAccept (dl cost maxAbs lin) s).p.dl = t := by
        show ((dl cost maxAbs lin).solve s.p s.x s.dx s.error s.prevFailed).1.dl = t
        rw [hsolve]
      rw [hdl]
      exact ⟨c1, dz, (c2 rfl).1, d1, d2, d3, fun h => by cases h⟩

/-- **C95** (dog-leg, part). Take any run of the optimizer in which the linear solves succeed, and any point of it at which a step
has just been rejected while the gradient is not zero and the cost the policy compares with (that before the last accepted
step, see C27) is not above the current cost; this is so, for instance, as long as no step of the run has been accepted. If
the cost is differentiable at the current values, then after finitely many further passes a step that moves the design
variables is accepted, and the cost does not rise. (Missing: points at which the policy compares with a higher cost, where
it is false, see the counterexample.) -/
theorem C95_dogleg_partial (cost maxAbs : V → ℝ) (lin : V → Lin V) (hn : ∀ q, Normal (lin q)) (hcost : ∀ q, 0 ≤ cost q)
    (o : Options ℝ) (b : Obj ℝ (V × V) V (DLP V)) (s : St ℝ (V × V) V (DLP V)) (hs : Reach (dl cost maxAbs lin) o b s)
    (hl : s.lsf = false) (hp : s.prevFailed = true) (hr : (lin s.x.1).rhs ≠ 0) (hgrad : HasRhs cost s.x.1 (lin s.x.1).rhs)
    (ref : ℝ) (href : s.p.base.pJ = .fin ref) (hle : ref ≤ cost s.x.1) :
    ∃ n s', passes (dl cost maxAbs lin) n s = .ok s' ∧ s'.prevFailed = false ∧ s'.x.1 ≠ s.x.1 ∧
      cost s'.x.1 ≤ cost s.x.1 := by
  have hI := reach_inv (S := dl cost maxAbs lin) (o := o) (b := b) (DLInv cost lin)
    ⟨rfl, fun _ => ⟨_, _, _, rfl, rfl, rfl, hcost _, fun _ => ⟨rfl, rfl⟩, fun h => by cases h⟩⟩
    (fun s s' _ hi hI => dl_pass cost maxAbs lin hn hcost s s' hI hi) s hs
  set q := s.x.1 with hq
  set D := s.p.dl.delta with hD
  have hstep : ∀ (n : Nat) (t : St ℝ (V × V) V (DLP V)),
      (t.x.1 = q ∧ DLInv cost lin t ∧ t.lsf = false ∧ t.prevFailed = true ∧ t.p.base.pJ = .fin ref ∧ t.p.dl.delta ≤ D / 2 ^ n) →
      ∃ t', iter (dl cost maxAbs lin) t = .ok t' ∧
        ((t'.prevFailed = false ∧ t'.x.1 ≠ q ∧ cost t'.x.1 ≤ cost q) ∨
          ((t'.x.1 = q ∧ DLInv cost lin t' ∧ t'.lsf = false ∧ t'.prevFailed = true ∧ t'.p.base.pJ = .fin ref ∧
            t'.p.dl.delta ≤ D / 2 ^ (n + 1)) ∧
            ∃ d, cost q < cost (q + d) ∧ ∃ δ, 0 < δ ∧ δ ≤ D / 2 ^ (n + 1) ∧ (δ ≤ ‖t.p.dl.sd‖ → d = (δ / ‖t.p.dl.sd‖) • t.p.dl.sd))) := by
    rintro n t ⟨hx, hinv, htl, htp, htr, htd⟩
    obtain ⟨i0, hinv'⟩ := hinv
    obtain ⟨e, J, p, he, hJ, hpp, he0, hA, hB⟩ := hinv' htl
    have hf : t.p.base.first = false := by
      cases hf : t.p.base.first with
      | true => rw [(hA hf).1] at htp; cases htp
      | false => rfl
    obtain ⟨b1, bz, b2, b3, b4, b5, b6⟩ := hB hf
    obtain ⟨c1, c2, c3, c4, c5⟩ := b6 htp
    obtain rfl : p = ref := by rw [htr] at hpp; exact (Dbl.fin.inj hpp).symm
    rw [hx] at c1
    have hx0 := norm_pos_iff.2 c2
    have hd0 : 0 < dlDelta t.p.dl false (p - e) := by
      refine dlDelta_pos _ _ _ (lt_of_lt_of_le hx0 b2) fun hst => ?_
      rw [b1.gn, ← (b5 hst).2]
      exact hx0
    have hhalf := dlDelta_half t.p.dl (p - e) (by linarith) b3 (fun h => (b5 h).1)
    obtain ⟨u, hu, hu1, hu2⟩ := dlCall_rejected t.p.dl false (p - e) e (lin t.x.1) hd0.ne'
    obtain ⟨v1, v2⟩ := dlCall_spec t.p.dl u false true (p - e) e (lin t.x.1) true hd0.le (fun _ => b1) (by simp) (.inl b1.gn) hu
    obtain ⟨vz, _⟩ := dlCall_L0 t.p.dl u false true (p - e) e (lin t.x.1) (hn _) he0 hd0.le
      (fun h => ⟨b1, b4, hd0.ne'⟩) (.inl bz) (fun _ => rfl) hu
    have hux : u.dx ≠ 0 := by
      rcases (v2 rfl).2 with h | ⟨h, _⟩ | ⟨h, _⟩
      · rw [h]; exact vz
      · apply norm_pos_iff.1; rw [h, hu1]; exact hd0
      · apply norm_pos_iff.1; rw [h, hu1]; exact hd0
    have hsolve := dl_solve cost maxAbs lin t e J p he hJ hpp
    have hu' : dlCall t.p.dl t.p.base.first t.prevFailed ((if t.prevFailed then p else J) - e) e (lin t.x.1) =
        some (u, true) := by
      rw [htp, hf]; exact hu
    rw [hu'] at hsolve
    simp only at hsolve
    have hit := iter_of_solve (dl cost maxAbs lin) rfl (fun _ => rfl) t (by rw [hsolve])
    have hcand : candidate (dl cost maxAbs lin) t = (q + u.dx, q) := by
      unfold candidate
      rw [hsolve, ← hx]; rfl
    have hcst : (dl cost maxAbs lin).cost (candidate (dl cost maxAbs lin) t) = .fin (cost (q + u.dx)) := by rw [hcand]; rfl
    rw [hcst, i0, hx] at hit
    have hsub : Dbl.lt (Dbl.sub (.fin (cost q)) (.fin (cost (q + u.dx)))) (.fin 0) = decide (cost q - cost (q + u.dx) < 0) := rfl
    rw [hsub] at hit
    have hpow : t.p.dl.delta / 2 ≤ D / 2 ^ (n + 1) := by
      rw [pow_succ, ← div_div]
      linarith
    rcases lt_or_ge (cost q) (cost (q + u.dx)) with hc | hc
    · rw [if_pos (by rw [decide_eq_true_eq]; linarith)] at hit
      refine ⟨_, hit, .inr ⟨⟨?_, dl_pass cost maxAbs lin hn hcost t _ ⟨i0, hinv'⟩ hit, htl, rfl, ?_, ?_⟩,
        u.dx, hc, dlDelta t.p.dl false (p - e), hd0, by linarith, ?_⟩⟩
      · show (candidate (dl cost maxAbs lin) t).2 = q
        rw [hcand]
      · show ((dl cost maxAbs lin).solve t.p t.x t.dx t.error t.prevFailed).1.base.pJ = _
        rw [hsolve]
        unfold Base.call Base.done
        simp only [htp, if_true]
        exact htr
      · show ((dl cost maxAbs lin).solve t.p t.x t.dx t.error t.prevFailed).1.dl.delta ≤ _
        rw [hsolve]
        simp only
        rw [hu1]; linarith
      · rw [← b1.sd]; exact hu2
    · rw [if_neg (by rw [decide_eq_true_eq]; linarith)] at hit
      have hxx : (afterAccept (dl cost maxAbs lin) t).x.1 = q + u.dx := by
        show (candidate (dl cost maxAbs lin) t).1 = _
        rw [hcand]
      refine ⟨_, hit, .inl ⟨rfl, ?_, ?_⟩⟩
      · rw [hxx]; simpa using hux
      · rw [hxx]; exact hc
  have hsdpos : ∀ t : St ℝ (V × V) V (DLP V), t.x.1 = q → DLInv cost lin t → t.lsf = false → t.prevFailed = true →
      t.p.dl.sd = (‖(lin q).rhs‖ ^ 2 / (lin q).rJJr) • (lin q).rhs ∧ 0 < ‖(lin q).rhs‖ ^ 2 / (lin q).rJJr := by
    intro t hx hinv htl htp
    obtain ⟨_, hinv'⟩ := hinv
    obtain ⟨e, J, p, _, _, _, _, hA, hB⟩ := hinv' htl
    have hf : t.p.base.first = false := by
      cases hf : t.p.base.first with
      | true => rw [(hA hf).1] at htp; cases htp
      | false => rfl
    obtain ⟨_, _, _, _, _, _, b6⟩ := hB hf
    obtain ⟨_, _, c3, c4, c5⟩ := b6 htp
    rw [hx] at c3 c4 c5
    rw [c4] at c5
    refine ⟨c5, ?_⟩
    have h1 : 0 < (lin q).rJJr := lt_of_le_of_ne (hn q).nonneg (Ne.symm c3)
    have h2 : 0 < ‖(lin q).rhs‖ := norm_pos_iff.2 hr
    positivity
  obtain ⟨hsd0, hal⟩ := hsdpos s rfl hI hl hp
  set r := (lin q).rhs with hrdef
  set a := ‖r‖ ^ 2 / (lin q).rJJr with ha
  have hrn : 0 < ‖r‖ := norm_pos_iff.2 hr
  obtain ⟨ε, hε, hdes⟩ := descent hgrad (k := ‖r‖) hrn
  have hm : 0 < min ε (a * ‖r‖) := lt_min hε (by positivity)
  obtain ⟨N, hN⟩ := pow_unbounded_of_one_lt (D / min ε (a * ‖r‖)) (one_lt_two (α := ℝ))
  have hDN : D / 2 ^ N < min ε (a * ‖r‖) := by
    rw [div_lt_iff₀ hm] at hN
    rw [div_lt_iff₀ (by positivity)]
    linarith
  refine passes_until (dl cost maxAbs lin) (fun s' => s'.prevFailed = false ∧ s'.x.1 ≠ q ∧ cost s'.x.1 ≤ cost q)
    (fun n t => t.x.1 = q ∧ DLInv cost lin t ∧ t.lsf = false ∧ t.prevFailed = true ∧ t.p.base.pJ = .fin ref ∧
      t.p.dl.delta ≤ D / 2 ^ n) ?_ N ?_ 0 s (Nat.zero_le _) ⟨rfl, hI, hl, hp, href, by simp [hD]⟩
  · intro n t ht
    obtain ⟨t', h1, h2⟩ := hstep n t ht
    exact ⟨t', h1, h2.imp id And.left⟩
  · intro t ht
    obtain ⟨t', h1, h2 | ⟨_, d, hd, δ, hδ, hδN, hdd⟩⟩ := hstep N t ht
    · exact ⟨t', h1, h2⟩
    · exfalso
      obtain ⟨hsd, _⟩ := hsdpos t ht.1 ht.2.1 ht.2.2.1 ht.2.2.2.1
      have hsn : ‖t.p.dl.sd‖ = a * ‖r‖ := by rw [hsd, norm_smul, Real.norm_eq_abs, abs_of_pos hal]
      have hDpos : 0 < D / 2 ^ (N + 1) := lt_of_lt_of_le hδ hδN
      have hD2 : D / 2 ^ (N + 1) ≤ D / 2 ^ N := by
        have hDp : 0 < D := by
          by_contra h
          exact absurd hDpos (not_lt.2 (div_nonpos_of_nonpos_of_nonneg (not_lt.1 h) (by positivity)))
        apply div_le_div_of_nonneg_left hDp.le (by positivity)
        exact pow_le_pow_right₀ one_le_two (Nat.le_succ N)
      have hsmall : δ < min ε (a * ‖r‖) := by linarith
      have hde := hdd (by rw [hsn]; exact (lt_of_lt_of_le hsmall (min_le_right _ _)).le)
      rw [hsn, hsd, smul_smul] at hde
      have hc : δ / (a * ‖r‖) * a = δ / ‖r‖ := by field_simp
      rw [hc] at hde
      have hdn : ‖d‖ = δ := by
        rw [hde, norm_smul, Real.norm_eq_abs, abs_of_pos (by positivity)]
        field_simp
      refine absurd hd (not_lt.2 (hdes d ?_ ?_ ?_).le)
      · apply norm_pos_iff.1; rw [hdn]; exact hδ
      · rw [hdn]; exact lt_of_lt_of_le hsmall (min_le_left _ _)
      · rw [hdn, hde, inner_smul_right, real_inner_self_eq_norm_sq]
        apply le_of_eq
        field_simp

/-! ### One residual of one variable -/

/-- The linear system of a residual `e` with derivative `e'`: Hessian `e' e'`, right-hand side `-e' e`; no solution where the
derivative vanishes. -/
noncomputable def lin1 (e e' : ℝ → ℝ) (q : ℝ) : Lin ℝ :=
  ⟨-(e' q * e q), (e' q) ^ 2 * (e' q * e q) ^ 2, if e' q = 0 then none else some (-(e q / e' q))⟩

theorem lin1_normal (e e' : ℝ → ℝ) (q : ℝ) : Normal (lin1 e e' q) := by
  by_cases h : e' q = 0
  · exact ⟨LinearMap.id, fun _ _ => rfl, fun d hd => real_inner_self_pos.2 hd, by simp [lin1, h], by simp [lin1, h]⟩
  · refine ⟨(e' q) ^ 2 • LinearMap.id, fun a b => ?_, fun d hd => ?_, ?_, ?_⟩
    · simp [mul_comm, mul_left_comm]
    · have : 0 < (e' q) ^ 2 := by positivity
      have hd' := real_inner_self_pos.2 hd
      simp only [LinearMap.smul_apply, LinearMap.id_apply, inner_smul_left]
      simp only [conj_trivial]
      positivity
    · simp [lin1]
      ring
    · intro g hg
      simp only [lin1, if_neg h, Option.some.injEq] at hg
      rw [← hg]
      simp [lin1]
      field_simp

theorem lin1_rhs (e e' : ℝ → ℝ) (q : ℝ) (h : HasDerivAt e (e' q) q) : HasRhs (fun q => e q ^ 2) q (lin1 e e' q).rhs := by
  unfold HasRhs
  have h2 : HasDerivAt (fun q => e q ^ 2) (2 * e q * e' q) q := by
    have := HasDerivAt.pow h 2
    have he : 2 * e q * e' q = ((2 : ℕ) : ℝ) * e q ^ (2 - 1) * e' q := by norm_num
    rw [he]; exact this
  refine h2.hasFDerivAt.congr_fderiv ?_
  ext
  simp [lin1]
  ring

/-- The residual of the counterexample and its derivative. -/
noncomputable def trap (x : ℝ) : ℝ := 5 + x + x ^ 2 * (19 / 300) + x ^ 3 * (-49 / 1500) + x ^ 4 * (4 / 1875)
noncomputable def trap' (x : ℝ) : ℝ := 1 + 2 * x * (19 / 300) + 3 * x ^ 2 * (-49 / 1500) + 4 * x ^ 3 * (4 / 1875)

theorem trap_deriv (x : ℝ) : HasDerivAt trap (trap' x) x := by
  have h := HasDerivAt.add (HasDerivAt.add (HasDerivAt.add (HasDerivAt.const_add (5 : ℝ) (hasDerivAt_id' x))
    (HasDerivAt.mul_const (hasDerivAt_pow 2 x) (19 / 300 : ℝ))) (HasDerivAt.mul_const (hasDerivAt_pow 3 x) (-49 / 1500 : ℝ)))
    (HasDerivAt.mul_const (hasDerivAt_pow 4 x) (4 / 1875 : ℝ))
  have e : trap' x = 1 + ((2 : ℕ) : ℝ) * x ^ (2 - 1) * (19 / 300) + ((3 : ℕ) : ℝ) * x ^ (3 - 1) * (-49 / 1500) +
      ((4 : ℕ) : ℝ) * x ^ (4 - 1) * (4 / 1875) := by
    unfold trap'; norm_num
  rw [e]
  exact h

theorem trap_vals : trap 10 = 10 ∧ trap' 10 = 1 ∧ trap 0 = 5 ∧ trap' 0 = 1 ∧ trap (-5) = 7 := by
  refine ⟨?_, ?_, ?_, ?_, ?_⟩ <;> norm_num [trap, trap']

theorem trap_lin : lin1 trap trap' 10 = ⟨-10, 100, some (-10)⟩ ∧ lin1 trap trap' 0 = ⟨-5, 25, some (-5)⟩ := by
  obtain ⟨h1, h2, h3, h4, _⟩ := trap_vals
  constructor <;> norm_num [lin1, h1, h2, h3, h4]

/-- The set-up of the counterexample. -/
noncomputable def trapSetup : Setup ℝ (ℝ × ℝ) ℝ (DLP ℝ) := dl (fun q => trap q ^ 2) (fun d => |d|) (lin1 trap trap')

noncomputable def trapStart : Obj ℝ (ℝ × ℝ) ℝ (DLP ℝ) :=
  fresh (10, 10) ⟨Base.start (.fin 0), ⟨0, 0, 0, 0, 0, 0, 0, 0, .none⟩⟩ 0

/-- The states in which the counterexample is caught. -/
def Stuck (n : Nat) (s : St ℝ (ℝ × ℝ) ℝ (DLP ℝ)) : Prop :=
  s.x.1 = 0 ∧ s.prevFailed = true ∧ s.lsf = false ∧ s.p.base.first = false ∧ s.p.base.pJ = .fin 100 ∧
  (∃ J, s.p.base.J = .fin J) ∧ s.error = .fin 49 ∧ s.pJ = .fin 25 ∧ s.dx = -5 ∧
  s.p.dl.dx = -5 ∧ s.p.dl.gn = -5 ∧ s.p.dl.gnNorm = 5 ∧ s.p.dl.sdNorm = 5 ∧ 0 < s.p.dl.L0 ∧ s.p.dl.L0 < 68 ∧ 5 < s.p.dl.delta ∧
  s.deltaX = .fin 5 ∧ s.deltaJ = .fin (-24) ∧ s.iterations = n + 2 ∧ s.failed = n + 1

theorem stuck_step (n : Nat) (s : St ℝ (ℝ × ℝ) ℝ (DLP ℝ)) (h : Stuck n s) : ∃ s', iter trapSetup s = .ok s' ∧ Stuck (n + 1) s' := by
  obtain ⟨h1, h2, h3, h4, h5, ⟨J, h6⟩, h7, h8, h9, h10, h11, h12, h13, h14, h15, h16, h17, h18, h19, h20⟩ := h
  have hsolve := dl_solve (fun q => trap q ^ 2) (fun d => |d|) (lin1 trap trap') s 49 J 100 h7 h6 h5
  obtain ⟨t, ht, u1, u2, u3, u4, u5, u6⟩ : ∃ t, dlCall s.p.dl s.p.base.first s.prevFailed ((if s.prevFailed then 100 else J) - 49) 49
      (lin1 trap trap' s.x.1) = some (t, true) ∧ t.dx = -5 ∧ t.gn = -5 ∧ t.gnNorm = 5 ∧ t.sdNorm = 5 ∧ t.L0 = 49 ∧ 5 < t.delta := by
    rw [h4, h2]
    simp only [if_true]
    have hdel : dlDelta s.p.dl false (100 - 49) = if s.p.dl.delta ≤ 15 then 15 else s.p.dl.delta := by
      unfold dlDelta
      have hdiv : Dbl.div ((100 : ℝ) - 49) s.p.dl.L0 = .fin (51 / s.p.dl.L0) := by
        unfold Dbl.div
        rw [if_neg h14.ne']
        norm_num
      have hgt : Dbl.lt (.fin (3 / 4)) (Dbl.fin (51 / s.p.dl.L0)) = true := by
        apply (Dbl.lt_fin _ _).2
        rw [lt_div_iff₀ h14]
        linarith
      have hn : (3 : ℝ) * ‖(-5 : ℝ)‖ = 15 := by norm_num
      simp only [Bool.false_eq_true, if_false, hdiv, hgt, if_true, h10, hn]
    have hd5 : 5 < dlDelta s.p.dl false (100 - 49) := by
      rw [hdel]; split
      · norm_num
      · exact h16
    unfold dlCall
    simp only [if_true]
    rw [if_neg (by rw [h13]; intro hc; exact absurd hd5 (not_lt.2 hc.1))]
    refine ⟨_, rfl, ?_⟩
    unfold dlGn
    simp only [if_neg (show dlDelta s.p.dl false (100 - 49) ≠ 0 by linarith)]
    rw [if_pos (by rw [h12]; exact hd5.le)]
    exact ⟨h11, h11, h12, h13, rfl, hd5⟩
  rw [ht] at hsolve
  simp only at hsolve
  have hsolve' : trapSetup.solve s.p s.x s.dx s.error s.prevFailed = _ := hsolve
  have hit := iter_of_solve trapSetup rfl (fun _ => rfl) s (by rw [hsolve'])
  have hcand : candidate trapSetup s = (-5, 0) := by
    unfold candidate
    rw [hsolve']
    show (s.x.1 + t.dx, s.x.1) = _
    rw [h1, u1]; norm_num
  have hcst : trapSetup.cost (candidate trapSetup s) = .fin 49 := by
    rw [hcand]
    show Dbl.fin (trap (-5) ^ 2) = _
    rw [trap_vals.2.2.2.2]; norm_num
  have hsub : Dbl.sub s.pJ (trapSetup.cost (candidate trapSetup s)) = .fin (-24) := by
    rw [h8, hcst]; show Dbl.fin (25 - 49 : ℝ) = _; norm_num
  rw [hsub, if_pos ((Dbl.lt_fin _ _).2 (by norm_num))] at hit
  refine ⟨_, hit, ?_, rfl, h3, ?_, ?_, ?_, hcst, h8, ?_, ?_, ?_, ?_, ?_, ?_, ?_, ?_, ?_, hsub, ?_, ?_⟩
  · show (candidate trapSetup s).2 = 0
    rw [hcand]
  all_goals unfold afterReject
  · simp only [hsolve']; rfl
  · simp only [hsolve']; unfold Base.call Base.done; simp only [h2, if_true]; exact h5
  · simp only [hsolve']; exact ⟨49, h7⟩
  · simp only [hsolve']; exact u1
  · simp only [hsolve']; exact u1
  · simp only [hsolve']; exact u2
  · simp only [hsolve']; exact u3
  · simp only [hsolve']; exact u4
  · simp only [hsolve', u5]; norm_num
  · simp only [hsolve', u5]; norm_num
  · simp only [hsolve']; exact u6
  · simp only [hsolve']; show Dbl.fin |t.dx| = _; rw [u1]; norm_num
  · simp only [h19]; push_cast; ring
  · simp only [h20]; push_cast; ring

theorem stuck_enter (o : Options ℝ) (hx : o.convergenceDeltaX < 5) (he0 : 0 ≤ o.convergenceDeltaError) (he : o.convergenceDeltaError < 24)
    (hN : 2 ≤ o.maxIterations) :
    ∃ s, Reach trapSetup o trapStart s ∧ Stuck 0 s := by
  -- the first pass
  have c1 : trapSetup.cost (10, 10) = .fin 100 := by
    show Dbl.fin (trap 10 ^ 2) = _
    rw [trap_vals.1]; norm_num
  set s0 := enter trapSetup o trapStart with hs0
  have e0 : s0.error = .fin 100 := c1
  have b0 : s0.p.base = ⟨.fin 100, .fin 100, true⟩ := by
    show Base.start (trapSetup.cost (10, 10)) = _
    rw [c1]; rfl
  have hsolve0 := dl_solve (fun q => trap q ^ 2) (fun d => |d|) (lin1 trap trap') s0 100 100 100 e0 (by rw [b0]) (by rw [b0])
  have d0 : dlCall s0.p.dl s0.p.base.first s0.prevFailed ((if s0.prevFailed then (100 : ℝ) else 100) - 100) 100 (lin1 trap trap' s0.x.1) =
      some (⟨-10, -10, -10, 10, 10, 100, 1, 10, .gn⟩, true) := by
    have hx0 : s0.x.1 = 10 := rfl
    rw [hx0, trap_lin.1]
    apply dlCall_gn (d := 0)
    · norm_num
    · norm_num
    · norm_num
    · norm_num
    · rw [b0]; unfold dlDelta; rfl
    · norm_num
    · rfl
    · norm_num
    · norm_num
    · norm_num
  rw [d0] at hsolve0
  simp only at hsolve0
  have hsolve0' : trapSetup.solve s0.p s0.x s0.dx s0.error s0.prevFailed = _ := hsolve0
  have hit0 := iter_of_solve trapSetup rfl (fun _ => rfl) s0 (by rw [hsolve0'])
  have hcand0 : candidate trapSetup s0 = (0, 10) := by
    unfold candidate
    rw [hsolve0']
    show ((10 : ℝ) + -10, (10 : ℝ)) = _
    norm_num
  have hcst0 : trapSetup.cost (candidate trapSetup s0) = .fin 25 := by
    rw [hcand0]
    show Dbl.fin (trap 0 ^ 2) = _
    rw [trap_vals.2.2.1]; norm_num
  have hsub0 : Dbl.sub s0.pJ (trapSetup.cost (candidate trapSetup s0)) = .fin 75 := by
    rw [hcst0, show s0.pJ = .fin 100 from c1]; show Dbl.fin (100 - 25 : ℝ) = _; norm_num
  rw [hsub0, if_neg (by intro h; have := (Dbl.lt_fin _ _).1 h; norm_num at this)] at hit0
  set s1 := afterAccept trapSetup s0 with hs1
  have r0 : running o s0 = true := by
    unfold running
    have : s0.deltaX = .fin (o.convergenceDeltaX + 1) ∧ s0.deltaJ = .fin (o.convergenceDeltaError + 1) := ⟨rfl, rfl⟩
    rw [this.1, this.2]
    have habs : o.convergenceDeltaError < |o.convergenceDeltaError + 1| := by rw [abs_of_nonneg (by linarith)]; linarith
    have i0 : s0.iterations = 0 ∧ s0.failed = 0 := ⟨rfl, rfl⟩
    rw [i0.1, i0.2]
    have : (0 : Int) < o.maxIterations := by omega
    simp [this, Dbl.lt, Dbl.abs, habs]
  -- the second pass
  have x1 : s1.x = (0, 10) := hcand0
  have e1 : s1.error = .fin 25 := hcst0
  have p1 : s1.pJ = .fin 25 := hcst0
  have q1 : s1.p = ⟨⟨.fin 100, .fin 100, false⟩, ⟨-10, -10, -10, 10, 10, 100, 1, 10, .gn⟩⟩ := by
    show (trapSetup.solve s0.p s0.x s0.dx s0.error s0.prevFailed).1 = _
    rw [hsolve0']
    simp only [Base.call, Base.done, b0, e0]
    rfl
  have f1 : s1.prevFailed = false := rfl
  have hsolve1 := dl_solve (fun q => trap q ^ 2) (fun d => |d|) (lin1 trap trap') s1 25 100 100 e1 (by rw [q1]) (by rw [q1])
  have d1 : dlCall s1.p.dl s1.p.base.first s1.prevFailed ((if s1.prevFailed then (100 : ℝ) else 100) - 25) 25 (lin1 trap trap' s1.x.1) =
      some (⟨-5, -5, -5, 5, 5, 25, 1, 10, .gn⟩, true) := by
    rw [x1, trap_lin.2, q1, f1]
    apply dlCall_gn (d := 10)
    · norm_num
    · norm_num
    · norm_num
    · norm_num
    · unfold dlDelta
      norm_num [Dbl.div, Dbl.lt, Dbl.le]
    · norm_num
    · rfl
    · norm_num
    · norm_num
    · norm_num
  rw [d1] at hsolve1
  simp only at hsolve1
  have hsolve1' : trapSetup.solve s1.p s1.x s1.dx s1.error s1.prevFailed = _ := hsolve1
  have hit1 := iter_of_solve trapSetup rfl (fun _ => rfl) s1 (by rw [hsolve1'])
  have hcand1 : candidate trapSetup s1 = (-5, 0) := by
    unfold candidate
    rw [hsolve1', x1]
    show ((0 : ℝ) + -5, (0 : ℝ)) = _
    norm_num
  have hcst1 : trapSetup.cost (candidate trapSetup s1) = .fin 49 := by
    rw [hcand1]
    show Dbl.fin (trap (-5) ^ 2) = _
    rw [trap_vals.2.2.2.2]; norm_num
  have hsub1 : Dbl.sub s1.pJ (trapSetup.cost (candidate trapSetup s1)) = .fin (-24) := by
    rw [hcst1, p1]; show Dbl.fin (25 - 49 : ℝ) = _; norm_num
  rw [hsub1, if_pos ((Dbl.lt_fin _ _).2 (by norm_num))] at hit1
  have r1 : running o s1 = true := by
    unfold running
    have h1 : s1.deltaX = .fin 10 := by
      show trapSetup.maxAbs (trapSetup.solve s0.p s0.x s0.dx s0.error s0.prevFailed).2.2 = _
      rw [hsolve0']
      show Dbl.fin |(-10 : ℝ)| = _
      norm_num
    have h2 : s1.deltaJ = .fin 75 := hsub0
    rw [h1, h2]
    have i0 : s1.iterations = 1 ∧ s1.failed = 0 := ⟨rfl, rfl⟩
    rw [i0.1, i0.2]
    have h3 : (0 : Int) < o.maxIterations := by omega
    have h4 : (1 : Int) < o.maxIterations := by omega
    have h5 : o.convergenceDeltaX < 10 := by linarith
    have h6 : o.convergenceDeltaError < 75 := by linarith
    simp [h3, h4, h5, h6, Dbl.lt, Dbl.abs]
  refine ⟨_, .pass (.pass .enter r0 hit0) r1 hit1, ?_, rfl, rfl, ?_, ?_, ?_, hcst1, p1, ?_, ?_, ?_, ?_, ?_, ?_, ?_, ?_, ?_, hsub1, rfl, rfl⟩
  · show (candidate trapSetup s1).2 = 0
    rw [hcand1]
  all_goals unfold afterReject
  all_goals simp only [hsolve1']
  all_goals try simp only [q1, e1, f1, Base.call, Base.done]
  · rfl
  · exact ⟨_, rfl⟩
  · norm_num
  · norm_num
  · norm_num
  · show Dbl.fin |(-5 : ℝ)| = _
    norm_num

/-- A smooth residual for which the dog-leg policy is caught for good: after an accepted step to 0, where the gradient is not
zero, the next Gauss-Newton step (-5) is rejected. The policy compares the rejected cost (49) with the cost before the last
accepted step (100), takes the failure for a success and enlarges the trust region. So it returns the same step in every
further iteration until the budget is used up, whatever the budget. -/
theorem C95_dogleg_counterexample :
    ∃ e e' : ℝ → ℝ, (∀ q, HasDerivAt e (e' q) q) ∧ (∀ q, Normal (lin1 e e' q)) ∧
      ∃ b : Obj ℝ (ℝ × ℝ) ℝ (DLP ℝ), ∀ N n : Nat, n + 2 ≤ N →
        ∃ s, Reach (dl (fun q => e q ^ 2) (fun d => |d|) (lin1 e e')) ⟨0, 0, N⟩ b s ∧ s.iterations = n + 2 ∧ s.failed = n + 1 ∧
          s.lsf = false ∧ s.prevFailed = true ∧ s.x.1 = 0 ∧ (lin1 e e' s.x.1).rhs ≠ 0 ∧ s.dx = -5 ∧ s.p.base.pJ = .fin 100 ∧
          e 0 ^ 2 = 25 := by
  refine ⟨trap, trap', trap_deriv, lin1_normal _ _, trapStart, fun N n hn => ?_⟩
  obtain ⟨s, h1, h2⟩ : ∃ s, Reach trapSetup ⟨0, 0, N⟩ trapStart s ∧ Stuck n s := by
    induction n with
    | zero => exact stuck_enter _ (by norm_num) (by norm_num) (by norm_num) (by simp; omega)
    | succ n ih =>
      obtain ⟨s, h1, h2⟩ := ih (by omega)
      obtain ⟨s', h3, h4⟩ := stuck_step n s h2
      refine ⟨s', .pass h1 ?_ h3, h4⟩
      obtain ⟨_, _, _, _, _, _, _, _, _, _, _, _, _, _, _, _, k1, k2, k3, k4⟩ := h2
      unfold running
      rw [k1, k2, k3, k4]
      simp [Dbl.lt, Dbl.abs]
      omega
  refine ⟨s, h1, ?_⟩
  obtain ⟨k1, k2, k3, k4, k5, _, _, _, k9, _, _, _, _, _, _, _, _, _, k19, k20⟩ := h2
  refine ⟨k19, k20, k3, k2, k1, ?_, k9, k5, ?_⟩
  · rw [k1, trap_lin.2]; norm_num
  · rw [trap_vals.2.2.1]; norm_num

/-- The hypotheses of the partial theorem are met: residual `x^3 + x + 2`, started at 0; the first step goes to -2, where the cost
is 64 instead of 4. -/
example : ∃ s, Reach (dl (fun q : ℝ => (q ^ 3 + q + 2) ^ 2) (fun d => |d|) (lin1 (fun q => q ^ 3 + q + 2) fun q => 3 * q ^ 2 + 1))
      ⟨0, 0, 9⟩ (fresh (0, 0) ⟨Base.start (.fin 0), ⟨0, 0, 0, 0, 0, 0, 0, 0, .none⟩⟩ 0) s ∧
    s.lsf = false ∧ s.prevFailed = true ∧ s.x.1 = 0 ∧ (lin1 (fun q : ℝ => q ^ 3 + q + 2) (fun q => 3 * q ^ 2 + 1) s.x.1).rhs ≠ 0 ∧
    s.p.base.pJ = .fin 4 ∧ (4 : ℝ) ≤ (s.x.1 ^ 3 + s.x.1 + 2) ^ 2 := by
  set e : ℝ → ℝ := fun q => q ^ 3 + q + 2 with he
  set S := dl (fun q : ℝ => (q ^ 3 + q + 2) ^ 2) (fun d => |d|) (lin1 e fun q => 3 * q ^ 2 + 1) with hS
  set b : Obj ℝ (ℝ × ℝ) ℝ (DLP ℝ) := fresh (0, 0) ⟨Base.start (.fin 0), ⟨0, 0, 0, 0, 0, 0, 0, 0, .none⟩⟩ 0 with hb
  have hlin : lin1 e (fun q => 3 * q ^ 2 + 1) 0 = ⟨-2, 4, some (-2)⟩ := by norm_num [lin1, he]
  set s0 := enter S ⟨0, 0, 9⟩ b with hs0
  have c1 : S.cost (0, 0) = .fin 4 := by
    show Dbl.fin (((0 : ℝ) ^ 3 + 0 + 2) ^ 2) = _
    norm_num
  have e0 : s0.error = .fin 4 := c1
  have b0 : s0.p.base = ⟨.fin 4, .fin 4, true⟩ := by
    show Base.start (S.cost (0, 0)) = _
    rw [c1]; rfl
  have hsolve0 := dl_solve (fun q : ℝ => (q ^ 3 + q + 2) ^ 2) (fun d => |d|) (lin1 e fun q => 3 * q ^ 2 + 1) s0 4 4 4 e0
    (by rw [b0]) (by rw [b0])
  have d0 : dlCall s0.p.dl s0.p.base.first s0.prevFailed ((if s0.prevFailed then (4 : ℝ) else 4) - 4) 4
      (lin1 e (fun q => 3 * q ^ 2 + 1) s0.x.1) = some (⟨-2, -2, -2, 2, 2, 4, 1, 2, .gn⟩, true) := by
    have hx0 : s0.x.1 = 0 := rfl
    rw [hx0, hlin]
    apply dlCall_gn (d := 0)
    · norm_num
    · norm_num
    · norm_num
    · norm_num
    · rw [b0]; unfold dlDelta; rfl
    · norm_num
    · rfl
    · norm_num
    · norm_num
    · norm_num
  rw [d0] at hsolve0
  simp only at hsolve0
  have hsolve0' : S.solve s0.p s0.x s0.dx s0.error s0.prevFailed = _ := hsolve0
  have hcand0 : candidate S s0 = (-2, 0) := by
    unfold candidate
    rw [hsolve0']
    show ((0 : ℝ) + -2, (0 : ℝ)) = _
    norm_num
  refine ⟨_, reach_rejected S rfl (fun _ => rfl) _ _ ?_ ?_ ?_, rfl, rfl, ?_, ?_, ?_, ?_⟩
  · simp [running, enter, fresh, Dbl.lt, Dbl.abs, hb]
  · rw [hsolve0']
  · rw [hcand0, show s0.pJ = .fin 4 from c1]
    show decide ((4 : ℝ) - ((-2) ^ 3 + -2 + 2) ^ 2 < 0) = true
    rw [decide_eq_true_eq]; norm_num
  · show (candidate S s0).2 = 0
    rw [hcand0]
  · have : (afterReject S s0).x.1 = 0 := by show (candidate S s0).2 = 0; rw [hcand0]
    rw [this, hlin]; norm_num
  · show (S.solve s0.p s0.x s0.dx s0.error s0.prevFailed).1.base.pJ = _
    rw [hsolve0']
    unfold Base.call Base.done
    simp [b0]
  · have : (afterReject S s0).x.1 = 0 := by show (candidate S s0).2 = 0; rw [hcand0]
    rw [this]; norm_num

end Verif.Policy
