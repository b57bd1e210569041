import Verif.LegacyInit.Props
import Verif.Trust.Props
import Mathlib.Analysis.InnerProductSpace.PiL2

/-!
The choice of the step in `Optimizer::optimizeDogLeg`, `aslam_backend/src/Optimizer.cpp` (LO below), with the sizes of the vectors. Claim C116.
-/
namespace Verif.LegacyInit
open Verif.Trust (Step dlBeta DL dlGn dlGn_spec DInv StepOk)

/-- `Eigen::VectorXd`: a vector with its size. External; the vectors of LO:275-345. -/
abbrev Vec := Σ n : Nat, EuclideanSpace ℝ (Fin n)

/-- `norm()`. External; LO:275-345. -/
noncomputable def Vec.norm (a : Vec) : ℝ := ‖a.2‖

/-- `a - b`: undefined behaviour if the sizes differ (an assertion of Eigen in debug builds). LO:275-345. -/
noncomputable def Vec.sub (a b : Vec) : Res Vec := if h : b.1 = a.1 then .ok ⟨a.1, a.2 - h ▸ b.2⟩ else .ub

/-- `a + s * b`, likewise. LO:275-345. -/
noncomputable def Vec.addSmul (a : Vec) (s : ℝ) (b : Vec) : Res Vec := if h : b.1 = a.1 then .ok ⟨a.1, a.2 + s • (h ▸ b.2)⟩ else .ub

/-- `beta` from the vectors `_dx_sd` and `dgnsd`, LO:357-370. -/
noncomputable def beta {n : Nat} (sd d : EuclideanSpace ℝ (Fin n)) (delta : ℝ) : ℝ :=
  let c := inner ℝ sd d
  let q := ‖d‖ ^ 2
  if c ≤ 0 then (-c + Real.sqrt (c * c + q * (delta * delta - ‖sd‖ * ‖sd‖))) / q
  else (delta * delta - ‖sd‖ * ‖sd‖) / (c + Real.sqrt (c * c + q * (delta * delta - ‖sd‖ * ‖sd‖)))

/-- Choice of the step, LO:277-376: radius, step and kind of step. `sd` is `_dx_sd`, `gn` is `_dx_gn`. Left out: the linear solve (its result is `gn`) and `L0`. -/
noncomputable def choose (delta : ℝ) (sd gn : Vec) : Res (ℝ × Vec × Step) :=
  if sd.norm ≥ delta ∧ delta ≠ 0 then .ok (delta, ⟨sd.1, (delta / sd.norm) • sd.2⟩, .sd)
  else
    Res.bind (if delta = 0 then Res.bind (gn.sub sd) fun d => Res.bind (sd.addSmul (1 / 2) d) fun v => .ok v.norm else .ok delta) fun delta =>
    if gn.norm ≤ delta then .ok (delta, gn, .gn)
    else Res.bind (gn.sub sd) fun d => if h : d.1 = sd.1 then Res.bind (sd.addSmul (beta sd.2 (h ▸ d.2) delta) d) fun v => .ok (delta, v, .dl) else .ub

/-- New radius, LO:408-430, from the gain ratio. -/
noncomputable def resize (delta : ℝ) (dx gn : Vec) (st : Step) (rho : Dbl ℝ) : ℝ :=
  if Dbl.lt (.fin (3 / 4)) rho then (if delta < 3 * dx.norm then 3 * dx.norm else delta)
  else if Dbl.lt (.fin 0) rho && Dbl.lt rho (.fin (1 / 4)) then delta / 2
  else if Dbl.le rho (.fin 0) then (if st = .gn then gn.norm / 2 else delta / 2)
  else delta

/-- One pass of the inner loop: the steepest-descent and the Gauss-Newton step it works with and the gain ratio it finds. -/
structure Pass where
  sd : Vec
  gn : Vec
  rho : Dbl ℝ

/-- The passes of `optimizeDogLeg`, LO:250-447, as far as steps and radius are concerned: the steps taken, each with the radius and the pass. The radius starts at zero (LO:230). -/
noncomputable def passes : ℝ → List Pass → Res (List (Pass × ℝ × Vec × Step))
  | _, [] => .ok []
  | delta, p :: ps => Res.bind (choose delta p.sd p.gn) fun r =>
    Res.bind (passes (resize r.1 r.2.1 p.gn r.2.2 p.rho) ps) fun rest => .ok ((p, r) :: rest)

/-- `_dx_gn` after the linear solve, LO:306-329: the solution has the size of the reduced system; if both solvers fail it is the steepest-descent step. -/
noncomputable def gnOf (l : Layout) (sd : Vec) (sol : Option (EuclideanSpace ℝ (Fin l.dxSize))) : Vec := match sol with
  | some g => ⟨l.dxSize, g⟩
  | none => sd

/-- `_dx_sd = _sd_scale * _rhs`, LO:258-263: it has the size of the whole system. The factor is the subject of C75. -/
noncomputable def sdOf (l : Layout) (scale : ℝ) (rhs : EuclideanSpace ℝ (Fin l.rhsSize)) : Vec := ⟨l.rhsSize, scale • rhs⟩

theorem beta_eq {n : Nat} (sd gn : EuclideanSpace ℝ (Fin n)) (delta : ℝ) : beta sd (gn - sd) delta = dlBeta sd gn ‖sd‖ delta := rfl

/-- With vectors of one size the choice is the one of `Verif.Trust`. -/
theorem choose_same {n : Nat} (sd gn : EuclideanSpace ℝ (Fin n)) (delta : ℝ) (hd : 0 ≤ delta) :
    ∃ d' dx st, choose delta ⟨n, sd⟩ ⟨n, gn⟩ = .ok (d', ⟨n, dx⟩, st) ∧ 0 ≤ d' ∧ ‖dx‖ ≤ d' ∧
      ((st = .gn ∧ dx = gn) ∨ (‖dx‖ = d' ∧ st = .sd ∧ ∃ t : ℝ, 0 ≤ t ∧ t ≤ 1 ∧ dx = t • sd) ∨
       (‖dx‖ = d' ∧ st = .dl ∧ ∃ b : ℝ, dx = sd + b • (gn - sd) ∧ (‖sd‖ ≤ d' → 0 ≤ b ∧ b ≤ 1))) := by
  unfold choose
  simp only [Vec.norm]
  by_cases h1 : ‖sd‖ ≥ delta ∧ delta ≠ 0
  · rw [if_pos h1]
    have hpos : 0 < delta := lt_of_le_of_ne hd (Ne.symm h1.2)
    have hsd : 0 < ‖sd‖ := lt_of_lt_of_le hpos h1.1
    have hn : ‖(delta / ‖sd‖) • sd‖ = delta := by
      rw [norm_smul, Real.norm_of_nonneg (by positivity)]
      field_simp
    refine ⟨delta, _, _, rfl, hd, hn.le, Or.inr (Or.inl ⟨hn, rfl, delta / ‖sd‖, by positivity, ?_, rfl⟩)⟩
    rw [div_le_one hsd]; exact h1.1
  · rw [if_neg h1]
    have hin : delta = 0 ∨ ‖sd‖ < delta := by
      by_cases h0 : delta = 0
      · exact Or.inl h0
      · refine Or.inr ?_
        by_contra hc
        exact h1 ⟨not_lt.1 hc, h0⟩
    set s : DL (EuclideanSpace ℝ (Fin n)) := ⟨0, sd, gn, ‖sd‖, ‖gn‖, 0, 0, delta, .none⟩ with hs
    obtain ⟨i, so⟩ := dlGn_spec s 0 rfl rfl hd hin
    have hdel : (if delta = 0 then Res.bind (Vec.sub ⟨n, gn⟩ ⟨n, sd⟩) fun d => Res.bind (Vec.addSmul ⟨n, sd⟩ (1 / 2) d) fun v => Res.ok ‖v.2‖ else Res.ok delta) =
        Res.ok (if delta = 0 then ‖sd + (1 / 2 : ℝ) • (gn - sd)‖ else delta) := by
      split_ifs
      · simp [Vec.sub, Vec.addSmul, Res.bind]
      · rfl
    rw [hdel]
    simp only [Res.bind]
    set delta' := (if delta = 0 then ‖sd + (1 / 2 : ℝ) • (gn - sd)‖ else delta) with hdel'
    have e : dlGn s 0 = if ‖gn‖ ≤ delta' then { s with delta := delta', dx := gn, L0 := 0, step := .gn }
      else { s with delta := delta', dx := sd + dlBeta sd gn ‖sd‖ delta' • (gn - sd), L0 := dlBeta sd gn ‖sd‖ delta' * (2 - dlBeta sd gn ‖sd‖ delta') * 0, step := .dl } := rfl
    rw [e] at i so
    by_cases h2 : ‖gn‖ ≤ delta'
    · rw [if_pos h2] at i so ⊢
      exact ⟨delta', gn, _, rfl, i.delta, h2, Or.inl ⟨rfl, rfl⟩⟩
    · rw [if_neg h2] at i so ⊢
      refine ⟨delta', sd + dlBeta sd gn ‖sd‖ delta' • (gn - sd), .dl, ?_, i.delta, so.1, ?_⟩
      · simp [Vec.sub, Vec.addSmul, beta_eq]
      · have hle : ‖sd + dlBeta sd gn ‖sd‖ delta' • (gn - sd)‖ ≤ delta' := so.1
        have hd' : 0 ≤ delta' := i.delta
        have hlt := not_le.1 h2
        have hdisc : 0 ≤ (inner ℝ sd (gn - sd)) * (inner ℝ sd (gn - sd)) + ‖gn - sd‖ ^ 2 * (delta' * delta' - ‖sd‖ * ‖sd‖) := by
          by_cases hz : delta = 0
          · have e2 : delta' * delta' = ‖sd‖ ^ 2 + inner ℝ sd (gn - sd) + ‖gn - sd‖ ^ 2 / 4 := by
              rw [hdel', if_pos hz, ← pow_two, norm_add_sq_real, inner_smul_right, norm_smul, mul_pow]
              norm_num
              ring
            rw [e2]
            have : ∀ c n a : ℝ, c * c + n * (a ^ 2 + c + n / 4 - a * a) = (c + n / 2) ^ 2 := by intros; ring
            rw [this]
            positivity
          · rw [hdel', if_neg hz]
            have h3 : ‖sd‖ < delta := hin.resolve_left hz
            have := norm_nonneg sd
            have h4 : 0 ≤ delta * delta - ‖sd‖ * ‖sd‖ := by nlinarith
            have := mul_self_nonneg (inner ℝ sd (gn - sd))
            positivity
        have hne : gn ≠ sd := by
          intro h
          by_cases hz : delta = 0
          · rw [hdel', if_pos hz, h] at hlt; simp at hlt
          · have h3 : ‖sd‖ < delta := hin.resolve_left hz
            rw [hdel', if_neg hz, h] at hlt; linarith
        exact Or.inr (Or.inr ⟨Trust.dlBeta_norm sd gn delta' hd' hne hdisc, rfl, _, rfl, fun h => Trust.dlBeta_range _ _ _ h hlt⟩)

theorem resize_nonneg (delta : ℝ) (h : 0 ≤ delta) (dx gn : Vec) (st : Step) (rho : Dbl ℝ) : 0 ≤ resize delta dx gn st rho := by
  have h1 : 0 ≤ dx.norm := norm_nonneg _
  have h2 : 0 ≤ gn.norm := norm_nonneg _
  unfold resize
  repeat' split
  all_goals first | exact h | positivity

/-- **C116** (partial: the steepest-descent and Gauss-Newton steps must have the same size, which they have unless variables are marginalised, see `C116_schur_undefined`). In every run of the legacy
dog-leg method, with whatever gain ratios, each step has norm at most the radius; it is the Gauss-Newton step, or the steepest-descent step shortened to norm exactly the radius, or the point of
norm exactly the radius on the line from the one to the other, between the two if the steepest-descent step is inside. -/
theorem C116_trust_region_partial {n : Nat} (ps : List Pass) (hs : ∀ p ∈ ps, p.sd.1 = n ∧ p.gn.1 = n) (delta : ℝ) (hd : 0 ≤ delta) :
    ∃ out, passes delta ps = .ok out ∧ out.length = ps.length ∧ ∀ o ∈ out, ∃ (sd gn dx : EuclideanSpace ℝ (Fin n)) (st : Step) (d : ℝ) (rho : Dbl ℝ),
      o = (⟨⟨n, sd⟩, ⟨n, gn⟩, rho⟩, d, ⟨n, dx⟩, st) ∧ ‖dx‖ ≤ d ∧
      (dx = gn ∨ (‖dx‖ = d ∧ ∃ t : ℝ, 0 ≤ t ∧ t ≤ 1 ∧ dx = t • sd) ∨
       (‖dx‖ = d ∧ ∃ b : ℝ, dx = sd + b • (gn - sd) ∧ (‖sd‖ ≤ d → 0 ≤ b ∧ b ≤ 1))) := by
  induction ps generalizing delta with
  | nil => exact ⟨[], rfl, rfl, by simp⟩
  | cons p ps ih =>
    obtain ⟨⟨m, sd⟩, ⟨m', gn⟩, rho⟩ := p
    obtain ⟨h1, h2⟩ := hs ⟨⟨m, sd⟩, ⟨m', gn⟩, rho⟩ (by simp)
    dsimp only at h1 h2
    subst h1 h2
    obtain ⟨d', dx, st, e, hd', hn, hk⟩ := choose_same sd gn delta hd
    obtain ⟨out, eo, el, ho⟩ := ih (fun p hp => hs p (by simp [hp])) (resize d' ⟨m', dx⟩ ⟨m', gn⟩ st rho) (resize_nonneg _ hd' _ _ _ _)
    refine ⟨(⟨⟨m', sd⟩, ⟨m', gn⟩, rho⟩, d', ⟨m', dx⟩, st) :: out, ?_, by simp [el], ?_⟩
    · simp only [passes, e, Res.bind, eo]
    · intro o hm
      rw [List.mem_cons] at hm
      rcases hm with rfl | hm
      · refine ⟨sd, gn, dx, st, d', rho, rfl, hn, ?_⟩
        rcases hk with ⟨_, h⟩ | ⟨h, _, h'⟩ | ⟨h, _, h'⟩
        · exact Or.inl h
        · exact Or.inr (Or.inl ⟨h, h'⟩)
        · exact Or.inr (Or.inr ⟨h, h'⟩)
      · exact ho o hm

/-- The hypotheses are met by two passes in the plane: a rejected one and an accepted one. -/
example : ∃ ps : List Pass, ps.length = 2 ∧ (∀ p ∈ ps, p.sd.1 = 2 ∧ p.gn.1 = 2) ∧ ∀ p ∈ ps, p.sd ≠ p.gn := by
  refine ⟨[⟨⟨2, EuclideanSpace.single 0 1⟩, ⟨2, EuclideanSpace.single 0 4⟩, .fin (-1)⟩, ⟨⟨2, EuclideanSpace.single 0 1⟩, ⟨2, EuclideanSpace.single 0 4⟩, .fin 1⟩], rfl, by simp, ?_⟩
  have : (EuclideanSpace.single 0 1 : EuclideanSpace ℝ (Fin 2)) ≠ EuclideanSpace.single 0 4 := by
    intro h
    have := congrFun (congrArg (fun v : EuclideanSpace ℝ (Fin 2) => v.ofLp) h) 0
    norm_num at this
  simp [this]

/-- The inner loop, LO:274-447: passes with the same two steps until the gain ratio is not negative or the radius is at most `convergenceDeltaX`; `none` if the list of gain ratios is used up before. The
result has the radius and the number of passes. -/
noncomputable def inner (conv : ℝ) (sd gn : Vec) : ℝ → List (Dbl ℝ) → Res (Option (ℝ × Nat))
  | _, [] => .ok none
  | delta, rho :: rhos => Res.bind (choose delta sd gn) fun r =>
    let d := resize r.1 r.2.1 gn r.2.2 rho
    if Dbl.lt rho (.fin 0) && decide (conv < d) then Res.bind (inner conv sd gn d rhos) fun o => .ok (o.map fun q => (q.1, q.2 + 1))
    else .ok (some (d, 1))

/-- A rejected step at least halves the radius. -/
theorem resize_rejected {n : Nat} (sd gn : EuclideanSpace ℝ (Fin n)) (delta : ℝ) (hd : 0 ≤ delta) (rho : Dbl ℝ) (hr : Dbl.lt rho (.fin 0) = true) (d' : ℝ) (dx : Vec) (st : Step)
    (e : choose delta ⟨n, sd⟩ ⟨n, gn⟩ = .ok (d', dx, st)) : resize d' dx ⟨n, gn⟩ st rho ≤ d' / 2 := by
  obtain ⟨d2, dx2, st2, e2, _, hn, hk⟩ := choose_same sd gn delta hd
  rw [e] at e2
  cases e2
  have h1 : Dbl.lt (.fin (3 / 4)) rho = false := by
    cases rho <;> simp_all [Dbl.lt]
    linarith
  have h2 : Dbl.lt (.fin 0) rho = false := by
    cases rho <;> simp_all [Dbl.lt]
    linarith
  have h3 : Dbl.le rho (.fin 0) = true := by
    cases rho <;> simp_all [Dbl.lt, Dbl.le]
    try linarith
  unfold resize
  rw [h1, h2, h3]
  simp only [Bool.false_eq_true, if_false, Bool.false_and, if_true]
  split
  · rename_i h
    rcases hk with ⟨_, h'⟩ | ⟨_, h', _⟩ | ⟨_, h', _⟩
    · simp only [Vec.norm]
      rw [← h']
      linarith
    · rw [h] at h'; cases h'
    · rw [h] at h'; cases h'
  · exact le_refl _

/-- After the first pass the radius is the one the pass began with. -/
theorem choose_radius {n : Nat} (sd gn : EuclideanSpace ℝ (Fin n)) (delta : ℝ) (hd : 0 < delta) (d' : ℝ) (dx : Vec) (st : Step)
    (e : choose delta ⟨n, sd⟩ ⟨n, gn⟩ = .ok (d', dx, st)) : d' = delta := by
  unfold choose at e
  simp only [hd.ne', if_false, Res.bind] at e
  split_ifs at e
  · cases e; rfl
  · cases e; rfl
  · simp [Vec.sub, Vec.addSmul] at e
    exact e.1.symm

theorem inner_bound {n : Nat} (conv : ℝ) (sd gn : EuclideanSpace ℝ (Fin n)) (N : Nat) (delta : ℝ) (hd : 0 < delta) (hN : delta ≤ conv * 2 ^ N) (rhos : List (Dbl ℝ)) (hl : N + 1 ≤ rhos.length)
    (hc : 0 < conv) : ∃ r k, inner conv ⟨n, sd⟩ ⟨n, gn⟩ delta rhos = .ok (some (r, k)) ∧ k ≤ N + 1 := by
  induction N generalizing delta rhos with
  | zero =>
    obtain _ | ⟨rho, rhos⟩ := rhos
    · simp at hl
    obtain ⟨d', dx, st, e, h0, hn, _⟩ := choose_same sd gn delta hd.le
    have hr := choose_radius sd gn delta hd _ _ _ e
    simp only [inner, e, Res.bind]
    rw [if_neg]
    · exact ⟨_, 1, rfl, le_refl _⟩
    · rw [Bool.and_eq_true, decide_eq_true_eq]
      rintro ⟨h1, h2⟩
      have := resize_rejected sd gn delta hd.le rho h1 _ _ _ e
      simp at hN
      linarith
  | succ N ih =>
    obtain _ | ⟨rho, rhos⟩ := rhos
    · simp at hl
    obtain ⟨d', dx, st, e, h0, hn, _⟩ := choose_same sd gn delta hd.le
    have hr := choose_radius sd gn delta hd _ _ _ e
    simp only [inner, e, Res.bind]
    split
    · rename_i h
      rw [Bool.and_eq_true, decide_eq_true_eq] at h
      have h3 := resize_rejected sd gn delta hd.le rho h.1 _ _ _ e
      obtain ⟨r, k, e2, hk⟩ := ih (resize d' ⟨n, dx⟩ ⟨n, gn⟩ st rho) (by linarith [h.2]) (by rw [pow_succ] at hN; linarith) rhos (by simpa using hl)
      rw [e2]
      exact ⟨r, k + 1, rfl, by omega⟩
    · exact ⟨_, 1, rfl, by omega⟩

/-- **C116** (partial: as above, steps of one size; `convergenceDeltaX` must be positive). The search for an acceptable step ends: whatever gain ratios the passes find, the inner loop is left after a number of passes
that depends only on the two steps, the radius and `convergenceDeltaX`. -/
theorem C116_inner_terminates_partial {n : Nat} (conv : ℝ) (hc : 0 < conv) (sd gn : EuclideanSpace ℝ (Fin n)) (delta : ℝ) (hd : 0 ≤ delta) :
    ∃ N, ∀ rhos : List (Dbl ℝ), N ≤ rhos.length → ∃ r k, inner conv ⟨n, sd⟩ ⟨n, gn⟩ delta rhos = .ok (some (r, k)) ∧ k ≤ N := by
  obtain ⟨d', dx, st, e, h0, hn, _⟩ := choose_same sd gn delta hd
  obtain ⟨M, hM⟩ := pow_unbounded_of_one_lt (d' / conv) (one_lt_two (α := ℝ))
  have hM' : d' ≤ conv * 2 ^ M := by
    rw [div_lt_iff₀ hc] at hM
    linarith
  refine ⟨M + 2, fun rhos hl => ?_⟩
  obtain _ | ⟨rho, rhos⟩ := rhos
  · simp at hl
  simp only [inner, e, Res.bind]
  split
  · rename_i h
    rw [Bool.and_eq_true, decide_eq_true_eq] at h
    have h3 := resize_rejected sd gn delta hd rho h.1 _ _ _ e
    obtain ⟨r, k, e2, hk⟩ := inner_bound conv sd gn M (resize d' ⟨n, dx⟩ ⟨n, gn⟩ st rho) (by linarith [h.2]) (by linarith) rhos (by simpa using hl) hc
    rw [e2]
    exact ⟨r, k + 1, rfl, by omega⟩
  · exact ⟨_, 1, rfl, by omega⟩

/-- The hypotheses are met by the first iteration in the plane with the default `convergenceDeltaX` of 1e-3. -/
example : (0 : ℝ) < 1 / 1000 ∧ (0 : ℝ) ≤ 0 ∧ (EuclideanSpace.single 0 1 : EuclideanSpace ℝ (Fin 2)) ≠ 0 := ⟨by norm_num, le_refl _, by simp⟩

/-- **C116** (both solvers fail). Then the step is a fraction of the steepest-descent step `scale * rhs`, no longer than the radius, whether or not variables are marginalised. -/
theorem C116_failed_solve (l : Layout) (scale : ℝ) (rhs : EuclideanSpace ℝ (Fin l.rhsSize)) (delta : ℝ) (hd : 0 ≤ delta) :
    ∃ (d' t : ℝ) (st : Step), choose delta (sdOf l scale rhs) (gnOf l (sdOf l scale rhs) none) = .ok (d', ⟨l.rhsSize, t • scale • rhs⟩, st) ∧ 0 ≤ t ∧ t ≤ 1 ∧ ‖t • scale • rhs‖ ≤ d' ∧
      (t = 1 ∨ ‖t • scale • rhs‖ = d') := by
  obtain ⟨d', dx, st, e, -, hn, h | ⟨h1, -, t, h2, h3, h4⟩ | ⟨h1, -, b, h2, -⟩⟩ := choose_same (scale • rhs) (scale • rhs) delta hd
  · refine ⟨d', 1, st, ?_, zero_le_one, le_rfl, ?_, .inl rfl⟩
    · rw [one_smul, ← h.2]; exact e
    · rw [one_smul, ← h.2]; exact hn
  · refine ⟨d', t, st, ?_, h2, h3, ?_, .inr ?_⟩
    · rw [← h4]; exact e
    · rw [← h4]; exact hn
    · rw [← h4]; exact h1
  · have h5 : dx = scale • rhs := by rw [h2, sub_self, smul_zero, add_zero]
    refine ⟨d', 1, st, ?_, zero_le_one, le_rfl, ?_, .inl rfl⟩
    · rw [one_smul, ← h5]; exact e
    · rw [one_smul, ← h5]; exact hn

open Verif.Problem (State World Reach Op) in
/-- **C116** (negation, for every problem). If a variable of dimension greater than zero is marginalised, the first pass of the dog-leg method subtracts vectors of different sizes whenever the linear
solve succeeds: `optimizeDogLeg` then has undefined behaviour. -/
theorem C116_schur_undefined (debug : Bool) (w : World) (ops : List Op) (s : State) (h : Reach debug w ops s) (e : Env) (b : Nat → Int) (l : Layout)
    (hl : initOpt e true s b = .ok l) (d : Nat) (hd : d ∈ s.dvs) (ha : e.active d = true) (hm : e.marg d = true) (hdim : 0 < e.dim d)
    (scale : ℝ) (rhs : EuclideanSpace ℝ (Fin l.rhsSize)) (g : EuclideanSpace ℝ (Fin l.dxSize)) (rho : Dbl ℝ) (ps : List Pass) :
    passes 0 (⟨sdOf l scale rhs, gnOf l (sdOf l scale rhs) (some g), rho⟩ :: ps) = .ub := by
  obtain ⟨_, _, hlay⟩ := C115_layout debug w ops s h e true b
  obtain ⟨_, hmem, hpos, _, _, _, _, _, hr, hb, hdx, _, _, _⟩ := hlay l hl
  have hne : l.rhsSize ≠ l.dxSize := by
    rw [hdx, hr, hb]
    obtain ⟨i, hi, rfl⟩ := List.getElem_of_mem ((hmem d).2 ⟨hd, ha⟩)
    have hge : ¬ i < l.start := by
      rw [(hpos i hi).2.1, hm]; simp
    have hsplit : (l.dvs.map e.dim).sum = ((l.dvs.take l.start).map e.dim).sum + ((l.dvs.drop l.start).map e.dim).sum := by
      rw [← List.sum_append, ← List.map_append, List.take_append_drop]
    have hmem' : l.dvs[i] ∈ l.dvs.drop l.start := by
      rw [List.mem_drop_iff_getElem]
      exact ⟨i - l.start, by omega, by congr 1; omega⟩
    have := List.le_sum_of_mem (List.mem_map_of_mem (f := e.dim) hmem')
    omega
  have hsub : Vec.sub ⟨l.dxSize, g⟩ (sdOf l scale rhs) = .ub := by
    unfold Vec.sub sdOf
    rw [dif_neg hne]
  simp only [passes, choose, gnOf, ne_eq, not_true_eq_false, and_false, if_false, if_true]
  rw [hsub]
  rfl

/-- The hypotheses are met: variable 0 is marginalised. -/
example : ∃ l, initOpt ⟨fun _ => true, fun d => d == 0, fun _ => 1⟩ true ⟨[0, 1, 2], [5, 6], [], [(0, 5), (1, 5), (2, 6)], [], []⟩ (fun _ => -1) = .ok l ∧ l.rhsSize = 3 ∧ l.dxSize = 2 :=
  ⟨_, rfl, rfl, rfl⟩

end Verif.LegacyInit
