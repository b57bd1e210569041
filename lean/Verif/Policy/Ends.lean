import Verif.Policy.Live
import Verif.Policy.DogLeg
import Mathlib.Analysis.SpecificLimits.Basic
import Mathlib.Algebra.Order.Floor.Ring
import Mathlib.Tactic.Linarith
import Mathlib.Tactic.Positivity

/-! Property C126: with Levenberg-Marquardt and with line search the optimizer ends by itself, whatever its budget. -/
namespace Verif.Policy
open Verif.Optimizer2 Verif.Trust

variable {V : Type} [NormedAddCommGroup V] [InnerProductSpace ℝ V] {P : Type}

/-- The part of the loop condition that does not mention the budget, Optimizer2.cpp:189-191. -/
def going {K X D P : Type} [LinearOrder K] [CommRing K] (o : Options K) (s : St K X D P) : Bool :=
  (Dbl.lt (.fin o.convergenceDeltaX) s.deltaX && Dbl.lt (.fin o.convergenceDeltaError) (Dbl.abs s.deltaJ)) || s.lsf

/-- The loop started in `s` ends after at most `N` passes, in the same state for every budget that allows them. -/
def Stops {K X D P : Type} [LinearOrder K] [CommRing K] (S : Setup K X D P) (o : Options K) (I : St K X D P → Prop)
    (s : St K X D P) : Prop :=
  ∃ (N : Nat) (s' : St K X D P), going o s' = false ∧ I s' ∧ s'.iterations ≤ s.iterations + N ∧ s'.failed ≤ s.failed + N ∧
    ∀ M : Int, s.iterations + N < M → s.failed + N < M → loop S { o with maxIterations := M } s = .ok s'

section
variable {K X D : Type} [LinearOrder K] [CommRing K]

theorem Stops.now {S : Setup K X D P} {o : Options K} {I : St K X D P → Prop} {s : St K X D P} (hg : going o s = false) (hI : I s) :
    Stops S o I s := by
  refine ⟨0, s, hg, hI, by simp, by simp, fun M _ _ => ?_⟩
  rw [loop]
  rw [dif_neg]
  unfold going at hg
  simp [running, hg]

theorem Stops.later {S : Setup K X D P} {o : Options K} {I : St K X D P → Prop} {s s' : St K X D P} (hg : going o s = true)
    (hi : iter S s = .ok s') (h : Stops S o I s') : Stops S o I s := by
  obtain ⟨N, t, h1, h2, h3, h4, h5⟩ := h
  have hc := iter_counts S s s' hi
  refine ⟨N + 1, t, h1, h2, by push_cast; omega, by push_cast; omega, fun M hM hM' => ?_⟩
  push_cast at hM hM'
  have hr : running { o with maxIterations := M } s = true := by
    unfold going at hg
    unfold running
    simp only [hg, Bool.and_true, Bool.and_eq_true, decide_eq_true_eq]
    omega
  rw [loop, dif_pos hr]
  split
  · rename_i t' e
    rw [hi] at e
    cases e
    exact h5 M (by omega) (by omega)
  · rename_i e; rw [hi] at e; cases e
  · rename_i e; rw [hi] at e; cases e

/-- From the loop to `optimize`. -/
theorem Stops.optimize {S : Setup K X D P} {o : Options K} {I : St K X D P → Prop} (hl : ∀ s, I s → s.lsf = false)
    (b : Obj K X D P) (hnan : ∀ s, I s → s.deltaX ≠ .nan ∧ s.deltaJ ≠ .nan)
    (h : ∀ b₁ : Obj K X D P, b₁.x = b.x → b₁.p = b.p → Stops S o I (enter S o b₁)) :
    ∃ (N : Nat) (r : Obj K X D P) (s : St K X D P), (∀ M : Int, N ≤ M → Optimizer2.optimize S { o with maxIterations := M } b = .ok r) ∧ I s ∧
      r.linearSolverFailure = false ∧ (r.conv = .dx ∨ r.conv = .dObjective) ∧ r.x = s.x ∧ r.jFinal = s.pJ := by
  set b' := if b.initialized then b else initObj b with hb'
  obtain ⟨N, s, h1, h2, h3, h4, h5⟩ := h b' (by rw [hb']; split <;> rfl) (by rw [hb']; split <;> rfl)
  have hls := hl s h2
  have hor : Dbl.le s.deltaX (.fin o.convergenceDeltaX) = true ∨ Dbl.le (Dbl.abs s.deltaJ) (.fin o.convergenceDeltaError) = true := by
    unfold going at h1
    rw [hls, Bool.or_false, Bool.and_eq_false_iff] at h1
    rcases h1 with h1 | h1
    · left
      rw [Dbl.le_iff_not_lt (hnan s h2).1 (by simp), h1]
    · right
      have : Dbl.abs s.deltaJ ≠ .nan := by
        have := (hnan s h2).2
        cases hd : s.deltaJ <;> simp_all [Dbl.abs]
      rw [Dbl.le_iff_not_lt this (by simp), h1]
  have e1 : (enter S o b').iterations = b'.iterations := rfl
  have e2 : (enter S o b').failed = b'.failed := rfl
  rw [e1] at h3 h5
  rw [e2] at h4 h5
  have hcl : ∀ M : Int, s.iterations < M → s.failed < M → classify { o with maxIterations := M } b'.conv s =
      if Dbl.le s.deltaX (.fin o.convergenceDeltaX) then Conv.dx
      else if Dbl.le (Dbl.abs s.deltaJ) (.fin o.convergenceDeltaError) then .dObjective else b'.conv := by
    intro M h6 h7
    have f1 : decide (M ≤ s.failed) = false := by rw [decide_eq_false_iff_not]; omega
    unfold classify
    simp only [hls, Bool.false_or]
    rw [if_neg (by omega), f1]
    rfl
  refine ⟨b'.iterations.natAbs + b'.failed.natAbs + N + 1,
    leave S { o with maxIterations := b'.iterations.natAbs + b'.failed.natAbs + N + 1 } b' s, s, ?_, h2, hls, ?_, rfl, rfl⟩
  · intro M hM
    have hlo : loop S { o with maxIterations := M } (enter S { o with maxIterations := M } b') = .ok s :=
      h5 M (by omega) (by omega)
    show run S _ b' = _
    unfold run
    rw [hlo]
    show Res.ok _ = Res.ok _
    congr 1
    unfold leave
    rw [hcl M (by omega) (by omega), hcl _ (by omega) (by omega)]
  · unfold leave
    simp only
    rw [hcl _ (by omega) (by omega)]
    split
    · exact Or.inl rfl
    · rename_i hn
      rcases hor with h | h
      · exact absurd h hn
      · rw [if_pos h]; exact Or.inr rfl
end

/-- A run ends when accepted steps lower the cost by more than a fixed amount and each further rejected step is bounded by a fixed
fraction of the bound before. -/
theorem stops_of_bound {X D : Type} (S : Setup ℝ X D P) (o : Options ℝ) (hx : 0 < o.convergenceDeltaX)
    (he : 0 < o.convergenceDeltaError) (I : St ℝ X D P → Prop) (bound : St ℝ X D P → ℝ) (c : ℝ) (hc0 : 0 ≤ c) (hc : c < 1)
    (hpJ : ∀ s, I s → ∃ a, s.pJ = .fin a ∧ 0 ≤ a)
    (hstep : ∀ s, I s → going o s = true → ∃ s', iter S s = .ok s' ∧ I s' ∧ (going o s' = false ∨
      (∃ a a', s.pJ = .fin a ∧ s'.pJ = .fin a' ∧ a' + o.convergenceDeltaError < a) ∨
      (s'.pJ = s.pJ ∧ s'.prevFailed = true ∧ o.convergenceDeltaX < bound s' ∧
        (s.prevFailed = true → bound s' ≤ c * bound s)))) :
    ∀ s, I s → Stops S o I s := by
  have inner : ∀ (n : Nat), (∀ m < n, ∀ s, I s → (∃ a, s.pJ = .fin a ∧ a < m * o.convergenceDeltaError) → Stops S o I s) →
      ∀ (k : Nat) (s : St ℝ X D P), I s → (∃ a, s.pJ = .fin a ∧ a < n * o.convergenceDeltaError) → s.prevFailed = true →
        c ^ k * bound s ≤ o.convergenceDeltaX → Stops S o I s := by
    intro n ihn k
    induction k with
    | zero =>
      intro s hI ⟨a, ha, han⟩ hp hb
      cases hg : going o s with
      | false => exact .now hg hI
      | true =>
        obtain ⟨s', h1, h2, h3⟩ := hstep s hI hg
        refine .later hg h1 ?_
        rcases h3 with h3 | ⟨a1, a', h3, h4, h5⟩ | ⟨h3, h4, h5, h6⟩
        · exact .now h3 h2
        · rw [ha] at h3; cases h3
          cases n with
          | zero => obtain ⟨a2, e, h0⟩ := hpJ s hI; rw [ha] at e; cases e; simp at han; linarith
          | succ n =>
            refine ihn n (Nat.lt_succ_self n) s' h2 ⟨a', h4, ?_⟩
            push_cast at han; linarith
        · exfalso
          have := h6 hp
          simp only [pow_zero, one_mul] at hb
          nlinarith
    | succ k ih =>
      intro s hI ⟨a, ha, han⟩ hp hb
      cases hg : going o s with
      | false => exact .now hg hI
      | true =>
        obtain ⟨s', h1, h2, h3⟩ := hstep s hI hg
        refine .later hg h1 ?_
        rcases h3 with h3 | ⟨a1, a', h3, h4, h5⟩ | ⟨h3, h4, h5, h6⟩
        · exact .now h3 h2
        · rw [ha] at h3; cases h3
          cases n with
          | zero => obtain ⟨a2, e, h0⟩ := hpJ s hI; rw [ha] at e; cases e; simp at han; linarith
          | succ n =>
            refine ihn n (Nat.lt_succ_self n) s' h2 ⟨a', h4, ?_⟩
            push_cast at han; linarith
        · refine ih s' h2 ⟨a, by rw [h3, ha], han⟩ h4 (le_trans ?_ hb)
          rw [pow_succ, mul_assoc]
          exact mul_le_mul_of_nonneg_left (h6 hp) (pow_nonneg hc0 k)
  have pick : ∀ x : ℝ, ∃ k : Nat, c ^ k * x ≤ o.convergenceDeltaX := by
    intro x
    obtain ⟨k, hk⟩ := exists_pow_lt_of_lt_one (show 0 < o.convergenceDeltaX / (|x| + 1) by positivity) hc
    refine ⟨k, ?_⟩
    rw [lt_div_iff₀ (by positivity)] at hk
    have h1 : c ^ k * x ≤ c ^ k * (|x| + 1) := mul_le_mul_of_nonneg_left (by linarith [le_abs_self x]) (pow_nonneg hc0 k)
    linarith
  have outer : ∀ (n : Nat) (s : St ℝ X D P), I s → (∃ a, s.pJ = .fin a ∧ a < n * o.convergenceDeltaError) → Stops S o I s := by
    intro n
    induction n using Nat.strong_induction_on with
    | _ n ihn =>
      intro s hI ⟨a, ha, han⟩
      cases hg : going o s with
      | false => exact .now hg hI
      | true =>
        obtain ⟨s', h1, h2, h3⟩ := hstep s hI hg
        refine .later hg h1 ?_
        rcases h3 with h3 | ⟨a1, a', h3, h4, h5⟩ | ⟨h3, h4, h5, h6⟩
        · exact .now h3 h2
        · rw [ha] at h3; cases h3
          cases n with
          | zero => obtain ⟨a2, e, h0⟩ := hpJ s hI; rw [ha] at e; cases e; simp at han; linarith
          | succ n =>
            refine ihn n (Nat.lt_succ_self n) s' h2 ⟨a', h4, ?_⟩
            push_cast at han; linarith
        · obtain ⟨k, hk⟩ := pick (bound s')
          exact inner n (fun m hm s hI h => ihn m hm s hI h) k s' h2 ⟨a, by rw [h3, ha], han⟩ h4 hk
  intro s hI
  obtain ⟨a, ha, _⟩ := hpJ s hI
  obtain ⟨n, hn⟩ := exists_nat_gt (a / o.convergenceDeltaError)
  exact outer n s hI ⟨a, ha, by rwa [div_lt_iff₀ he] at hn⟩

omit [NormedAddCommGroup V] [InnerProductSpace ℝ V] in
/-- The outcomes of a pass with a successful solve and finite costs. -/
theorem pass_outcome (S : Setup ℝ (V × V) V P) (o : Options ℝ) (hrev : S.reverts = true) (hsz : ∀ d, S.size d = S.numOpt)
    (cost maxAbs : V → ℝ) (hcost : ∀ x, S.cost x = .fin (cost x.1)) (hmax : ∀ d, S.maxAbs d = .fin (maxAbs d))
    (hres : ∀ x d, (S.revert (S.update x d)).1 = x.1)
    (s : St ℝ (V × V) V P) (hp : s.pJ = .fin (cost s.x.1)) (hl : s.lsf = false)
    (h : (S.solve s.p s.x s.dx s.error s.prevFailed).2.1 = true) :
    ∃ s', iter S s = .ok s' ∧ s'.lsf = false ∧ s'.pJ = .fin (cost s'.x.1) ∧ cost s'.x.1 ≤ cost s.x.1 ∧
      s'.p = (S.solve s.p s.x s.dx s.error s.prevFailed).1 ∧ s'.dx = (S.solve s.p s.x s.dx s.error s.prevFailed).2.2 ∧
      s'.deltaX = .fin (maxAbs s'.dx) ∧ s'.deltaJ ≠ .nan ∧
      (going o s' = false ∨ (s'.prevFailed = false ∧ cost s'.x.1 + o.convergenceDeltaError < cost s.x.1) ∨
        (s'.prevFailed = true ∧ s'.x.1 = s.x.1 ∧ o.convergenceDeltaX < maxAbs s'.dx)) := by
  have hit := iter_of_solve S hrev hsz s h
  rw [hcost, hp] at hit
  have hsub : Dbl.sub (.fin (cost s.x.1)) (.fin (cost (candidate S s).1)) = .fin (cost s.x.1 - cost (candidate S s).1) := rfl
  rw [hsub] at hit
  rcases lt_or_ge (cost s.x.1) (cost (candidate S s).1) with hc | hc
  · rw [if_pos ((Dbl.lt_fin _ _).2 (by linarith))] at hit
    have hx : (afterReject S s).x.1 = s.x.1 := hres _ _
    have hdJ : (afterReject S s).deltaJ = .fin (cost s.x.1 - cost (candidate S s).1) := by
      show Dbl.sub s.pJ (S.cost (candidate S s)) = _
      rw [hp, hcost, hsub]
    refine ⟨_, hit, hl, by rw [hx]; exact hp, by rw [hx], rfl, rfl, hmax _, by rw [hdJ]; simp, ?_⟩
    cases hg : going o (afterReject S s) with
    | false => exact Or.inl rfl
    | true =>
      right; right
      refine ⟨rfl, hx, ?_⟩
      unfold going at hg
      have hl' : (afterReject S s).lsf = false := hl
      have hdX : (afterReject S s).deltaX = .fin (maxAbs (afterReject S s).dx) := hmax _
      rw [hl', Bool.or_false, Bool.and_eq_true, hdX] at hg
      exact (Dbl.lt_fin _ _).1 hg.1
  · rw [if_neg (by intro h; have := (Dbl.lt_fin _ _).1 h; linarith)] at hit
    have hdJ : (afterAccept S s).deltaJ = .fin (cost s.x.1 - cost (candidate S s).1) := by
      show Dbl.sub s.pJ (S.cost (candidate S s)) = _
      rw [hp, hcost, hsub]
    refine ⟨_, hit, hl, hcost _, hc, rfl, rfl, hmax _, by rw [hdJ]; simp, ?_⟩
    cases hg : going o (afterAccept S s) with
    | false => exact Or.inl rfl
    | true =>
      right; left
      refine ⟨by show (if S.reverts then false else s.prevFailed) = false; rw [hrev]; rfl, ?_⟩
      unfold going at hg
      have hl' : (afterAccept S s).lsf = false := hl
      rw [hl', Bool.or_false, Bool.and_eq_true, hdJ] at hg
      have h2 := (Dbl.lt_fin _ _).1 hg.2
      rw [abs_of_nonneg (by linarith)] at h2
      show cost (candidate S s).1 + _ < _
      linarith

/-! ### Levenberg-Marquardt -/

/-- A damped step is at most the right-hand side divided by the squared damping. -/
theorem damped_le {r d e : V} {l : ℝ} (hl : 0 < l) (h : e + (l * l) • d = r) (he : 0 ≤ inner ℝ e d) : ‖d‖ ≤ ‖r‖ / (l * l) := by
  have hll : 0 < l * l := by positivity
  rcases (norm_nonneg d).eq_or_lt with h0 | h0
  · rw [← h0]; positivity
  have hin : inner ℝ r d = inner ℝ e d + l * l * (‖d‖ * ‖d‖) := by
    rw [← h, inner_add_left, inner_smul_left, real_inner_self_eq_norm_mul_norm]; simp
  have hcs : inner ℝ r d ≤ ‖r‖ * ‖d‖ := real_inner_le_norm r d
  rw [le_div_iff₀ hll]
  have : (‖d‖ * (l * l)) * ‖d‖ ≤ ‖r‖ * ‖d‖ := by nlinarith
  exact le_of_mul_le_mul_right this h0

/-- **C126** (Levenberg-Marquardt, part). Let costs be finite and not negative, let the linear solver succeed for every positive
damping and solve the damped normal equations, and let both convergence thresholds be positive. Then `optimize()` ends by
itself: beyond some budget the result no longer depends on the budget. It reports convergence of the step or of the cost, the final
cost is that of the returned values, and the cost has not risen. This holds for every start and whatever the optimizer did before.
(Missing: runs with a failing solve, which never end by themselves, see below.) -/
theorem C126_levenberg_marquardt_partial (cost maxAbs : V → ℝ) (hcost : ∀ q, 0 ≤ cost q) (hmax : ∀ d, maxAbs d ≤ ‖d‖)
    (rhs : V → V) (H : V → V →ₗ[ℝ] V) (hpsd : ∀ q d, 0 ≤ inner ℝ (H q d) d) (sol : V → Option ℝ → Option V)
    (hsol : ∀ q l d, 0 < l → sol q (some l) = some d → H q d + (l * l) • d = rhs q) (hsucc : ∀ q l, 0 < l → sol q (some l) ≠ none)
    (init : LM ℝ) (hok : LMOk init) (o : Options ℝ) (hx : 0 < o.convergenceDeltaX) (he : 0 < o.convergenceDeltaError)
    (b : Obj ℝ (V × V) V (LMP ℝ V)) :
    ∃ (N : Nat) (res : Obj ℝ (V × V) V (LMP ℝ V)),
      (∀ M : Int, N ≤ M → optimize (lm (additive cost maxAbs sol fun q l d => inner ℝ d (l • d + rhs q)) init)
        { o with maxIterations := M } b = .ok res) ∧
      res.linearSolverFailure = false ∧ (res.conv = .dx ∨ res.conv = .dObjective) ∧ res.jFinal = .fin (cost res.x.1) ∧
      cost res.x.1 ≤ cost b.x.1 := by
  set E := additive cost maxAbs sol fun q l d => inner ℝ d (l • d + rhs q) with hE
  have hpred : Predicts E := by
    intro q l d hl hd hm
    have hd0 : 0 < ‖d‖ := lt_of_lt_of_le hm (hmax d)
    have := hsol q l d hl hd
    show 0 < inner ℝ d (l • d + rhs q)
    rw [← this, inner_add_right, inner_add_right, inner_smul_right, inner_smul_right, real_inner_self_eq_norm_mul_norm,
      real_inner_comm]
    have := hpsd q d
    positivity
  have hres : Restores E := fun _ _ => rfl
  let I : St ℝ (V × V) V (LMP ℝ V) → Prop := fun s => LMInv E s ∧ s.lsf = false ∧ s.pJ = .fin (cost s.x.1) ∧
    cost s.x.1 ≤ cost b.x.1 ∧ s.deltaX ≠ .nan ∧ s.deltaJ ≠ .nan
  let bound : St ℝ (V × V) V (LMP ℝ V) → ℝ := fun s =>
    match s.p.lm with
    | some l => ‖rhs s.x.1‖ / (l.lambda * l.lambda)
    | none => 0
  have hstops : ∀ s, I s → Stops (lm E init) o I s := by
    apply stops_of_bound (lm E init) o hx he I bound (1 / 4) (by norm_num) (by norm_num)
    · intro s hs
      exact ⟨_, hs.2.2.1, hcost _⟩
    · intro s ⟨h1, h2, h3, h4, _, _⟩ hg
      have hrun : running { o with maxIterations := max s.iterations s.failed + 1 } s = true := by
        unfold going at hg
        unfold running
        simp only [hg, Bool.and_true, Bool.and_eq_true, decide_eq_true_eq]
        constructor <;> omega
      obtain ⟨l', e1, e2, e3, e4, e5, e6, e7⟩ := lm_call E hpred { o with maxIterations := max s.iterations s.failed + 1 }
        hx.le he.le s h1 h2 hrun
      have hok' : (lmCall E s.p s.x s.dx s.error s.prevFailed).2.1 = true := by
        rw [e7]
        exact Option.isSome_iff_ne_none.2 (hsucc _ _ e6.lambda)
      obtain ⟨s', g1, g2, g3, g4, g5, g6, g7, g8, g9⟩ := pass_outcome (lm E init) o rfl (fun _ => rfl) cost maxAbs
        (fun _ => rfl) (fun _ => rfl) (fun _ _ => rfl) s h3 h2 hok'
      have hinv : LMInv E s' := lm_pass E hres hpred init { o with maxIterations := max s.iterations s.failed + 1 } hx.le he.le
        s s' h1 hrun g1
      refine ⟨s', g1, ⟨hinv, g2, g3, le_trans g4 h4, by rw [g7]; simp, g8⟩, ?_⟩
      rcases g9 with g9 | ⟨g9, g10⟩ | ⟨g9, g10, g11⟩
      · exact Or.inl g9
      · exact Or.inr (Or.inl ⟨_, _, h3, g3, g10⟩)
      · right; right
        have hlm : s'.p.lm = some l' := by rw [g5]; exact e1
        have hb : bound s' = ‖rhs s.x.1‖ / (l'.lambda * l'.lambda) := by
          show (match s'.p.lm with | some l => ‖rhs s'.x.1‖ / (l.lambda * l.lambda) | none => 0) = _
          rw [hlm, g10]
        refine ⟨by rw [g3, g10, h3], g9, ?_, ?_⟩
        · have hs := e5 hok'
          have hd : sol s.x.1 (some l'.lambda) = some s'.dx := by rw [g6]; exact hs
          have := damped_le e6.lambda (hsol _ _ _ e6.lambda hd) (hpsd _ _)
          rw [hb]
          exact lt_of_lt_of_le g11 (le_trans (hmax _) this)
        · intro hp
          obtain ⟨l, J, pJ, e, ⟨k1, hk⟩, _, _, _, kA, _, _⟩ := h1 h2
          have hf : s.p.base.first = false := by
            cases hf : s.p.base.first with
            | false => rfl
            | true => rw [(kA hf).1] at hp; cases hp
          have hl' : l' = { l with mu := l.mu * 2, lambda := l.lambda * (l.mu * 2) } := by
            have : (lmCall E s.p s.x s.dx s.error s.prevFailed).1.lm = some { l with mu := l.mu * 2, lambda := l.lambda * (l.mu * 2) } := by
              unfold lmCall
              have hf' : (s.p.base.call s.error s.prevFailed).first = false := hf
              rw [hp] at hf' ⊢
              simp only [k1, lmUpdate, hf', Bool.false_eq_true, if_false, if_true]
            rw [e1] at this
            exact Option.some.inj this
          have hb0 : bound s = ‖rhs s.x.1‖ / (l.lambda * l.lambda) := by
            show (match s.p.lm with | some l => ‖rhs s.x.1‖ / (l.lambda * l.lambda) | none => 0) = _
            rw [k1]
          rw [hb, hb0, hl']
          simp only
          have h5 := hk.lambda
          have h6 := hk.mu
          have h7 : 0 < l.lambda * l.lambda := by positivity
          have h8 : 4 * (l.lambda * l.lambda) ≤ l.lambda * (l.mu * 2) * (l.lambda * (l.mu * 2)) := by
            have : 1 ≤ l.mu * l.mu := by nlinarith
            have : l.lambda * (l.mu * 2) * (l.lambda * (l.mu * 2)) = 4 * (l.lambda * l.lambda) * (l.mu * l.mu) := by ring
            rw [this]
            nlinarith
          calc ‖rhs s.x.1‖ / (l.lambda * (l.mu * 2) * (l.lambda * (l.mu * 2)))
              ≤ ‖rhs s.x.1‖ / (4 * (l.lambda * l.lambda)) := div_le_div_of_nonneg_left (norm_nonneg _) (by positivity) h8
            _ = 1 / 4 * (‖rhs s.x.1‖ / (l.lambda * l.lambda)) := by field_simp
  have hent : ∀ b₁ : Obj ℝ (V × V) V (LMP ℝ V), b₁.x = b.x → I (enter (lm E init) o b₁) := by
    intro b₁ hb
    refine ⟨fun _ => ⟨init, _, _, _, ⟨rfl, hok⟩, rfl, rfl, rfl, fun _ => ⟨rfl, rfl⟩, (fun hf => by cases hf), (fun hf => by cases hf)⟩,
      rfl, rfl, ?_, by simp [enter], by simp [enter]⟩
    show cost b₁.x.1 ≤ _
    rw [hb]
  obtain ⟨N, res, s, r1, r2, r3, r4, r5, r6⟩ := Stops.optimize (S := lm E init) (o := o) (I := I) (fun s hs => hs.2.1) b
    (fun s hs => ⟨hs.2.2.2.2.1, hs.2.2.2.2.2⟩) (fun b₁ hb _ => hstops _ (hent b₁ hb))
  exact ⟨N, res, r1, r3, r4, by rw [r6, r2.2.2.1, r5], by rw [r5]; exact r2.2.2.2.1⟩

/-! ### Line search -/

/-- **C126** (line search, part). Let costs be finite and not negative, let the linear solver succeed, let the policy be one that its
constructor accepted, and let both convergence thresholds be positive. Then `optimize()` ends by itself as with
Levenberg-Marquardt; nothing need be known about the directions. (Missing: runs with a failing solve.) -/
theorem C126_line_search_partial (cost maxAbs : V → ℝ) (hcost : ∀ q, 0 ≤ cost q) (hmax : ∀ d, maxAbs d ≤ ‖d‖)
    (sol : V → Option ℝ → Option V) (d2 : V → ℝ → V → ℝ) (hsucc : ∀ q, sol q (some 0) ≠ none)
    (o : Options ℝ) (hx : 0 < o.convergenceDeltaX) (he : 0 < o.convergenceDeltaError)
    (b : Obj ℝ (V × V) V (LSP ℝ)) (c : ℝ) (rst : Bool) (hnew : LS.new c rst = .ok b.p.ls) :
    ∃ (N : Nat) (res : Obj ℝ (V × V) V (LSP ℝ)),
      (∀ M : Int, N ≤ M → optimize (ls (additive cost maxAbs sol d2)) { o with maxIterations := M } b = .ok res) ∧
      res.linearSolverFailure = false ∧ (res.conv = .dx ∨ res.conv = .dObjective) ∧ res.jFinal = .fin (cost res.x.1) ∧
      cost res.x.1 ≤ cost b.x.1 := by
  set E := additive cost maxAbs sol d2 with hE
  obtain ⟨hc0, hc1, hb⟩ : 0 ≤ c ∧ c < 1 ∧ b.p.ls = ⟨c, rst, 1⟩ := by
    unfold LS.new at hnew
    split at hnew
    · rename_i h
      exact ⟨h.1, h.2, (Res.ok.inj hnew).symm⟩
    · cases hnew
  let I : St ℝ (V × V) V (LSP ℝ) → Prop := fun s => s.p.ls.scaleStep = c ∧ (s.prevFailed = true → s.p.base.first = false) ∧
    s.lsf = false ∧ s.pJ = .fin (cost s.x.1) ∧ cost s.x.1 ≤ cost b.x.1 ∧ s.deltaX ≠ .nan ∧ s.deltaJ ≠ .nan
  have hstops : ∀ s, I s → Stops (ls E) o I s := by
    apply stops_of_bound (ls E) o hx he I (fun s => ‖s.dx‖) c hc0 hc1
    · intro s hs
      exact ⟨_, hs.2.2.2.1, hcost _⟩
    · intro s ⟨h0, h1, h2, h3, h4, _, _⟩ hg
      have hsome : (E.sol (E.val s.x) (some 0)).isSome = true := Option.isSome_iff_ne_none.2 (hsucc _)
      have hok : ((ls E).solve s.p s.x s.dx s.error s.prevFailed).2.1 = true := by
        simp only [ls, Env.base, LS.call]
        split
        · exact hsome
        · rfl
      have hsc : ((ls E).solve s.p s.x s.dx s.error s.prevFailed).1.ls.scaleStep = c := by
        simp only [ls, Env.base, LS.call]
        split <;> exact h0
      obtain ⟨s', g1, g2, g3, g4, g5, g6, g7, g8, g9⟩ := pass_outcome (ls E) o rfl (fun _ => rfl) cost maxAbs
        (fun _ => rfl) (fun _ => rfl) (fun _ _ => rfl) s h3 h2 hok
      refine ⟨s', g1, ⟨by rw [g5]; exact hsc, fun _ => by rw [g5]; rfl, g2, g3, le_trans g4 h4, by rw [g7]; simp, g8⟩, ?_⟩
      rcases g9 with g9 | ⟨g9, g10⟩ | ⟨g9, g10, g11⟩
      · exact Or.inl g9
      · exact Or.inr (Or.inl ⟨_, _, h3, g3, g10⟩)
      · right; right
        refine ⟨by rw [g3, g10, h3], g9, lt_of_lt_of_le g11 (hmax _), fun hp => ?_⟩
        have hd : s'.dx = c • s.dx := by
          rw [g6]
          simp only [ls, Env.base, LS.call, Base.call, h1 hp, hp, Bool.not_true, Bool.or_self, Bool.false_eq_true, if_false]
          rw [h0]
        rw [hd, norm_smul, Real.norm_eq_abs, abs_of_nonneg hc0]
  have hent : ∀ b₁ : Obj ℝ (V × V) V (LSP ℝ), b₁.x = b.x → b₁.p = b.p → I (enter (ls E) o b₁) := by
    intro b₁ hb1 hb2
    refine ⟨?_, (fun h => by cases h), rfl, rfl, ?_, by simp [enter], by simp [enter]⟩
    · show b₁.p.ls.scaleStep = c
      rw [hb2, hb]
    · show cost b₁.x.1 ≤ _
      rw [hb1]
  obtain ⟨N, res, s, r1, r2, r3, r4, r5, r6⟩ := Stops.optimize (S := ls E) (o := o) (I := I) (fun s hs => hs.2.2.1) b
    (fun s hs => hs.2.2.2.2.2) (fun b₁ hb hb' => hstops _ (hent b₁ hb hb'))
  exact ⟨N, res, r1, r3, r4, by rw [r6, r2.2.2.2.1, r5], by rw [r5]; exact r2.2.2.2.2.1⟩

/-! ### Where it is false -/

/-- After a failed solve only the budget ends the loop, whatever the policy and however small steps and changes of the cost become. -/
theorem C126_failed_solve {K X D : Type} [LinearOrder K] [CommRing K] (S : Setup K X D P) (o : Options K) (s t : St K X D P)
    (hl : s.lsf = true) (h : loop S o s = .ok t) : o.maxIterations ≤ t.iterations ∨ o.maxIterations ≤ t.failed := by
  have := loop_inv (S := S) (o := o) (fun s => s.lsf = true) ?_ s hl t h
  · obtain ⟨h1, h2⟩ := this
    unfold running at h2
    rw [h1] at h2
    simp only [Bool.or_true, Bool.and_true, Bool.and_eq_false_iff, decide_eq_false_iff_not] at h2
    omega
  · intro s s' _ hi hs
    rcases iter_cases hi with ⟨_, rfl⟩ | ⟨_, _, _, rfl⟩ | ⟨_, _, rfl⟩
    · rfl
    · exact hs
    · exact hs

/-- A loop that can always go on uses up its budget. -/
theorem loop_uses_budget {X D : Type} (S : Setup ℝ X D P) (o : Options ℝ) (I : St ℝ X D P → Prop)
    (hstep : ∀ s, I s → going o s = true ∧ ∃ s', iter S s = .ok s' ∧ I s') (s t : St ℝ X D P) (hI : I s) (h : loop S o s = .ok t) :
    I t ∧ (o.maxIterations ≤ t.iterations ∨ o.maxIterations ≤ t.failed) := by
  have := loop_inv (S := S) (o := o) I ?_ s hI t h
  · obtain ⟨h1, h2⟩ := this
    refine ⟨h1, ?_⟩
    have hg := (hstep t h1).1
    unfold going at hg
    unfold running at h2
    rw [hg] at h2
    simp only [Bool.and_true, Bool.and_eq_false_iff, decide_eq_false_iff_not] at h2
    omega
  · intro s s' _ hi hs
    obtain ⟨_, t', h1, h2⟩ := hstep s hs
    rw [hi] at h1
    cases h1
    exact h2

/-- The loop goes on from every state it reaches. -/
theorem reach_loop {K X D : Type} [LinearOrder K] [Field K] {S : Setup K X D P} {o : Options K} {b : Obj K X D P} {s : St K X D P}
    (h : Reach S o b s) : loop S o (enter S o b) = loop S o s := by
  induction h with
  | enter => rfl
  | pass _ hr hi ih =>
    rename_i s s' _
    rw [ih, loop, dif_pos hr]
    split
    · rename_i t e
      rw [hi] at e
      cases e
      rfl
    · rename_i e; rw [hi] at e; cases e
    · rename_i e; rw [hi] at e; cases e

/-- The problem with the residual `x^3 - 2 x + 2`. -/
noncomputable def cubic : Env ℝ (ℝ × ℝ) ℝ ℝ :=
  additive (fun q => (q ^ 3 - 2 * q + 2) ^ 2) (fun d => |d|)
    (fun q _ => if 3 * q ^ 2 - 2 = 0 then none else some (-((q ^ 3 - 2 * q + 2) / (3 * q ^ 2 - 2)))) (fun _ _ _ => 0)

/-- Gauss-Newton never ends by itself here: started at 0 the values alternate between 0 and 1, the costs between 4 and 1; for every
budget the run ends because the budget is used up. -/
theorem C126_gauss_newton_counterexample (o : Options ℝ) (hx : o.convergenceDeltaX < 1) (he0 : 0 ≤ o.convergenceDeltaError)
    (he : o.convergenceDeltaError < 3) :
    (∀ q : ℝ, HasDerivAt (fun q : ℝ => q ^ 3 - 2 * q + 2) (3 * q ^ 2 - 2) q) ∧
    ∃ r, optimize (gn cubic) o (fresh (0, 0) (Base.start (.fin 0)) 0) = .ok r ∧ r.conv = .maxIterations ∧
      o.maxIterations ≤ r.iterations ∧ r.linearSolverFailure = false ∧ (r.x.1 = 0 ∨ r.x.1 = 1) := by
  constructor
  · intro q
    have h := (((hasDerivAt_pow 3 q).sub ((hasDerivAt_id' q).const_mul 2)).add_const (2 : ℝ))
    have : (3 : ℝ) * q ^ 2 - 2 = ((3 : ℕ) : ℝ) * q ^ (3 - 1) - 2 * 1 := by norm_num
    rw [this]
    exact h
  · obtain ⟨r, hr⟩ := (C23_terminates_within_budget (gn cubic) o (0, 0) (Base.start (.fin 0)) 0).1 (fun _ _ _ _ _ => rfl)
    refine ⟨r, hr, ?_⟩
    let I : St ℝ (ℝ × ℝ) ℝ (Base (Dbl ℝ)) → Prop := fun s => s.lsf = false ∧ s.failed = 0 ∧
      ((s.x.1 = 0 ∧ s.pJ = .fin 4) ∨ (s.x.1 = 1 ∧ s.pJ = .fin 1)) ∧
      (∃ a, s.deltaX = .fin a ∧ o.convergenceDeltaX < a) ∧ (∃ a, s.deltaJ = .fin a ∧ o.convergenceDeltaError < |a|)
    obtain ⟨t, e, rfl⟩ := run_ok (show run (gn cubic) o _ = .ok r from hr)
    have hstep : ∀ s, I s → going o s = true ∧ ∃ s', iter (gn cubic) s = .ok s' ∧ I s' := by
      intro s ⟨h1, h2, h3, ⟨a, h4, h4'⟩, b, h5, h5'⟩
      constructor
      · unfold going
        rw [h4, h5]
        simp [Dbl.lt, Dbl.abs, h4', h5']
      · have key : ∀ (q q' c c' : ℝ), s.x.1 = q → s.pJ = .fin c → cubic.sol q (some 0) = some (q' - q) → cubic.cost q' = c' →
            (q' = 0 ∧ c' = 4 ∨ q' = 1 ∧ c' = 1) → |q' - q| = 1 → |c - c'| = 3 → ∃ s', iter (gn cubic) s = .ok s' ∧ I s' := by
          intro q q' c c' k1 k2 k3 k4 k5 k6 k7
          have hsol : (gn cubic).solve s.p s.x s.dx s.error s.prevFailed = ((s.p.call s.error s.prevFailed).done, true, q' - q) := by
            show ((s.p.call s.error s.prevFailed).done, (cubic.sol s.x.1 (some 0)).isSome, (cubic.sol s.x.1 (some 0)).getD s.dx) = _
            rw [k1, k3]; rfl
          have hcand : candidate (gn cubic) s = (q', q) := by
            unfold candidate
            rw [hsol]
            show (s.x.1 + (q' - q), s.x.1) = _
            rw [k1]; simp
          have hcost : (gn cubic).cost (candidate (gn cubic) s) = .fin c' := by
            rw [hcand]
            show Dbl.fin (cubic.cost q') = _
            rw [k4]
          refine ⟨afterAccept (gn cubic) s, ?_, h1, h2, ?_, ⟨1, ?_, hx⟩, ⟨c - c', ?_, by rw [k7]; exact he⟩⟩
          · unfold iter
            rw [hsol]
            simp only [afterAccept, hsol, candidate]
            rw [if_neg (by simp [gn, Env.base]), if_neg (by simp), if_neg (by simp [gn, Env.base]), if_neg (by simp [gn, Env.base])]
          · rcases k5 with ⟨k, k'⟩ | ⟨k, k'⟩
            · left
              exact ⟨by show (candidate (gn cubic) s).1 = 0; rw [hcand, k], by show (gn cubic).cost (candidate (gn cubic) s) = _; rw [hcost, k']⟩
            · right
              exact ⟨by show (candidate (gn cubic) s).1 = 1; rw [hcand, k], by show (gn cubic).cost (candidate (gn cubic) s) = _; rw [hcost, k']⟩
          · show (gn cubic).maxAbs ((gn cubic).solve s.p s.x s.dx s.error s.prevFailed).2.2 = _
            rw [hsol]
            show Dbl.fin |q' - q| = _
            rw [k6]
          · show Dbl.sub s.pJ ((gn cubic).cost (candidate (gn cubic) s)) = _
            rw [hcost, k2]; rfl
        rcases h3 with ⟨h, h'⟩ | ⟨h, h'⟩
        · refine key 0 1 4 1 h h' ?_ ?_ (Or.inr ⟨rfl, rfl⟩) (by norm_num) (by norm_num)
          · show (if (3 : ℝ) * 0 ^ 2 - 2 = 0 then none else some (-(((0 : ℝ) ^ 3 - 2 * 0 + 2) / (3 * 0 ^ 2 - 2)))) = _
            norm_num
          · show ((1 : ℝ) ^ 3 - 2 * 1 + 2) ^ 2 = 1
            norm_num
        · refine key 1 0 1 4 h h' ?_ ?_ (Or.inl ⟨rfl, rfl⟩) (by norm_num) (by norm_num)
          · show (if (3 : ℝ) * 1 ^ 2 - 2 = 0 then none else some (-(((1 : ℝ) ^ 3 - 2 * 1 + 2) / (3 * 1 ^ 2 - 2)))) = _
            norm_num
          · show ((0 : ℝ) ^ 3 - 2 * 0 + 2) ^ 2 = 4
            norm_num
    have hent : I (enter (gn cubic) o (initObj (fresh (0, 0) (Base.start (.fin 0)) 0))) := by
      refine ⟨rfl, rfl, Or.inl ⟨rfl, ?_⟩, ⟨_, rfl, lt_add_one _⟩, ⟨_, rfl, ?_⟩⟩
      · show Dbl.fin (((0 : ℝ) ^ 3 - 2 * 0 + 2) ^ 2) = _
        norm_num
      · rw [abs_of_nonneg (by linarith)]; exact lt_add_one _
    obtain ⟨⟨h1, h2, h3, h4, h5⟩, h6⟩ := loop_uses_budget (gn cubic) o I hstep _ t hent e
    have h7 : o.maxIterations ≤ t.iterations := by
      rcases h6 with h6 | h6
      · exact h6
      · have := loop_inv (S := gn cubic) (o := o) (fun s => 0 ≤ s.iterations) ?_ _ ?_ t e
        · omega
        · intro s s' _ hi hs
          have := iter_counts _ s s' hi
          omega
        · exact le_refl (0 : Int)
    refine ⟨?_, h7, h1, ?_⟩
    · show classify o _ t = _
      unfold classify
      rw [if_pos h7]
    · rcases h3 with h | h
      · exact Or.inl h.1
      · exact Or.inr h.1

/-- The dog-leg policy does not always end by itself either, though it reverts steps that do not lower the cost: in the run of
`C95_dogleg_counterexample` the same step is tried and rejected until the budget is used up, for every budget. -/
theorem C126_dogleg_counterexample (o : Options ℝ) (hx : o.convergenceDeltaX < 5) (he0 : 0 ≤ o.convergenceDeltaError)
    (he : o.convergenceDeltaError < 24) (hN : 2 ≤ o.maxIterations) :
    (∀ q, HasDerivAt trap (trap' q) q) ∧ (∀ q, Normal (lin1 trap trap' q)) ∧
    ∃ r, optimize (dl (fun q => trap q ^ 2) (fun d => |d|) (lin1 trap trap')) o trapStart = .ok r ∧ r.conv = .maxIterations ∧
      o.maxIterations ≤ r.iterations ∧ r.linearSolverFailure = false ∧ r.x.1 = 0 ∧ (lin1 trap trap' r.x.1).rhs ≠ 0 := by
  refine ⟨trap_deriv, lin1_normal _ _, ?_⟩
  obtain ⟨r, hr⟩ := (C23_terminates_within_budget trapSetup o (10, 10) trapStart.p 0).1 (fun _ _ _ _ _ => rfl)
  refine ⟨r, hr, ?_⟩
  obtain ⟨t, e, rfl⟩ := run_ok (show run trapSetup o _ = .ok r from hr)
  obtain ⟨s, h1, h2⟩ := stuck_enter o hx he0 he hN
  have e' : loop trapSetup o s = .ok t := by rw [← reach_loop h1]; exact e
  have hstep : ∀ s, (∃ n, Stuck n s) → going o s = true ∧ ∃ s', iter trapSetup s = .ok s' ∧ ∃ n, Stuck n s' := by
    rintro s ⟨n, hs⟩
    obtain ⟨s', h3, h4⟩ := stuck_step n s hs
    refine ⟨?_, s', h3, n + 1, h4⟩
    obtain ⟨_, _, _, _, _, _, _, _, _, _, _, _, _, _, _, _, k1, k2, _, _⟩ := hs
    unfold going
    rw [k1, k2]
    simp [Dbl.lt, Dbl.abs, hx, he]
  obtain ⟨⟨n, hn⟩, h6⟩ := loop_uses_budget trapSetup o _ hstep s t ⟨0, h2⟩ e'
  obtain ⟨k1, k2, k3, k4, k5, _, _, _, k9, _, _, _, _, _, _, _, _, _, k19, k20⟩ := hn
  have h7 : o.maxIterations ≤ t.iterations := by omega
  refine ⟨?_, h7, k3, k1, ?_⟩
  · show classify o _ t = _
    unfold classify
    rw [if_pos h7]
  · show (lin1 trap trap' t.x.1).rhs ≠ 0
    rw [k1, trap_lin.2]; norm_num

/-- The hypotheses for Levenberg-Marquardt are met: residual `q^2 + 1` (whose first step from 1/2 is rejected, see C95), and the result
is a run that makes the optimizer stop. -/
example : ∃ (N : Nat) (res : Obj ℝ (ℝ × ℝ) ℝ (LMP ℝ ℝ)),
    (∀ M : Int, N ≤ M → optimize (lm (additive (fun q : ℝ => (q ^ 2 + 1) ^ 2) (fun d => |d|)
        (fun q m => m.bind fun l => some (-(2 * q * (q ^ 2 + 1)) / (4 * q ^ 2 + l * l)))
        fun q l d => inner ℝ d (l • d + -(2 * q * (q ^ 2 + 1)))) ⟨1 / 4, 3, 2, 3, 2⟩) ⟨1 / 1000, 1 / 1000, M⟩
        (fresh (1 / 2, 1 / 2) ⟨Base.start (.fin 0), none, 0, ⟨0, 0, 0, 0, 0⟩⟩ 0) = .ok res) ∧
    res.linearSolverFailure = false ∧ (res.conv = .dx ∨ res.conv = .dObjective) ∧
    res.jFinal = .fin ((res.x.1 ^ 2 + 1) ^ 2) ∧ (res.x.1 ^ 2 + 1) ^ 2 ≤ ((1 / 2 : ℝ) ^ 2 + 1) ^ 2 := by
  have h := C126_levenberg_marquardt_partial (V := ℝ) (fun q : ℝ => (q ^ 2 + 1) ^ 2) (fun d => |d|) (fun q => by positivity)
    (fun d => le_refl _) (fun q => -(2 * q * (q ^ 2 + 1))) (fun q => (4 * q ^ 2) • LinearMap.id) ?_
    (fun q m => m.bind fun l => some (-(2 * q * (q ^ 2 + 1)) / (4 * q ^ 2 + l * l))) ?_ ?_ ⟨1 / 4, 3, 2, 3, 2⟩
    ⟨by norm_num, by norm_num, by norm_num, by norm_num, by norm_num⟩ ⟨1 / 1000, 1 / 1000, 0⟩ (by norm_num) (by norm_num)
    (fresh (1 / 2, 1 / 2) ⟨Base.start (.fin 0), none, 0, ⟨0, 0, 0, 0, 0⟩⟩ 0)
  · exact h
  · intro q d
    simp only [LinearMap.smul_apply, LinearMap.id_apply, inner_smul_left]
    have : 0 ≤ inner ℝ d d := real_inner_self_nonneg
    simp only [map_mul, map_pow, conj_trivial]
    positivity
  · intro q l d hl h
    have h1 : -(2 * q * (q ^ 2 + 1)) / (4 * q ^ 2 + l * l) = d := Option.some.inj h
    have h2 : 0 < 4 * q ^ 2 + l * l := by positivity
    have h3 : -(2 * q * (q ^ 2 + 1)) = d * (4 * q ^ 2 + l * l) := by rw [← h1, div_mul_cancel₀ _ h2.ne']
    show (4 * q ^ 2) * d + (l * l) * d = -(2 * q * (q ^ 2 + 1))
    rw [h3]; ring
  · intro q l _ h
    cases h

/-- The hypotheses for the line search are met: residual `q^3 + q + 2`, whose derivative has no zero. -/
example : ∃ (N : Nat) (res : Obj ℝ (ℝ × ℝ) ℝ (LSP ℝ)),
    (∀ M : Int, N ≤ M → optimize (ls (additive (fun q : ℝ => (q ^ 3 + q + 2) ^ 2) (fun d => |d|)
        (fun q _ => some (-((q ^ 3 + q + 2) / (3 * q ^ 2 + 1)))) fun _ _ _ => 0)) ⟨1 / 1000, 1 / 1000, M⟩
        (fresh (0, 0) ⟨Base.start (.fin 0), ⟨1 / 2, true, 1⟩⟩ 0) = .ok res) ∧
    res.linearSolverFailure = false ∧ (res.conv = .dx ∨ res.conv = .dObjective) ∧
    res.jFinal = .fin ((res.x.1 ^ 3 + res.x.1 + 2) ^ 2) ∧ (res.x.1 ^ 3 + res.x.1 + 2) ^ 2 ≤ (((0 : ℝ) ^ 3 + 0 + 2) ^ 2 : ℝ) :=
  C126_line_search_partial (V := ℝ) (fun q : ℝ => (q ^ 3 + q + 2) ^ 2) (fun d => |d|) (fun q => by positivity) (fun d => le_refl _)
    (fun q _ => some (-((q ^ 3 + q + 2) / (3 * q ^ 2 + 1)))) (fun _ _ _ => 0) (fun q h => by cases h) ⟨1 / 1000, 1 / 1000, 0⟩
    (by norm_num) (by norm_num) (fresh (0, 0) ⟨Base.start (.fin 0), ⟨1 / 2, true, 1⟩⟩ 0) (1 / 2) true
    (by unfold LS.new; rw [if_pos (by norm_num)]; rfl)

/-- A run with a failed solve, for `C126_failed_solve`. -/
example : ∃ s s', Reach (gn failEnv) ⟨1, 1, 5⟩ (fresh (10, 10) (Base.start (.fin 0)) 0) s ∧ running ⟨1, 1, 5⟩ s = true ∧
    iter (gn failEnv) s = .ok s' ∧ (s.lsf = true ∧ s'.failed = 3) :=
  reach_check 2 _ (by decide +kernel)

end Verif.Policy
