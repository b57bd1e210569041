import Verif.BFGS.Model
import Verif.LineSearch.Zoom
import Mathlib.Tactic.Ring
import Mathlib.Tactic.Linarith
import Mathlib.Algebra.Order.BigOperators.Ring.Finset

/-!
C36 and C78: the BFGS optimizer.
-/
namespace Verif.BFGS
open LineSearch Matrix

section algebra
variable {K : Type} [LinearOrder K] [Field K] [IsStrictOrderedRing K] {n : Nat}

/-- Symmetric and positive definite. -/
def SPD (B : Matrix (Fin n) (Fin n) K) : Prop := Bᵀ = B ∧ ∀ v : Fin n → K, v ≠ 0 → 0 < v ⬝ᵥ (B *ᵥ v)

theorem spd_one : SPD (1 : Matrix (Fin n) (Fin n) K) := by
  refine ⟨transpose_one, fun v hv => ?_⟩
  rw [one_mulVec]
  have h0 : 0 ≤ v ⬝ᵥ v := Finset.sum_nonneg fun i _ => mul_self_nonneg (v i)
  refine lt_of_le_of_ne h0 fun h => hv ?_
  funext i
  have := (Finset.sum_eq_zero_iff_of_nonneg (fun i _ => mul_self_nonneg (v i))).mp h.symm i (Finset.mem_univ i)
  exact mul_self_eq_zero.mp this

theorem rho_pos {s y : Fin n → K} (h : 0 ≤ y ⬝ᵥ s) : 0 < rho s y := by
  unfold rho
  split_ifs with h0
  · norm_num
  · exact one_div_pos.mpr (lt_of_le_of_ne h (Ne.symm h0))

/-- The transposed factor applied to a vector. -/
theorem factor_mulVec (r : K) (s y v : Fin n → K) : (1 - r • vecMulVec s y)ᵀ *ᵥ v = v - (r * (s ⬝ᵥ v)) • y := by
  rw [transpose_sub, transpose_one, transpose_smul, transpose_vecMulVec, sub_mulVec, one_mulVec, smul_mulVec, vecMulVec_mulVec]
  congr 1
  funext i
  simp only [Pi.smul_apply, MulOpposite.smul_eq_mul_unop, MulOpposite.unop_op, smul_eq_mul]
  ring

theorem quad_form (B : Matrix (Fin n) (Fin n) K) (s y v : Fin n → K) :
    v ⬝ᵥ (update B s y *ᵥ v) =
      (v - (rho s y * (s ⬝ᵥ v)) • y) ⬝ᵥ (B *ᵥ (v - (rho s y * (s ⬝ᵥ v)) • y)) + rho s y * (s ⬝ᵥ v) ^ 2 := by
  unfold update
  dsimp only
  rw [add_mulVec, dotProduct_add, ← mulVec_mulVec, ← mulVec_mulVec, factor_mulVec, dotProduct_mulVec, ← mulVec_transpose, factor_mulVec,
    smul_mulVec, vecMulVec_mulVec]
  congr 1
  have : rho s y • MulOpposite.op (s ⬝ᵥ v) • s = (rho s y * (s ⬝ᵥ v)) • s := by
    funext i
    simp only [Pi.smul_apply, MulOpposite.smul_eq_mul_unop, MulOpposite.unop_op, smul_eq_mul]
    ring
  rw [this, dotProduct_smul, dotProduct_comm v s, smul_eq_mul]
  ring

/-- **C36, update.** If the curvature `y·s` is not negative (in particular where the division by it is replaced by the constant 1000), the new inverse Hessian is
symmetric positive definite whenever the old one is. -/
theorem C36_update_spd (B : Matrix (Fin n) (Fin n) K) (s y : Fin n → K) (hB : SPD B) (h : 0 ≤ y ⬝ᵥ s) : SPD (update B s y) := by
  have hr := rho_pos h
  constructor
  · unfold update
    simp only [transpose_add, transpose_mul, transpose_transpose, transpose_smul, transpose_vecMulVec, hB.1, Matrix.mul_assoc]
  · intro v hv
    rw [quad_form]
    by_cases hw : v - (rho s y * (s ⬝ᵥ v)) • y = 0
    · rw [hw, zero_dotProduct, zero_add]
      have hsv : s ⬝ᵥ v ≠ 0 := by
        intro h0
        rw [h0, mul_zero, zero_smul, sub_zero] at hw
        exact hv hw
      exact mul_pos hr (by positivity)
    · have h1 := hB.2 _ hw
      have h2 : 0 ≤ rho s y * (s ⬝ᵥ v) ^ 2 := mul_nonneg hr.le (sq_nonneg _)
      linarith

/-- **C36, secant equation.** Unless the curvature is zero the new inverse Hessian maps the change of the gradient to the step. -/
theorem C36_secant (B : Matrix (Fin n) (Fin n) K) (s y : Fin n → K) (h : y ⬝ᵥ s ≠ 0) : update B s y *ᵥ y = s := by
  have hr : rho s y * (s ⬝ᵥ y) = 1 := by
    unfold rho
    rw [if_neg h, dotProduct_comm s y, one_div_mul_cancel h]
  unfold update
  dsimp only
  rw [add_mulVec, ← mulVec_mulVec, ← mulVec_mulVec, factor_mulVec, hr, one_smul, sub_self, mulVec_zero, mulVec_zero, zero_add,
    smul_mulVec, vecMulVec_mulVec]
  funext i
  simp only [Pi.smul_apply, MulOpposite.smul_eq_mul_unop, MulOpposite.unop_op, smul_eq_mul]
  rw [mul_comm (s i), ← mul_assoc, hr, one_mul]

/-- **C36, sequences of updates.** After any sequence of updates with positive curvature the inverse Hessian is symmetric positive definite, it satisfies the secant equation of the last
update, and the resulting direction is a descent direction for every nonzero gradient. -/
theorem C36_updates (us : List ((Fin n → K) × (Fin n → K))) (hus : ∀ u ∈ us, 0 < u.2 ⬝ᵥ u.1) :
    let B := us.foldl (fun B u => update B u.1 u.2) 1
    SPD B ∧ (∀ u, us.getLast? = some u → B *ᵥ u.2 = u.1) ∧ ∀ g : Fin n → K, g ≠ 0 → g ⬝ᵥ -(B *ᵥ g) < 0 := by
  intro B
  have key : SPD B := by
    have : ∀ (us : List ((Fin n → K) × (Fin n → K))) (B : Matrix (Fin n) (Fin n) K), SPD B → (∀ u ∈ us, 0 < u.2 ⬝ᵥ u.1) →
        SPD (us.foldl (fun B u => update B u.1 u.2) B) := by
      intro us
      induction us with
      | nil => intro B hB _; exact hB
      | cons u us ih =>
        intro B hB h
        exact ih _ (C36_update_spd B u.1 u.2 hB (h u (by simp)).le) fun w hw => h w (by simp [hw])
    exact this us 1 spd_one hus
  refine ⟨key, ?_, fun g hg => ?_⟩
  · intro u hu
    obtain ⟨l, rfl⟩ := List.getLast?_eq_some_iff.mp hu
    show List.foldl _ _ (l ++ [u]) *ᵥ u.2 = u.1
    rw [List.foldl_append]
    exact C36_secant _ _ _ (hus u (by simp)).ne'
  · rw [dotProduct_neg]
    have := key.2 g hg
    linarith

/-- Two updates in the plane with positive curvature. -/
example : ∀ u ∈ [((![1, 0] : Fin 2 → ℚ), (![2, 1] : Fin 2 → ℚ)), (![1, 1], ![1, 3])], 0 < u.2 ⬝ᵥ u.1 := by decide +kernel

/-- **Why the curvature must not be negative.** One update with `y·s = -1` of the identity gives a matrix that is not positive definite. -/
theorem C36_negative_curvature_counterexample : ∃ s y : Fin 1 → ℚ, y ⬝ᵥ s < 0 ∧ ¬ SPD (update 1 s y) := by
  refine ⟨![1], ![-1], by decide +kernel, fun h => ?_⟩
  have h1 := h.2 ![1] (by decide +kernel)
  revert h1
  decide +kernel

end algebra

section run
variable {K : Type} [LinearOrder K] [Field K] [IsStrictOrderedRing K] [FloatLike.Sq K] {X : Type} {n : Nat}

theorem le_zero_iff {a : K} : FloatLike.le a (LineSearch.zero : K) = true ↔ a ≤ 0 := by
  show decide (a ≤ LineSearch.zero) = true ↔ _
  rw [zero_exact]; simp

/-- **C36, direction.** Whatever the inverse Hessian has become, choosing the direction does not throw, and the direction set never points uphill; with a positive
definite inverse Hessian and a nonzero gradient the inverse Hessian is kept and the direction points strictly downhill. -/
theorem C36_direction (E : Env K X n) (s : State K X n) (hg : s.g = s.ls.grad) :
    ∃ s' p, direction E s = .ok (s', p) ∧ s.g ⬝ᵥ p ≤ 0 ∧ s'.ls.dir = some p ∧ s'.ls.x = s.ls.x ∧
      (SPD s.B → s'.B = s.B ∧ p = -(s.B *ᵥ s.g) ∧ (s.g ≠ 0 → s.g ⬝ᵥ p < 0)) := by
  unfold direction
  dsimp only
  by_cases h : s.g ⬝ᵥ -(s.B *ᵥ s.g) ≤ 0
  · have h1 : setSearchDirection E.ls s.ls (-(s.B *ᵥ s.g)) =
        ({ s.ls with step := LineSearch.zero, dir := some (-(s.B *ᵥ s.g)), derr := s.ls.grad ⬝ᵥ -(s.B *ᵥ s.g), derrOut := false }, .ok ()) := by
      unfold setSearchDirection
      dsimp only [Env.ls]
      have hn : FloatLike.le (s.ls.grad ⬝ᵥ -(s.B *ᵥ s.g)) (LineSearch.zero : K) = true := by
        rw [le_zero_iff, ← hg]; exact h
      rw [if_pos hn]
    rw [h1]
    refine ⟨_, _, rfl, h, rfl, rfl, fun hB => ⟨rfl, rfl, fun hne => ?_⟩⟩
    rw [dotProduct_neg]
    have := hB.2 _ hne
    linarith
  · have h1 : setSearchDirection E.ls s.ls (-(s.B *ᵥ s.g)) =
        ({ s.ls with step := LineSearch.zero, dir := some (-(s.B *ᵥ s.g)), derr := s.ls.grad ⬝ᵥ -(s.B *ᵥ s.g), derrOut := false }, .exc) := by
      unfold setSearchDirection
      dsimp only [Env.ls]
      have hn : ¬ FloatLike.le (s.ls.grad ⬝ᵥ -(s.B *ᵥ s.g)) (LineSearch.zero : K) = true := by
        rw [le_zero_iff, ← hg]; exact h
      rw [if_neg hn]
    rw [h1]
    have h0 : s.g ⬝ᵥ -((1 : Matrix (Fin n) (Fin n) K) *ᵥ s.g) ≤ 0 := by
      rw [one_mulVec, dotProduct_neg, neg_nonpos]
      exact Finset.sum_nonneg fun i _ => mul_self_nonneg (s.g i)
    dsimp only
    have h2 : ∀ l : LS K X (Fin n → K), l.grad = s.g → setSearchDirection E.ls l (-((1 : Matrix (Fin n) (Fin n) K) *ᵥ s.g)) =
        ({ l with step := LineSearch.zero, dir := some (-((1 : Matrix (Fin n) (Fin n) K) *ᵥ s.g)), derr := l.grad ⬝ᵥ -((1 : Matrix (Fin n) (Fin n) K) *ᵥ s.g), derrOut := false }, .ok ()) := by
      intro l hl
      unfold setSearchDirection
      dsimp only [Env.ls]
      rw [if_pos (le_zero_iff.mpr (hl ▸ h0))]
    rw [h2 { s.ls with step := LineSearch.zero, dir := some (-(s.B *ᵥ s.g)), derr := s.ls.grad ⬝ᵥ -(s.B *ᵥ s.g), derrOut := false } hg.symm]
    refine ⟨_, _, rfl, h0, rfl, rfl, fun hB => absurd ?_ h⟩
    rw [dotProduct_neg, neg_nonpos]
    by_cases hne : s.g = 0
    · rw [hne, zero_dotProduct]
    · exact (hB.2 _ hne).le

/-- The gradient and the error the optimizer holds belong to the design variables. -/
structure Fresh (E : Env K X n) (s : State K X n) : Prop where
  errOut : s.ls.errOut = false
  err : s.ls.err = E.err s.ls.x
  grad : s.ls.grad = E.grad s.ls.x
  g : s.g = s.ls.grad
  error : s.error = s.ls.err

/-- What `direction` leaves. -/
theorem direction_current {E : Env K X n} {s s' : State K X n} {p : Fin n → K} (hs : Fresh E s) (h : direction E s = .ok (s', p)) :
    Current E.ls p s'.ls ∧ s'.ls.step = 0 ∧ s'.ls.x = s.ls.x ∧ s'.g = s.g ∧ s'.error = s.error ∧ s'.iters = s.iters := by
  have hcur : ∀ (l : LS K X (Fin n → K)) (p : Fin n → K) (u : Unit) (l' : LS K X (Fin n → K)) (r : Res Unit), l.errOut = false → l.err = E.err l.x →
      l.grad = E.grad l.x → setSearchDirection E.ls l p = (l', r) →
      Current E.ls p l' ∧ l'.step = 0 ∧ l'.x = l.x ∧ l'.errOut = l.errOut ∧ l'.err = l.err ∧ l'.grad = l.grad := by
    intro l p _ l' r h1 h2 h3 h4
    unfold setSearchDirection at h4
    simp only [Prod.mk.injEq] at h4
    obtain ⟨rfl, -⟩ := h4
    exact ⟨⟨h1, rfl, rfl, h2, h3, by rw [h3]; rfl⟩, zero_exact, rfl, rfl, rfl, rfl⟩
  unfold direction at h
  dsimp only at h
  split at h
  · rename_i l u h1
    obtain ⟨a, b, c, -⟩ := hcur _ _ u _ _ hs.errOut hs.err hs.grad h1
    cases h
    exact ⟨a, b, c, rfl, rfl, rfl⟩
  · cases h
  · rename_i l h1
    obtain ⟨-, -, c, d, e, f⟩ := hcur _ _ () _ _ hs.errOut hs.err hs.grad h1
    split at h
    · rename_i l1 u h2
      obtain ⟨a', b', c', -⟩ := hcur _ _ u _ _ (d.trans hs.errOut) (by rw [e, c]; exact hs.err) (by rw [f, c]; exact hs.grad) h2
      cases h
      exact ⟨a', b', c'.trans c, rfl, rfl, rfl⟩
    · cases h
    · cases h

/-- A search along a direction with derivative zero returns at once or throws. -/
theorem wolfe12_flat {E : LineSearch.Env K X (Fin n → K)} {o : Opt K} {d : Fin n → K} {s s' : LS K X (Fin n → K)} {b : Bool} (hc : Current E d s) (h0 : s.derr = 0)
    (h : wolfe12 E o s = (s', .ok b)) : b = true ∧ s' = { s with errOld := s.err } := by
  have hz : FloatLike.eq s.derr (LineSearch.zero : K) = true := by
    show decide (s.derr = LineSearch.zero) = true
    rw [h0, zero_exact]; simp
  have key : ∀ l c, wolfe1 E o s = (l, .ok c) → c = true ∧ l = { s with errOld := s.err } := by
    intro l c h1
    rcases wolfe1_cases (E := E) (o := o) hc.dir with h2 | ⟨-, -, h2⟩
    · rw [h2] at h1; cases h1
    · rw [h2] at h1
      unfold body1 at h1
      rw [if_pos hz] at h1
      split_ifs at h1
      · cases h1
      · cases h1; exact ⟨rfl, rfl⟩
  unfold wolfe12 at h
  split at h
  · rename_i s1 h1
    exact absurd (key _ _ h1).1 (by simp)
  · exact key _ _ h

theorem wolfe12_errOut {E : LineSearch.Env K X (Fin n → K)} {o : Opt K} {d : Fin n → K} {s s' : LS K X (Fin n → K)} {r : Res Bool} (hc : Current E d s)
    (h : wolfe12 E o s = (s', r)) : s'.errOut = false ∧ s'.err = E.err s'.x := by
  unfold wolfe12 at h
  split at h
  · rename_i s1 hw
    have hc1 := wolfe1_current hc hw
    have := wolfe2_spec hsub_exact (s := restore s s1) ⟨hc1.dir, fun _ => hc.err, fun _ => hc.derr⟩ hc1.errOut rfl h
    exact ⟨this.2.1, this.1.err this.2.1⟩
  · have := wolfe1_current hc h
    exact ⟨this.errOut, this.err⟩

/-- A successful search from a fresh state. -/
theorem search_spec (hr : Root K) {E : Env K X n} {o : Opt K} (ho : o.check = true) {p : Fin n → K} {l l' : LS K X (Fin n → K)} (hc : Current E.ls p l) (hst : l.step = 0)
    (hp : E.grad l.x ⬝ᵥ p ≤ 0) (h : wolfe12 E.ls o l = (l', .ok true)) :
    l'.grad = E.grad l'.x ∧ E.err l'.x ≤ E.err l.x ∧ 0 ≤ l'.step ∧ (o.c2 ≤ 1 → 0 ≤ (l'.grad - l.grad) ⬝ᵥ (l'.step • p)) ∧
      (o.c2 < 1 → 0 < l'.step → E.grad l.x ⬝ᵥ p < 0 → 0 < (l'.grad - l.grad) ⬝ᵥ (l'.step • p)) := by
  obtain ⟨⟨-, -, g⟩, -⟩ := C37_wolfe12_curvature hsub_exact E.ls o p l l' hc h
  have hstep : 0 ≤ l'.step := by
    have := (C77_step_nonneg hr E.ls o ho p l hc.dir hst (hc.derr ▸ hp)).2.2
    rwa [h] at this
  have hg : l'.grad = E.grad l'.x := g
  have hg0 : l.grad = E.grad l.x := hc.grad
  rcases eq_or_lt_of_le hp with h0 | h0
  · obtain ⟨-, rfl⟩ := wolfe12_flat hc (hc.derr.trans h0) h
    refine ⟨hg, le_rfl, hstep, fun _ => ?_, fun _ _ h1 => absurd h0 h1.ne⟩
    show 0 ≤ (l.grad - l.grad) ⬝ᵥ (l.step • p)
    rw [sub_self, zero_dotProduct]
  · obtain ⟨a, b, -⟩ := C37_wolfe12_partial E.ls o ho p l l' hc hst h0 (Or.inr h)
    have a' : |E.grad l'.x ⬝ᵥ p| ≤ -o.c2 * (E.grad l.x ⬝ᵥ p) := a
    have a1 := (abs_le.mp a').1
    have e : (l'.grad - l.grad) ⬝ᵥ (l'.step • p) = l'.step * (E.grad l'.x ⬝ᵥ p - E.grad l.x ⬝ᵥ p) := by
      rw [dotProduct_smul, sub_dotProduct, hg, hg0, smul_eq_mul]
    refine ⟨hg, b, hstep, fun hc2 => ?_, fun hc2 hpos _ => ?_⟩
    · rw [e]
      refine mul_nonneg hstep ?_
      nlinarith
    · rw [e]
      refine mul_pos hpos ?_
      nlinarith

/-- One iteration from a fresh state. -/
theorem iteration_spec (hr : Root K) {E : Env K X n} {o : Opts K} (ho : o.ls.check = true) {s s' : State K X n} {b : Bool} (hs : Fresh E s)
    (h : iteration E o s = .ok (s', b)) :
    (s'.conv = .failure → b = false) ∧ s'.error = E.err s'.ls.x ∧
    (s'.conv ≠ .failure → E.err s'.ls.x ≤ E.err s.ls.x ∧ s'.ls.grad = E.grad s'.ls.x ∧ s'.gNorm = E.norm (E.grad s'.ls.x)) ∧
    (b = true → Fresh E s' ∧ (o.ls.c2 ≤ 1 → SPD s.B → SPD s'.B) ∧ s'.iters = s.iters + 1) ∧ (b = false → s'.conv ≠ .inProgress ∧ s'.iters = s.iters) := by
  obtain ⟨s1, p, hd, hp, -, -, hB⟩ := C36_direction E s hs.g
  obtain ⟨c1, c2, c3, c4, c5, c6⟩ := direction_current hs hd
  unfold iteration at h
  rw [hd] at h
  simp only [Res.bind] at h
  have hp' : E.grad s1.ls.x ⬝ᵥ p ≤ 0 := by
    rw [c3, ← hs.grad, ← hs.g]; exact hp
  split at h
  · cases h
  · cases h
  · rename_i l c hw
    obtain ⟨he1, he2⟩ := wolfe12_errOut c1 hw
    unfold getError at h
    rw [he1] at h
    simp only [Bool.false_eq_true, if_false, Res.bind] at h
    have fails : c = false → (afterSearch E o s1.ls.x { s1 with ls := l } c).conv = .failure := by
      rintro rfl; rfl
    have sp : c = true → _ := fun hc => search_spec hr ho c1 c2 hp' (hc ▸ hw)
    have ls_eq : (afterSearch E o s1.ls.x { s1 with ls := l } c).ls = l := rfl
    split_ifs at h with hstop
    · simp only [Res.ok.injEq, Prod.mk.injEq] at h
      obtain ⟨rfl, rfl⟩ := h
      refine ⟨fun _ => rfl, he2, fun hne => ?_, (fun hb => absurd hb (by simp)), fun _ => ⟨?_, c6⟩⟩
      · have hc : c = true := by
          cases c with
          | true => rfl
          | false => exact absurd (fails rfl) hne
        obtain ⟨g1, g2, -⟩ := sp hc
        refine ⟨?_, g1, ?_⟩
        · rw [ls_eq, ← c3]; exact g2
        · show E.norm l.grad = E.norm (E.grad l.x)
          rw [g1]
      · intro hin
        rw [hin] at hstop
        simp [Conv.success] at hstop
    · simp only [Res.ok.injEq, Prod.mk.injEq] at h
      obtain ⟨rfl, rfl⟩ := h
      have hc : c = true := by
        cases c with
        | true => rfl
        | false =>
          exfalso; apply hstop
          rw [fails rfl]; rfl
      obtain ⟨g1, g2, g3, g4, -⟩ := sp hc
      have hne : (finish (afterSearch E o s1.ls.x { s1 with ls := l } c) p).conv ≠ .failure := by
        intro hf
        apply hstop
        have : (afterSearch E o s1.ls.x { s1 with ls := l } c).conv = .failure := hf
        rw [this]; rfl
      refine ⟨fun hf => absurd hf hne, he2, fun _ => ⟨?_, g1, ?_⟩, fun _ => ⟨⟨he1, he2, g1, rfl, rfl⟩, fun hc2 hspd => ?_, ?_⟩, fun hb => absurd hb (by simp)⟩
      · show E.err l.x ≤ _
        rw [← c3]; exact g2
      · show E.norm l.grad = E.norm (E.grad l.x)
        rw [g1]
      · show SPD (update s1.B (l.step • p) (l.grad - s1.g))
        have hg : s1.g = s1.ls.grad := by
          rw [c4, hs.g, hs.grad, c1.grad, c3]; rfl
        rw [hg]
        refine C36_update_spd _ _ _ ?_ (g4 hc2)
        rw [(hB hspd).1]; exact hspd
      · show s1.iters + 1 = s.iters + 1
        rw [c6]

/-- The states at the start of an iteration of a run of `optimize` after `reset` (or a first `initialize`). -/
inductive Reach (E : Env K X n) (o : Opts K) (eo : K) (l : LS K X (Fin n → K)) : State K X n → Prop where
  | start : Reach E o eo l (start E o (reset E eo l))
  | next {s s' : State K X n} : Reach E o eo l s → iteration E o s = .ok (s', true) → Reach E o eo l s'

theorem start_fresh (E : Env K X n) (o : Opts K) (eo : K) (l : LS K X (Fin n → K)) : Fresh E (start E o (reset E eo l)) :=
  ⟨rfl, by simp [start, reset, updateStatus, initialize', updateError, updateGradient, Env.ls], rfl, rfl, rfl⟩

/-- **C36, runs.** In every run (exact arithmetic, line-search options accepted by `check()`, and `c2 ≤ 1`), at the start of every iteration the
inverse Hessian is symmetric positive definite, choosing the direction succeeds without resetting it, and the direction points strictly downhill
unless the gradient of the current design variables is zero. -/
theorem C36_run (hr : Root K) (E : Env K X n) (o : Opts K) (ho : o.ls.check = true) (hc2 : o.ls.c2 ≤ 1) (eo : K) (l : LS K X (Fin n → K)) (s : State K X n)
    (h : Reach E o eo l s) :
    SPD s.B ∧ ∃ s' p, direction E s = .ok (s', p) ∧ s'.B = s.B ∧ (E.grad s.ls.x ≠ 0 → E.grad s.ls.x ⬝ᵥ p < 0) := by
  have inv : Fresh E s ∧ SPD s.B := by
    induction h with
    | start => exact ⟨start_fresh E o eo l, spd_one⟩
    | next _ hi ih =>
      obtain ⟨-, -, -, a, -⟩ := iteration_spec hr ho ih.1 hi
      exact ⟨(a rfl).1, (a rfl).2.1 hc2 ih.2⟩
  refine ⟨inv.2, ?_⟩
  obtain ⟨s', p, hd, -, -, -, hB⟩ := C36_direction E s inv.1.g
  obtain ⟨h1, -, h3⟩ := hB inv.2
  refine ⟨s', p, hd, h1, ?_⟩
  rw [← inv.1.grad, ← inv.1.g]
  exact h3

theorem loop_spec (hr : Root K) {E : Env K X n} {o : Opts K} (ho : o.ls.check = true) : ∀ (k : Nat) (s s' : State K X n), Fresh E s →
    s.gNorm = E.norm (E.grad s.ls.x) → loop E o k s = .ok s' →
    s'.error = E.err s'.ls.x ∧ s'.iters ≤ s.iters + k ∧
    (s.conv ≠ .failure → s'.conv ≠ .failure → E.err s'.ls.x ≤ E.err s.ls.x ∧ s'.gNorm = E.norm (E.grad s'.ls.x)) := by
  intro k
  induction k with
  | zero =>
    intro s s' hs hn h
    simp only [loop, Res.ok.injEq] at h
    subst h
    exact ⟨hs.error.trans hs.err, le_rfl, fun _ _ => ⟨le_rfl, hn⟩⟩
  | succ k ih =>
    intro s s' hs hn h
    unfold loop at h
    cases hi : iteration E o s with
    | exc => rw [hi] at h; cases h
    | ub => rw [hi] at h; cases h
    | ok r =>
      obtain ⟨s1, b⟩ := r
      rw [hi] at h
      simp only [Res.bind] at h
      obtain ⟨a1, a2, a3, a4, a5⟩ := iteration_spec hr ho hs hi
      cases b with
      | false =>
        simp only [Bool.false_eq_true, if_false, Res.ok.injEq] at h
        subst h
        exact ⟨a2, by rw [(a5 rfl).2]; omega, fun _ hne => ⟨(a3 hne).1, (a3 hne).2.2⟩⟩
      | true =>
        simp only [if_true] at h
        have hne : s1.conv ≠ .failure := fun hf => absurd (a1 hf) (by simp)
        obtain ⟨b1, b2, b3⟩ := ih s1 s' (a4 rfl).1 (a3 hne).2.2 h
        refine ⟨b1, ?_, fun _ hne' => ⟨(b3 hne hne').1.trans (a3 hne).1, (b3 hne hne').2⟩⟩
        rw [(a4 rfl).2.2] at b2
        omega

/-- **C78.** However many passes are allowed: when `optimize()` returns after a `reset`, the reported error is the error of the design variables it leaves, at most the
allowed number of iterations were counted, and unless the status is FAILURE the cost has not increased and the reported gradient norm is that of the design variables it leaves. -/
theorem C78_optimize_partial (hr : Root K) (E : Env K X n) (o : Opts K) (ho : o.ls.check = true) (eo : K) (l : LS K X (Fin n → K)) (passes : Nat) (s' : State K X n)
    (h : optimize E o passes (reset E eo l) = .ok s') :
    s'.error = E.err s'.ls.x ∧ s'.iters ≤ passes ∧
    (s'.conv ≠ .failure → E.err s'.ls.x ≤ E.err l.x ∧ s'.gNorm = E.norm (E.grad s'.ls.x)) := by
  have hf := start_fresh E o eo l
  have hx : (start E o (reset E eo l)).ls.x = l.x := rfl
  have hconv : (start E o (reset E eo l)).conv ≠ .failure := by
    show (if true = true then convergence _ _ _ _ else Conv.failure) ≠ _
    rw [if_pos rfl]
    unfold convergence
    split_ifs <;> simp
  have hit : (start E o (reset E eo l)).iters = 0 := rfl
  unfold optimize at h
  split_ifs at h
  · simp only [Res.ok.injEq] at h
    subst h
    refine ⟨hf.error.trans hf.err, by rw [hit]; omega, fun _ => ⟨by rw [hx], rfl⟩⟩
  · obtain ⟨a, b, c⟩ := loop_spec hr ho passes _ _ hf rfl h
    rw [hit, Nat.zero_add] at b
    refine ⟨a, b, fun hne => ?_⟩
    have := c hconv hne
    rw [hx] at this
    exact this

theorem iteration_conv {E : Env K X n} {o : Opts K} {s s1 : State K X n} {b : Bool} (h : iteration E o s = .ok (s1, b)) :
    (b = true ↔ s1.conv = .inProgress) ∧ (s1.conv ≠ .failure → s1.conv = convergence o s1.gNorm s1.dErr s1.dX) := by
  unfold iteration at h
  cases hd : direction E s with
  | exc => rw [hd] at h; cases h
  | ub => rw [hd] at h; cases h
  | ok r =>
    rw [hd] at h
    simp only [Res.bind] at h
    split at h
    · cases h
    · cases h
    · rename_i l c hw
      cases hg : getError l with
      | exc => rw [hg] at h; cases h
      | ub => rw [hg] at h; cases h
      | ok e =>
        rw [hg] at h
        simp only at h
        have hc : (afterSearch E o r.1.ls.x { r.1 with ls := l } c).conv ≠ .failure →
            (afterSearch E o r.1.ls.x { r.1 with ls := l } c).conv = convergence o (afterSearch E o r.1.ls.x { r.1 with ls := l } c).gNorm
              (afterSearch E o r.1.ls.x { r.1 with ls := l } c).dErr (afterSearch E o r.1.ls.x { r.1 with ls := l } c).dX := by
          cases c with
          | false => exact fun h => absurd rfl h
          | true => exact fun _ => rfl
        split_ifs at h with hstop
        · simp only [Res.ok.injEq, Prod.mk.injEq] at h
          obtain ⟨rfl, rfl⟩ := h
          refine ⟨⟨fun h => absurd h (by simp), fun h => ?_⟩, hc⟩
          rw [h] at hstop
          exact absurd hstop (by decide)
        · simp only [Res.ok.injEq, Prod.mk.injEq] at h
          obtain ⟨rfl, rfl⟩ := h
          refine ⟨⟨fun _ => ?_, fun _ => rfl⟩, hc⟩
          show (afterSearch E o r.1.ls.x { r.1 with ls := l } c).conv = _
          revert hstop
          cases (afterSearch E o r.1.ls.x { r.1 with ls := l } c).conv <;> simp [Conv.success]

theorem loop_conv (hr : Root K) {E : Env K X n} {o : Opts K} (ho : o.ls.check = true) : ∀ (k : Nat) (s s' : State K X n), Fresh E s → s.conv = .inProgress →
    s.conv = convergence o s.gNorm s.dErr s.dX → loop E o k s = .ok s' →
    (s'.conv = .inProgress → s'.iters = s.iters + k) ∧ (s'.conv ≠ .inProgress → s'.iters < s.iters + k) ∧
      (s'.conv ≠ .failure → s'.conv = convergence o s'.gNorm s'.dErr s'.dX) := by
  intro k
  induction k with
  | zero =>
    intro s s' _ hc hs h
    simp only [loop, Res.ok.injEq] at h
    subst h
    exact ⟨fun _ => rfl, fun h => absurd hc h, fun _ => hs⟩
  | succ k ih =>
    intro s s' hf hc hs h
    unfold loop at h
    cases hi : iteration E o s with
    | exc => rw [hi] at h; cases h
    | ub => rw [hi] at h; cases h
    | ok r =>
      obtain ⟨s1, b⟩ := r
      rw [hi] at h
      simp only [Res.bind] at h
      obtain ⟨a1, a2⟩ := iteration_conv hi
      obtain ⟨-, -, -, a4, a5⟩ := iteration_spec hr ho hf hi
      cases b with
      | false =>
        simp only [Bool.false_eq_true, if_false, Res.ok.injEq] at h
        subst h
        refine ⟨fun h => absurd (a1.2 h) (by simp), fun _ => by rw [(a5 rfl).2]; omega, a2⟩
      | true =>
        simp only [if_true] at h
        have h1 := a1.1 rfl
        obtain ⟨b1, b2, b3⟩ := ih s1 s' (a4 rfl).1 h1 (a2 (by rw [h1]; simp)) h
        have h2 := (a4 rfl).2.2
        exact ⟨fun h => by rw [b1 h, h2]; omega, fun h => by have := b2 h; omega, b3⟩

/-- **C78, the status.** When `optimize()` returns after a `reset`: the status is IN_PROGRESS only if all allowed passes were made, every other status ends the loop before; a converged
status belongs to the threshold that is met, that of the gradient first; and unless the search failed a gradient below its threshold is reported as such. -/
theorem C78_status (hr : Root K) (E : Env K X n) (o : Opts K) (ho : o.ls.check = true) (eo : K) (l : LS K X (Fin n → K)) (passes : Nat) (s' : State K X n)
    (h : optimize E o passes (reset E eo l) = .ok s') :
    (s'.conv = .inProgress → s'.iters = passes) ∧ (s'.conv ≠ .inProgress → s'.iters < passes ∨ s'.iters = 0 ∧ s'.ls.x = l.x) ∧
    (s'.conv ≠ .failure → (s'.conv = .gradientNorm ↔ E.norm (E.grad s'.ls.x) < o.cGrad)) ∧
    (s'.conv = .dObjective → ∃ e, s'.dErr = some e ∧ |e| < o.cDerr) ∧ (s'.conv = .dX → ∃ e, s'.dX = some e ∧ e < o.cDx) := by
  have key : (s'.conv = .inProgress → s'.iters = passes) ∧ (s'.conv ≠ .inProgress → s'.iters < passes ∨ s'.iters = 0 ∧ s'.ls.x = l.x) ∧
      (s'.conv ≠ .failure → s'.conv = convergence o s'.gNorm s'.dErr s'.dX) := by
    have hit : (start E o (reset E eo l)).iters = 0 := rfl
    unfold optimize at h
    split_ifs at h with hs
    · simp only [Res.ok.injEq] at h
      subst h
      refine ⟨fun h => ?_, fun _ => .inr ⟨rfl, rfl⟩, fun _ => rfl⟩
      rw [h] at hs
      exact absurd hs (by decide)
    · have hin : (start E o (reset E eo l)).conv = .inProgress := by
        have hconv : (start E o (reset E eo l)).conv = convergence o (start E o (reset E eo l)).gNorm (start E o (reset E eo l)).dErr (start E o (reset E eo l)).dX := rfl
        have hne : (start E o (reset E eo l)).conv ≠ .failure := by
          rw [hconv]
          unfold convergence
          split_ifs <;> simp
        revert hs hne
        cases (start E o (reset E eo l)).conv <;> simp [Conv.success]
      obtain ⟨a, b, c⟩ := loop_conv hr ho passes _ _ (start_fresh E o eo l) hin rfl h
      rw [hit, Nat.zero_add] at a b
      exact ⟨a, fun h => .inl (b h), c⟩
  obtain ⟨k1, k2, k3⟩ := key
  refine ⟨k1, k2, fun hne => ?_, fun hd => ?_, fun hd => ?_⟩
  · rw [← ((C78_optimize_partial hr E o ho eo l passes s' h).2.2 hne).2, k3 hne]
    unfold convergence
    split_ifs <;> simp_all
  · have := k3 (by rw [hd]; simp)
    rw [hd] at this
    unfold convergence at this
    split_ifs at this with h1 h2
    obtain ⟨e, he, hlt⟩ := Option.any_eq_true _ _ |>.1 h2
    exact ⟨e, he, by simpa using hlt⟩
  · have := k3 (by rw [hd]; simp)
    rw [hd] at this
    unfold convergence at this
    split_ifs at this with h1 h2 h3
    obtain ⟨e, he, hlt⟩ := Option.any_eq_true _ _ |>.1 h3
    exact ⟨e, he, by simpa using hlt⟩

end run

/-! ### A concrete run over the reals -/
section concreteReal
open FloatLike

noncomputable local instance : Sq ℝ := ⟨Real.sqrt⟩
/-- `x²/2` with one parameter. -/
noncomputable def envR : Env ℝ ℝ 1 := ⟨fun x => x * x / 2, fun x => ![x], fun x t d => x + t * d 0, fun g => |g 0|, fun a b => |a - b|⟩
/-- A line search at 1 that has not been initialized. -/
noncomputable def freshR : LS ℝ ℝ (Fin 1 → ℝ) := ⟨1, none, ![0], 0, 0, 0, 0, true, true⟩
/-- Default line-search options; thresholds that are never met. -/
noncomputable def optsR : Opts ℝ := ⟨0, 0, 0, some 5, ⟨1/10000, 9/10, 50, 1/100000000, 1/100000000000000, 1, 30, 10, 10⟩⟩
theorem real_le_e (a b : ℝ) : FloatLike.le a b = decide (a ≤ b) := rfl
theorem real_lt_e (a b : ℝ) : FloatLike.lt a b = decide (a < b) := rfl
theorem real_eq_e (a b : ℝ) : FloatLike.eq a b = decide (a = b) := rfl
theorem real_nan_e (a : ℝ) : FloatLike.isnan a = false := rfl
theorem real_add_e (a b : ℝ) : FloatLike.add a b = a + b := rfl
theorem real_sub_e (a b : ℝ) : FloatLike.sub a b = a - b := rfl
theorem real_mul_e (a b : ℝ) : FloatLike.mul a b = a * b := rfl
theorem real_div_e (a b : ℝ) : FloatLike.div a b = a / b := rfl
theorem real_neg_e (a : ℝ) : FloatLike.neg a = -a := rfl
theorem real_abs_e (a : ℝ) : FloatLike.abs a = |a| := rfl
theorem real_lit_e (q : ℚ) : (FloatLike.lit q : ℝ) = (q.num : ℝ) / (q.den : ℝ) := rfl
theorem dirR : direction envR (start envR optsR (reset envR 0 freshR)) =
    .ok ({ start envR optsR (reset envR 0 freshR) with ls := ⟨1, some ![-1], ![1], 0, 1/2, 0, -1, false, false⟩ }, ![-1]) := by
  have h0 : (LineSearch.zero : ℝ) = 0 := zero_exact
  simp [direction, start, reset, updateStatus, initialize', setSearchDirection, LineSearch.updateError, updateGradient, Env.ls, envR, freshR, real_le_e, h0]
theorem firstR : firstStep optsR.ls optsR.ls.maxStep (⟨1, some ![-1], ![1], 0, 1/2, 0, -1, false, false⟩ : LS ℝ ℝ (Fin 1 → ℝ)) = 1 := by
  unfold firstStep
  have h2 : (101/100 : ℚ).num = 101 ∧ (101/100 : ℚ).den = 100 := by constructor <;> decide +kernel
  have h1 : lt (fmin optsR.ls.maxStep (FloatLike.div (FloatLike.mul (FloatLike.mul (lit (101/100)) (lit 2)) (FloatLike.sub (1/2) 0)) (-1))) (LineSearch.zero : ℝ) = true := by
    rw [zero_exact]
    simp only [fmin, real_lt_e, optsR, real_div_e, real_mul_e, real_sub_e, real_lit_e, h2]
    norm_num
  rw [if_pos (by rw [zero_exact]; simp [real_nan_e, real_eq_e])]
  simp only
  exact if_pos h1

/-- The search after its first call. -/
noncomputable def dcR : Dc ℝ := { Dc.new (1 : ℝ) (1/2) (-1) optsR.ls.minStep optsR.ls.maxStep optsR.ls.c1 optsR.ls.xtol optsR.ls.c2 with stage := 1 }
theorem searchR : body1 envR.ls optsR.ls ![-1] ⟨1, some ![-1], ![1], 0, 1/2, 0, -1, false, false⟩ = (⟨0, some ![-1], ![0], 1, 0, 1/2, 0, false, false⟩, .ok true) := by
  unfold body1
  simp only [firstR]
  rw [if_neg (by simp only [optsR, real_le_e]; norm_num), if_neg (by simp only [real_eq_e, zero_exact]; norm_num), if_neg (by simp only [real_lt_e, zero_exact]; norm_num)]
  have u1 : (Dc.new (1 : ℝ) (1/2) (-1) optsR.ls.minStep optsR.ls.maxStep optsR.ls.c1 optsR.ls.xtol optsR.ls.c2).update (1/2) (-1) =
      dcR := rfl
  have m1 : derivAt envR.ls ![-1] (LineSearch.updateError envR.ls (moveTo envR.ls ![-1] (⟨1, some ![-1], ![1], 0, 1/2, 1/2, -1, false, false⟩ : LS ℝ ℝ (Fin 1 → ℝ)) 1)) =
      ⟨0, some ![-1], ![0], 1, 0, 1/2, 0, false, false⟩ := by
    simp [moveTo, derivAt, LineSearch.updateError, real_eq_e, zero_exact, Env.ls, envR]
  have c1 : dcR.status' 0 0 = .converged := by
    unfold Dc.status'
    rw [if_pos]
    simp only [Dc.conv, Dc.ftest, dcR, Dc.new, optsR, real_le_e, Bool.and_eq_true, decide_eq_true_eq, real_abs_e]
    norm_num
  have u2 : (dcR.update 0 0).status = .converged := by
    unfold Dc.update
    rw [if_neg (by simp [dcR]), if_pos (by rw [c1]; simp)]
    exact c1
  have hn : optsR.ls.nWolfe1 = 28 + 1 + 1 := rfl
  rw [hn, loop1]
  simp only [u1]
  rw [show dcR.status = .running from rfl, show dcR.step = 1 from rfl]
  simp only [m1]
  rw [loop1]
  simp only [u2]
  rfl
/-- The first iteration on `x²/2` from 1 moves the design variable to the minimum. -/
theorem iterR : ∃ s', iteration envR optsR (start envR optsR (reset envR 0 freshR)) = .ok (s', true) ∧ s'.ls.x = 0 := by
  unfold iteration
  rw [dirR]
  have hw : wolfe12 envR.ls optsR.ls (⟨1, some ![-1], ![1], 0, 1/2, 0, -1, false, false⟩ : LS ℝ ℝ (Fin 1 → ℝ)) = (⟨0, some ![-1], ![0], 1, 0, 1/2, 0, false, false⟩, .ok true) := by
    unfold wolfe12
    have : wolfe1 envR.ls optsR.ls (⟨1, some ![-1], ![1], 0, 1/2, 0, -1, false, false⟩ : LS ℝ ℝ (Fin 1 → ℝ)) = body1 envR.ls optsR.ls ![-1] ⟨1, some ![-1], ![1], 0, 1/2, 0, -1, false, false⟩ := rfl
    rw [this, searchR]
  simp only [Res.bind, hw, getError]
  rw [if_neg (by simp), if_neg]
  · exact ⟨_, rfl, rfl⟩
  · simp [afterSearch, updateStatus, convergence, optsR, envR, Conv.success, start, reset, initialize', LineSearch.updateError, updateGradient, Env.ls, freshR]
    rw [if_neg (by norm_num), if_neg (by norm_num)]
    simp

/-- The hypotheses of `C36_run` and `C78_optimize_partial`: a true square root, accepted options, and a state reached after one iteration that moved the design variable from 1 to 0. -/
example : LineSearch.Root ℝ ∧ optsR.ls.check = true ∧ optsR.ls.c2 ≤ 1 ∧ ∃ s, Reach envR optsR 0 freshR s ∧ s.ls.x = 0 := by
  refine ⟨⟨fun _ h => Real.mul_self_sqrt h, fun r => Real.sqrt_nonneg r⟩, ?_, ?_, ?_⟩
  · simp only [Opt.check, zero_exact, FloatLike.le, FloatLike.lt, Bool.and_eq_true, decide_eq_true_eq, optsR]
    norm_num
  · norm_num [optsR]
  · obtain ⟨s', h1, h2⟩ := iterR
    exact ⟨s', .next .start h1, h2⟩

end concreteReal

/-! ### Concrete runs -/
section concrete

/-- A square root that the searches below never call on the way to their result. -/
local instance : FloatLike.Sq ℚ := ⟨fun _ => 0⟩

/-- A problem with one parameter. -/
def env (f f' : ℚ → ℚ) : Env ℚ ℚ 1 := ⟨f, fun x => ![f' x], fun x t d => x + t * d 0, fun g => |g 0|, fun a b => |a - b|⟩

/-- A line search that has not been initialized. -/
def fresh (x : ℚ) : LS ℚ ℚ (Fin 1 → ℚ) := ⟨x, none, ![0], 0, 0, 0, 0, true, true⟩

/-- Default options except for the numbers of iterations. -/
def opts (n1 n2 nz : Nat) : Opts ℚ := ⟨1/100, 0, 0, some 5, ⟨1/10000, 9/10, 50, 1/100000000, 1/100000000000000, 1, n1, n2, nz⟩⟩

/-- A run on `x²/2` from 1: the first iteration reaches the minimum and the optimizer stops with GRADIENT_NORM. -/
example : (opts 30 10 10).ls.check = true ∧ (opts 30 10 10).ls.c2 ≤ 1 ∧
    (match optimize (env (fun x => x * x / 2) (fun x => x)) (opts 30 10 10) 5 (reset (env (fun x => x * x / 2) (fun x => x)) 0 (fresh 1)) with
      | .ok s => decide (s.conv = .gradientNorm ∧ s.ls.x = 0 ∧ s.error = 0)
      | _ => false) = true := by decide +kernel

/-- **C78 fails for FAILURE.** With options that `check()` accepts, a run ends with FAILURE and leaves the design variable at 1/4 with cost 1, although it started at 0 with cost 0: the trial
step at which the line search gave up is not undone. -/
theorem C78_failure_counterexample :
    (opts 1 1 1).ls.check = true ∧
    (match optimize (env (fun x => -x + 26 * x^2 - 24 * x^3) (fun x => -1 + 52 * x - 72 * x^2)) (opts 1 1 1) 5
        (reset (env (fun x => -x + 26 * x^2 - 24 * x^3) (fun x => -1 + 52 * x - 72 * x^2)) (-1) (fresh 0)) with
      | .ok s => decide (s.conv = .failure ∧ s.ls.x = 1/4 ∧ s.error = 1)
      | _ => false) = true := by decide +kernel

end concrete
end Verif.BFGS
