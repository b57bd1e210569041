import Verif.Motion.Props
import Verif.ExprTerm.Props

/-! C108 with C100: a step that solves the normal equations, handed to `update`, decreases the cost. -/
namespace Verif.Motion
open Verif.Quat (Q4)
open Verif.Expr (Var Store Table Moves)
open Verif.ExprTerm
open Matrix Filter Topology

variable {debug : Bool} {num : Var → Nat} {tbl : Table}

/-- **C108, decrease.** A problem of expression error terms after any number of steps; a step that solves its normal equations with any non-negative damping.
If the errors change along the step, or there is damping where the step is not zero, then handing a small enough positive multiple of the step to `update` of the
design variables makes the weighted cost strictly smaller. -/
theorem C108_decrease {w₀ w : World} (hw₀ : w₀.Ok) (hreach : Reach debug w₀ w) {δ : (v : Var) → v.Idx → ℝ} {w' : ℝ → World}
    (h : ∀ s, w.step debug s δ (w' s)) (jenv : Jacobian.Env ℝ)
    (hd : ∀ v, jenv.dim (num v) = dimV v) (dvs : List Nat) (hix : Hessian.Indexed jenv dvs) (hnd : dvs.Nodup) (hdvs : ∀ d, jenv.active d = true ↔ d ∈ dvs)
    (η : Nat → Nat → ℝ) (hη : Step num jenv true η δ) (sq : List ETerm) (hsq : ∀ T ∈ sq, T.Ok ∧ Ready tbl (fun s => (w' s).env) 0 T.body)
    (debug' : Bool) (align : Nat) (hal : 0 < align) (useM : Bool) (σ : Store) (s : Hessian.Sys ℝ) (hs : Hessian.SysOk (Hessian.dvLayout jenv dvs) s)
    (s' : Hessian.Sys ℝ) (hs' : normalEquations invS num debug' align jenv useM w.env sq σ s = .ok s') (damp : Nat → Nat → ℝ) (hdamp : ∀ r a, 0 ≤ damp r a)
    (hsol : ∀ r, r < dvs.length → ∀ a, a < jenv.dim (dvs.getD r 0) →
      (∑ k ∈ Finset.range dvs.length, ∑ b ∈ Finset.range (jenv.dim (dvs.getD k 0)),
        symm (Hessian.dvLayout jenv dvs) s'.H.toDense r a k b * η (dvs.getD k 0) b) + damp r a * η (dvs.getD r 0) a =
      s'.rhs ((Hessian.dvLayout jenv dvs).base r + a))
    (hpos : 0 < (sq.map fun T => weightAt T useM (errorVec w.env T.body) * squared T.sqrtInvR T.body.dim (rate (fun s => (w' s).env) 0 T.body)).sum +
        ∑ r ∈ Finset.range dvs.length, ∑ a ∈ Finset.range (jenv.dim (dvs.getD r 0)), damp r a * η (dvs.getD r 0) a ^ 2) :
    ∃ ε > 0, ∀ x : ℝ, 0 < x → x < ε →
      (sq.map fun T => weightAt T useM (errorVec w.env T.body) * squared T.sqrtInvR T.body.dim (errorVec (w' x).env T.body)).sum <
      (sq.map fun T => weightAt T useM (errorVec w.env T.body) * squared T.sqrtInvR T.body.dim (errorVec w.env T.body)).sum := by
  have hw := reach_ok hw₀ hreach
  have e0 := step_zero hw (h 0)
  obtain ⟨D, h1, h2, -⟩ := C100_descent (step_moves hw h) jenv hd dvs hix hnd hdvs η hη sq hsq debug' align hal useM σ s hs s'
    (by simpa only [e0] using hs') damp hdamp hsol
  simp only [e0] at h1 h2
  have hD : D < 0 := by rw [h2]; linarith
  have ht := (hasDerivAt_iff_tendsto_slope.1 h1).eventually (Iio_mem_nhds hD)
  rw [eventually_nhdsWithin_iff, Metric.eventually_nhds_iff] at ht
  obtain ⟨ε, hε, hb⟩ := ht
  refine ⟨ε, hε, fun x hx hxe => ?_⟩
  have := hb (by rw [Real.dist_eq, sub_zero, abs_of_pos hx]; exact hxe) (ne_of_gt hx)
  simp only [slope_def_field, e0, sub_zero] at this
  rw [div_neg_iff] at this
  rcases this with ⟨-, h4⟩ | ⟨h3, -⟩
  · linarith
  · linarith

/-- Point 0 starts at `(1, 1, 0)`. -/
noncomputable def exStart : World := { exWorld with pt := fun _ => DesignVar.make _ (DesignVar.unvec ![1, 1, 0]) }

theorem exStart_ok : exStart.Ok := { exWorld_ok with pt := fun _ => rfl }

/-- The hypotheses hold for the distance of a point from `(2, 1, 0)` and its Gauss-Newton step. -/
example : ∃ w' : ℝ → World, (∀ s, exStart.step true s exDir (w' s)) ∧ ∃ ε > 0, ∀ x : ℝ, 0 < x → x < ε →
    ([exGoal].map fun T => weightAt T true (errorVec exStart.env T.body) * squared T.sqrtInvR T.body.dim (errorVec (w' x).env T.body)).sum <
    ([exGoal].map fun T => weightAt T true (errorVec exStart.env T.body) * squared T.sqrtInvR T.body.dim (errorVec exStart.env T.body)).sum := by
  choose w' h using fun s => step_exists (debug := true) exStart s exDir
  have hval : ∀ s, exGoal.body.value (w' s).env = .ok (vec (![1, 1, 0] + s • ![1, 0, 0] - ![2, 1, 0])) := fun s => by
    rw [step_env (h s)]
    rfl
  have herr : ∀ s, errorVec (w' s).env exGoal.body = vec (![1, 1, 0] + s • ![1, 0, 0] - ![2, 1, 0]) := fun s => by
    unfold errorVec
    rw [hval]
  have hrate : rate (fun s => (w' s).env) 0 exGoal.body 0 = 1 := by
    unfold rate
    refine HasDerivAt.deriv ?_
    simp only [herr]
    have : HasDerivAt (fun s : ℝ => 1 + s * 1 - 2) 1 0 := by
      simpa using ((hasDerivAt_id (0 : ℝ)).const_add 1).sub_const 2
    refine this.congr_of_eventuallyEq (Filter.Eventually.of_forall fun s => ?_)
    simp [vec]
  obtain ⟨s', h1, h2⟩ := exGoal_solved (invS := invS)
  refine ⟨w', h, C108_decrease (tbl := Expr.exTbl) exStart_ok .start h exEnv addr_dim exDvs exIndexed exNodup exActive exStep (exStep_ok true rfl) [exGoal]
    ?_ true 2 (by norm_num) true (fun _ => none) _ exSys s' ?_ (fun _ _ => 0) (fun _ _ => le_refl _) h2 ?_⟩
  · simp only [List.mem_singleton, forall_eq]
    exact ⟨exGoal_ok, by simp [Body.Cons, exGoal, Expr.Cons], by simp [Body.Smooth, exGoal, Expr.Smooth], _, hval 0⟩
  · rw [← h1]
    rfl
  · have hw : ∀ x, weightAt exGoal true x = 1 := fun x => by simp [weightAt, exGoal]
    simp only [List.map_cons, List.map_nil, List.sum_cons, List.sum_nil, hw, zero_mul, Finset.sum_const_zero, add_zero, one_mul]
    have : squared exGoal.sqrtInvR exGoal.body.dim (rate (fun s => (w' s).env) 0 exGoal.body) =
        rate (fun s => (w' s).env) 0 exGoal.body 0 ^ 2 + rate (fun s => (w' s).env) 0 exGoal.body 1 ^ 2 + rate (fun s => (w' s).env) 0 exGoal.body 2 ^ 2 := by
      simp [squared, exGoal, Body.dim, Finset.sum_range_succ]
    rw [this, hrate]
    positivity

end Verif.Motion
