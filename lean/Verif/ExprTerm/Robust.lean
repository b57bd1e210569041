import Verif.ExprTerm.Props
import Verif.MEstimator.Robust

/-!
C104: with M-estimators switched on, gradient and normal equations belong to the robust cost.
-/
namespace Verif.ExprTerm
open Verif.Expr (Node Store Contr Var Table Val Moves FreshId)
open Verif.MatrixStack (DMat)
open Verif.Jacobian.Spec (Event EnvOk ColumnsOk)
open Verif.MEstimator (IsLoss)
open Verif.Geo Filter Topology

variable {invS : V3 × ℝ → Matrix (Fin 3 ⊕ Unit) (Fin 3) ℝ} {num : Var → Nat} {tbl : Table}

/-- A squared term with the robust cost of its M-estimator and a symmetric root of the inverse covariance. -/
structure RobustTerm (T : ETerm) (ρ : ℝ → ℝ) : Prop where
  rows : T.sqrtInvR.rows = T.body.dim
  cols : T.sqrtInvR.cols = T.body.dim
  loss : IsLoss T.policy ρ
  symm : ∀ i j, i < T.body.dim → j < T.body.dim → T.sqrtInvR.e i j = T.sqrtInvR.e j i

theorem RobustTerm.ok {T : ETerm} {ρ : ℝ → ℝ} (h : RobustTerm T ρ) : T.Ok := ⟨h.rows, h.cols, h.loss.nonneg⟩

theorem RobustTerm.weight {T : ETerm} {ρ : ℝ → ℝ} (h : RobustTerm T ρ) (x : Nat → ℝ) : weightAt T true x = T.policy (squared T.sqrtInvR T.body.dim x) := by
  unfold weightAt squared
  rw [if_pos rfl]
  congr 1
  refine Finset.sum_congr rfl fun u hu => ?_
  congr 1
  exact Finset.sum_congr rfl fun v hv => by rw [h.symm u v (Finset.mem_range.1 hu) (Finset.mem_range.1 hv)]

theorem squared_nonneg (S : DMat ℝ) (n : Nat) (x : Nat → ℝ) : 0 ≤ squared S n x := Finset.sum_nonneg fun _ _ => sq_nonneg _

/-- The robust cost of the squared terms. -/
noncomputable def robust (ρ : ETerm → ℝ → ℝ) (sq : List ETerm) (env : Expr.Env) : ℝ :=
  (sq.map fun T => ρ T (squared T.sqrtInvR T.body.dim (errorVec env T.body))).sum

theorem squared_hasDerivAt {c : ℝ → Expr.Env} {t : ℝ} {δ : (v : Var) → v.Idx → ℝ} (hm : Moves invS c t δ) {jenv : Jacobian.Env ℝ} (hd : ∀ v, jenv.dim (num v) = dimV v)
    {scaled : Bool} {η : Nat → Nat → ℝ} (hη : Step num jenv scaled η δ) {b : Body} (hr : Ready tbl c t b) (S : DMat ℝ) :
    ∃ D, HasDerivAt (fun s => squared S b.dim (errorVec (c s) b)) D t := by
  obtain ⟨x, hx⟩ := hr.value
  obtain ⟨f, d, h1, h2, h3, -⟩ := body_good (num := num) hm hη.numbered hd hr.cons hr.smooth hx
  refine ⟨_, (squared_deriv S b.dim h3).congr_of_eventuallyEq (h1.mono fun s hs => ?_)⟩
  simp only [errorVec_eq hs]

/-- The cost with frozen weights and the robust cost change at the same rate. -/
theorem robust_of_frozen {c : ℝ → Expr.Env} {t : ℝ} {δ : (v : Var) → v.Idx → ℝ} (hm : Moves invS c t δ) {jenv : Jacobian.Env ℝ} (hd : ∀ v, jenv.dim (num v) = dimV v)
    {scaled : Bool} {η : Nat → Nat → ℝ} (hη : Step num jenv scaled η δ) (ρ : ETerm → ℝ → ℝ) (sq : List ETerm) (hsq : ∀ T ∈ sq, RobustTerm T (ρ T) ∧ Ready tbl c t T.body) :
    ∃ D, HasDerivAt (fun s => (sq.map fun T => weightAt T true (errorVec (c t) T.body) * squared T.sqrtInvR T.body.dim (errorVec (c s) T.body)).sum) D t ∧
      HasDerivAt (fun s => robust ρ sq (c s)) D t := by
  unfold robust
  induction sq with
  | nil => exact ⟨0, by simpa using hasDerivAt_const t (0 : ℝ), by simpa using hasDerivAt_const t (0 : ℝ)⟩
  | cons T sq ih =>
    obtain ⟨D, h1, h2⟩ := ih fun T hT => hsq T (List.mem_cons_of_mem _ hT)
    obtain ⟨hT, hr⟩ := hsq T (List.mem_cons_self ..)
    obtain ⟨d, hd⟩ := squared_hasDerivAt hm hd hη hr T.sqrtInvR
    simp only [List.map_cons, List.sum_cons]
    refine ⟨weightAt T true (errorVec (c t) T.body) * d + D, (hd.const_mul _).add h1, HasDerivAt.add ?_ h2⟩
    rw [hT.weight]
    exact HasDerivAt.comp t (hT.loss.deriv _ (squared_nonneg ..)) hd

/-- **C104, gradient.** With M-estimators switched on, for any terms that each use one of the estimators: the gradient of `computeGradient` times a
step is the derivative, along that step, of the non-squared costs plus the robust costs of the squared errors. -/
theorem C104_gradient {c : ℝ → Expr.Env} {t : ℝ} {δ : (v : Var) → v.Idx → ℝ} (hm : Moves invS c t δ) (jenv : Jacobian.Env ℝ) (hd : ∀ v, jenv.dim (num v) = dimV v)
    (henv : EnvOk jenv) (nCols : Nat) (hcol : ColumnsOk jenv nCols) (dvs : List Nat) (hnd : dvs.Nodup) (hdvs : ∀ d, jenv.active d = true ↔ d ∈ dvs)
    (scaled : Bool) (η : Nat → Nat → ℝ) (hη : Step num jenv scaled η δ) (ns : List NTerm) (hns : ∀ T ∈ ns, Ready tbl c t (.scalar T.e))
    (ρ : ETerm → ℝ → ℝ) (sq : List ETerm) (hsq : ∀ T ∈ sq, RobustTerm T (ρ T) ∧ Ready tbl c t T.body) (debug : Bool) (align : Nat) (hal : align < 2 ^ 16 ∧ 0 < align)
    (nThreads : Nat) (hth : 0 < nThreads) (useDense : Bool) (σ : Store) :
    ∃ k g, costAndGradient invS num debug align jenv dvs nCols nThreads true scaled useDense (c t) ns sq σ = .ok (k, g) ∧
      HasDerivAt (fun s => (ns.map fun T => T.w * scalarOf (c s) T.e).sum + robust ρ sq (c s))
        (dvs.map fun d => ∑ j ∈ Finset.range (jenv.dim d), g.e 0 ((jenv.columnBase d).toNat + j) * η d j).sum t := by
  obtain ⟨k, g, e, -, hg⟩ := C100_gradient hm jenv hd henv nCols hcol dvs hnd hdvs scaled η hη ns hns sq (fun T hT => ⟨(hsq T hT).1.ok, (hsq T hT).2⟩)
    debug align hal nThreads hth true useDense σ
  obtain ⟨D, h1, h2⟩ := robust_of_frozen hm hd hη ρ sq hsq
  refine ⟨k, g, e, ?_⟩
  have h3 := (hg.sub h1).add h2
  rw [sub_add_cancel] at h3
  refine h3.congr_of_eventuallyEq (Eventually.of_forall fun s => ?_)
  simp

/-- **C104, steps.** A step that solves the normal equations with the M-estimator weights, with any non-negative damping on the diagonal, does not
increase the robust cost to first order, and decreases it when a weighted error changes along it. -/
theorem C104_descent {c : ℝ → Expr.Env} {t : ℝ} {δ : (v : Var) → v.Idx → ℝ} (hm : Moves invS c t δ) (jenv : Jacobian.Env ℝ)
    (hd : ∀ v, jenv.dim (num v) = dimV v) (dvs : List Nat) (hix : Hessian.Indexed jenv dvs) (hnd : dvs.Nodup) (hdvs : ∀ d, jenv.active d = true ↔ d ∈ dvs)
    (η : Nat → Nat → ℝ) (hη : Step num jenv true η δ) (ρ : ETerm → ℝ → ℝ) (sq : List ETerm) (hsq : ∀ T ∈ sq, RobustTerm T (ρ T) ∧ Ready tbl c t T.body)
    (debug : Bool) (align : Nat) (hal : 0 < align) (σ : Store) (s : Hessian.Sys ℝ) (hs : Hessian.SysOk (Hessian.dvLayout jenv dvs) s)
    (s' : Hessian.Sys ℝ) (hs' : normalEquations invS num debug align jenv true (c t) sq σ s = .ok s') (damp : Nat → Nat → ℝ) (hdamp : ∀ r a, 0 ≤ damp r a)
    (hsol : ∀ r, r < dvs.length → ∀ a, a < jenv.dim (dvs.getD r 0) →
      (∑ k ∈ Finset.range dvs.length, ∑ b ∈ Finset.range (jenv.dim (dvs.getD k 0)),
        symm (Hessian.dvLayout jenv dvs) s'.H.toDense r a k b * η (dvs.getD k 0) b) + damp r a * η (dvs.getD r 0) a =
      s'.rhs ((Hessian.dvLayout jenv dvs).base r + a)) :
    ∃ D, HasDerivAt (fun s => robust ρ sq (c s)) D t ∧ D ≤ 0 ∧
      ((∃ T ∈ sq, 0 < T.policy (squared T.sqrtInvR T.body.dim (errorVec (c t) T.body)) ∧ 0 < squared T.sqrtInvR T.body.dim (rate c t T.body)) → D < 0) := by
  obtain ⟨D, h1, h2, h3⟩ := C100_descent hm jenv hd dvs hix hnd hdvs η hη sq (fun T hT => ⟨(hsq T hT).1.ok, (hsq T hT).2⟩) debug align hal true σ s hs s' hs' damp hdamp hsol
  obtain ⟨D', h4, h5⟩ := robust_of_frozen hm hd hη ρ sq hsq
  rw [h4.unique h1] at h5
  refine ⟨D, h5, h3, ?_⟩
  rintro ⟨T, hT, hw, hr⟩
  have h6 : 0 ≤ ∑ r ∈ Finset.range dvs.length, ∑ a ∈ Finset.range (jenv.dim (dvs.getD r 0)), damp r a * η (dvs.getD r 0) a ^ 2 :=
    Finset.sum_nonneg fun r _ => Finset.sum_nonneg fun a _ => mul_nonneg (hdamp r a) (sq_nonneg _)
  have h7 : weightAt T true (errorVec (c t) T.body) * squared T.sqrtInvR T.body.dim (rate c t T.body) ≤
      (sq.map fun T => weightAt T true (errorVec (c t) T.body) * squared T.sqrtInvR T.body.dim (rate c t T.body)).sum := by
    refine List.single_le_sum (fun y hy => ?_) _ (List.mem_map.2 ⟨T, hT, rfl⟩)
    obtain ⟨T', hT', rfl⟩ := List.mem_map.1 hy
    rw [(hsq T' hT').1.weight]
    exact mul_nonneg ((hsq T' hT').1.loss.nonneg _ (squared_nonneg ..)) (squared_nonneg ..)
  have h8 : 0 < weightAt T true (errorVec (c t) T.body) * squared T.sqrtInvR T.body.dim (rate c t T.body) := by
    rw [(hsq T hT).1.weight]
    exact mul_pos hw hr
  rw [h2]
  linarith

/-! ### Examples and counterexample -/
section Example

/-- The distance of a point from `(2, 1, 0)`, with a Cauchy estimator. -/
noncomputable def exCauchy : ETerm := { exGoal with policy := MEstimator.cauchy 3 }

theorem exCauchy_robust : RobustTerm exCauchy (MEstimator.cauchyLoss 3) :=
  ⟨rfl, rfl, MEstimator.C104_cauchy 3 (by norm_num), fun i j _ _ => by simp [exCauchy, exGoal, eq_comm]⟩

example := C104_gradient (invS := invS) (tbl := Expr.exTbl) (exMoves 1) exEnv addr_dim exIndexed.envOk 6 exColumns exDvs exNodup exActive true exStep
  (exStep_ok true rfl) [exN] (by simp [exN_ready]) (fun _ => MEstimator.cauchyLoss 3) [exCauchy, exCauchy]
  (by simpa using ⟨exCauchy_robust, exGoal_ready 1⟩) true 2 (by norm_num) 2 (by norm_num) true fun _ => none

/-- The distance of a point from `(2, 1, 0)`, with a Huber estimator. -/
noncomputable def exHuber : ETerm := { exGoal with policy := MEstimator.huber 2 }

theorem exHuber_robust : RobustTerm exHuber (MEstimator.huberLoss 2) :=
  ⟨rfl, rfl, MEstimator.C104_huber 2 (by norm_num), fun i j _ _ => by simp [exHuber, exGoal, eq_comm]⟩

theorem exHuber_solved (debug : Bool) (jenv : Jacobian.Env ℝ) (σ : Store) (s : Hessian.Sys ℝ) :
    normalEquations invS addr debug 2 jenv true (exCurve 1) [exHuber] σ s = normalEquations invS addr debug 2 jenv true (exCurve 1) [exGoal] σ s := by
  have h1 : ErrorTerm.sqrtWeight (exHuber.updated (vec (![1, 1, 0] - ![2, 1, 0]))) true = ErrorTerm.sqrtWeight (exGoal.updated (vec (![1, 1, 0] - ![2, 1, 0]))) true := by
    simp only [ErrorTerm.sqrtWeight, if_true]
    congr 1
    rw [show (exHuber.updated (vec (![1, 1, 0] - ![2, 1, 0]))).policy = MEstimator.huber 2 from rfl, updated_squaredError exHuber exHuber_robust.ok]
    show MEstimator.huber 2 _ = 1
    unfold MEstimator.huber
    rw [if_pos]
    simp [exHuber, exGoal, Body.dim, Finset.sum_range_succ, vec]
    norm_num
  have h2 : ∀ σ, exGoal.body.evaluate (exCurve 1) σ = .ok (vec (![1, 1, 0] - ![2, 1, 0]), σ) := fun σ => rfl
  have h3 : ∀ σ, exHuber.body.evaluate (exCurve 1) σ = .ok (vec (![1, 1, 0] - ![2, 1, 0]), σ) := fun σ => rfl
  simp only [normalEquations, each, ETerm.stored, h2, h3, Res.bind_ok, hview, h1]
  rfl

/-- The Gauss-Newton step towards the goal, with the Huber estimator, lowers the robust cost. -/
example : ∃ D, HasDerivAt (fun s => robust (fun _ => MEstimator.huberLoss 2) [exHuber] (exCurve s)) D 1 ∧ D < 0 := by
  obtain ⟨s', h1, h2⟩ := exGoal_solved (invS := fun _ => 0)
  rw [← exHuber_solved] at h1
  obtain ⟨D, h3, -, h4⟩ := C104_descent (tbl := Expr.exTbl) (exMoves 1) exEnv addr_dim exDvs exIndexed exNodup exActive exStep (exStep_ok true rfl)
    (fun _ => MEstimator.huberLoss 2) [exHuber] (by simpa using ⟨exHuber_robust, exGoal_ready 1⟩) true 2 (by norm_num) _ _ exSys s' h1 (fun _ _ => 0) (fun _ _ => le_refl _) h2
  refine ⟨D, h3, h4 ⟨exHuber, by simp, ?_, ?_⟩⟩
  · exact ((MEstimator.C42_huber 2 (by norm_num)).1 _ (squared_nonneg ..)).1
  · have hr : ∀ i, rate exCurve 1 exHuber.body i = if i = 0 then 1 else 0 := by
      intro i
      unfold rate
      have : (fun s => errorVec (exCurve s) exHuber.body i) = fun s => vec (![s, 1, 0] - ![2, 1, 0]) i := by
        funext s
        rw [show exHuber.body = exGoal.body from rfl, errorVec_eq (exGoal_value s)]
      rw [this]
      rcases i with _ | _ | _ | i
      all_goals simp [vec]
    simp only [squared, hr]
    simp [exHuber, exGoal, Body.dim]

/-- The distance of a point from `(4, 1, 0)`, with a Geman-McClure estimator. -/
noncomputable def exFar : ETerm where
  body := .point (.esubc (.evar 0) ![4, 1, 0])
  sqrtInvR := ⟨3, 3, fun i j => if i = j then 1 else 0⟩
  policy := MEstimator.gemanMcClure 1

theorem exFar_robust : RobustTerm exFar (MEstimator.gemanMcClureLoss 1) :=
  ⟨rfl, rfl, MEstimator.C104_gemanMcClure 1 one_pos, fun i j _ _ => by simp [exFar, eq_comm]⟩

/-- **C104, counterexample.** The number that `evaluateError` returns with M-estimators is not the robust cost: for a Geman-McClure estimator there is a
step along which the gradient of `computeGradient` and the robust cost fall, while the returned number rises. -/
theorem C104_reported_cost_counterexample (debug : Bool) (nThreads : Nat) (hth : 0 < nThreads) (useDense : Bool) (σ : Store) :
    ∃ (r : ℝ → ℝ) (k : ℝ) (g : DMat ℝ) (D : ℝ), (∀ s σ, ∃ σ', cost (exCurve s) [] [exFar] σ = .ok (r s, σ')) ∧ HasDerivAt r D 1 ∧ 0 < D ∧
      costAndGradient invS addr debug 2 exEnv exDvs 6 nThreads true true useDense (exCurve 1) [] [exFar] σ = .ok (k, g) ∧
      HasDerivAt (fun s => robust (fun _ => MEstimator.gemanMcClureLoss 1) [exFar] (exCurve s))
        (exDvs.map fun d => ∑ j ∈ Finset.range (exEnv.dim d), g.e 0 ((exEnv.columnBase d).toNat + j) * exStep d j).sum 1 ∧
      (exDvs.map fun d => ∑ j ∈ Finset.range (exEnv.dim d), g.e 0 ((exEnv.columnBase d).toNat + j) * exStep d j).sum < 0 := by
  have hv : ∀ s, exFar.body.value (exCurve s) = .ok (vec (![s, 1, 0] - ![4, 1, 0])) := fun s => rfl
  have hc : exFar.body.Cons Expr.exTbl := by simp [Body.Cons, exFar, Expr.Cons]
  obtain ⟨k, g, e, h⟩ := C104_gradient (invS := invS) (tbl := Expr.exTbl) (exMoves 1) exEnv addr_dim exIndexed.envOk 6 exColumns exDvs exNodup exActive true exStep
    (exStep_ok true rfl) [] (by simp) (fun _ => MEstimator.gemanMcClureLoss 1) [exFar] (by
      intro T hT
      rw [List.mem_singleton] at hT
      subst hT
      exact ⟨exFar_robust, hc, by simp [Body.Smooth, exFar, Expr.Smooth], _, hv 1⟩) debug 2 (by norm_num) nThreads hth useDense σ
  simp only [List.map_nil, List.sum_nil, zero_add] at h
  have hsq : ∀ s, squared exFar.sqrtInvR exFar.body.dim (errorVec (exCurve s) exFar.body) = (s - 4) ^ 2 := by
    intro s
    rw [errorVec_eq (hv s)]
    simp [squared, exFar, Body.dim, Finset.sum_range_succ, vec]
  have hd : HasDerivAt (fun s : ℝ => (s - 4) ^ 2) (-6) 1 := (((hasDerivAt_id' (1 : ℝ)).sub_const 4).fun_pow 2).congr_deriv (by norm_num)
  refine ⟨fun s => 1 / ((1 + (s - 4) ^ 2) * (1 + (s - 4) ^ 2)) * (s - 4) ^ 2, k, g, 6 / 125, fun s σ => ?_, ?_, by norm_num, e, h, ?_⟩
  · obtain ⟨σ', h, -⟩ := cost_spec (tbl := Expr.exTbl) (env := exCurve s) [] [exFar] (by simp) (by
      intro T hT
      rw [List.mem_singleton] at hT
      subst hT
      exact ⟨exFar_robust.ok, hc, _, hv s⟩) σ
    refine ⟨σ', h.trans ?_⟩
    have h5 : ∑ u ∈ Finset.range exFar.body.dim, (∑ v ∈ Finset.range exFar.body.dim, exFar.sqrtInvR.e u v * errorVec (exCurve s) exFar.body v) ^ 2 = (s - 4) ^ 2 := by
      rw [errorVec_eq (hv s)]
      simp [exFar, Body.dim, Finset.sum_range_succ, vec]
    simp only [List.map_nil, List.sum_nil, List.map_cons, List.sum_cons, zero_add, add_zero, exFar_robust.weight, hsq, h5]
    rfl
  · have h6 := hd.const_add 1
    have h7 := ((hasDerivAt_const (1 : ℝ) (1 : ℝ)).fun_div (h6.fun_mul h6) (by norm_num)).fun_mul hd
    exact h7.congr_deriv (by norm_num)
  · have h8 : HasDerivAt (fun s => robust (fun _ => MEstimator.gemanMcClureLoss 1) [exFar] (exCurve s)) (1 / 100 * -6) 1 := by
      have h9 : HasDerivAt (MEstimator.gemanMcClureLoss 1) (1 / 100) ((1 - 4) ^ 2) :=
        ((MEstimator.C104_gemanMcClure 1 one_pos).deriv ((1 - 4) ^ 2) (by norm_num)).congr_deriv (by norm_num [MEstimator.gemanMcClure])
      refine (HasDerivAt.comp (1 : ℝ) h9 hd).congr_of_eventuallyEq (Eventually.of_forall fun s => ?_)
      simp only [robust, List.map_cons, List.map_nil, List.sum_cons, List.sum_nil, add_zero, hsq, Function.comp_apply]
    rw [h.unique h8]
    norm_num

end Example

end Verif.ExprTerm
