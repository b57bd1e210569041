import Verif.ExprTerm.Robust
import Verif.Solver.Model

/-!
C128: what `Optimizer2::computeHessian` returns.

`O` stands for aslam_backend/src/Optimizer2.cpp, `B` for aslam_backend/src/BlockCholeskyLinearSystemSolver.cpp, `L` for aslam_backend/src/LinearSystemSolver.cpp, `SBM.hpp` for
sparse_block_matrix/include/sparse_block_matrix/implementation/sparse_block_matrix.hpp.
-/
namespace Verif.ExprTerm
open Verif.Expr (Node Store Contr Var Table Val Moves FreshId)
open Verif.MatrixStack (DMat)
open Verif.Jacobian.Spec (Event EnvOk ColumnsOk)
open Verif.Geo Filter Topology
open Verif.SBM (SBM Layout)

/-! ### Model -/

/-- The members of `_status` that `computeHessian` writes, O:304-311, O:380: the error and the two counters. -/
structure Status where
  error : ℝ
  numErrorEvaluations : Nat
  numJacobianEvaluations : Nat

/-- `new BlockCholeskyLinearSystemSolver()` with `initMatrixStructure(dvs, errors, true)`, O:371-374, L:97-118, B:36-57: a matrix without blocks, a conditioner of zeros. The block indices of the design
variables are set to their positions (B:51), which is what they are after `initialize`. -/
def freshBlk (L : Layout) : Solver.Blk ℝ := ⟨SBM.new L L, fun _ => 0, fun _ => 0, L.total, true⟩

/-- `setConstantConditioner`, L:91-94. -/
def setConstantConditioner (s : Solver.Blk ℝ) (lambda : ℝ) : Solver.Blk ℝ := { s with cond := fun _ => lambda, condLen := s.H.cl.total }

/-- `cloneInto`, SBM.hpp:163-177: what `ret` held before is dropped. `&_rowBlockIndices[0]` of an empty vector is undefined behaviour. -/
def cloneInto (src _ret : SBM ℝ) : Res (SBM ℝ) := if src.rl.n = 0 ∨ src.cl.n = 0 then .ub else .ok ⟨src.rl, src.cl, true, src.col⟩

/-- `copyHessian`, B:152-155. -/
def copyHessian (s : Solver.Blk ℝ) (out : SBM ℝ) : Res (SBM ℝ) := cloneInto s.H out

variable (invS : V3 × ℝ → Matrix (Fin 3 ⊕ Unit) (Fin 3) ℝ) (num : Var → Nat)

/-- `Optimizer2::computeHessian(outH, lambda)`, O:368-382, of an optimizer that is initialized for the design variables `dvs` and the terms `sq`, so that `_solver` holds the same terms as the new solver.
`evaluateError(false)` (O:304-311, L:17-28, L:60-73) throws without a solver and adds up the costs of the terms, in which the M-estimators take part whatever the argument is; the output, the callbacks
and the error vector of `_solver` are left out. `buildSystem` is B:59-75. -/
noncomputable def computeHessian (debug : Bool) (align : Nat) (jenv : Jacobian.Env ℝ) (dvs : List Nat) (hasSolver : Bool) (env : Expr.Env) (sq : List ETerm) (lambda : ℝ) (out : SBM ℝ)
    (st : Status) (σ : Store) : Res (SBM ℝ × Status × Store) :=
  if hasSolver = false then .exc else
  let s0 := freshBlk (Hessian.dvLayout jenv dvs)
  each (ETerm.stored env) sq σ >>= fun r =>
  let st1 : Status := { st with error := (r.1.map fun p => ErrorTerm.squaredError p.2 true).sum, numErrorEvaluations := st.numErrorEvaluations + 1 }
  let s1 := setConstantConditioner s0 lambda
  each (hview invS num env false) r.1 r.2 >>= fun q =>
  Hessian.buildSystem debug align jenv q.1 ⟨s1.H, s1.rhs, (Hessian.dvLayout jenv dvs).total⟩ >>= fun h =>
  let s2 : Solver.Blk ℝ := { s1 with H := h.H, rhs := h.rhs }
  let st2 : Status := { st1 with numJacobianEvaluations := st1.numJacobianEvaluations + 1 }
  copyHessian s2 out >>= fun o => .ok (o, st2, q.2)

/-! ### Properties -/

variable {invS num} {tbl : Table}

/-- The quadratic form of the symmetric matrix of which `H` stores the upper blocks, at the step `η`. -/
noncomputable def quad (jenv : Jacobian.Env ℝ) (dvs : List Nat) (H : SBM ℝ) (η : Nat → Nat → ℝ) : ℝ :=
  ∑ r ∈ Finset.range dvs.length, ∑ a ∈ Finset.range (jenv.dim (dvs.getD r 0)),
    (∑ k ∈ Finset.range dvs.length, ∑ b ∈ Finset.range (jenv.dim (dvs.getD k 0)),
      symm (Hessian.dvLayout jenv dvs) H.toDense r a k b * η (dvs.getD k 0) b) * η (dvs.getD r 0) a

theorem fresh_ok (jenv : Jacobian.Env ℝ) (dvs : List Nat) (f : Nat → ℝ) :
    Hessian.SysOk (Hessian.dvLayout jenv dvs) (⟨SBM.new (Hessian.dvLayout jenv dvs) (Hessian.dvLayout jenv dvs), f, (Hessian.dvLayout jenv dvs).total⟩ : Hessian.Sys ℝ) :=
  ⟨SBM.new_WF _ _ (Hessian.dvLayout_mono _ _) (Hessian.dvLayout_mono _ _) _, rfl, rfl, rfl, rfl⟩

/-- **C128.** For a problem of squared expression error terms and every value of the design variables, `computeHessian` returns normally. The matrix does not depend on `lambda`, on what `outH` held, on
the cached values of the expressions or on the M-estimators; its blocks below the diagonal are zero, and the quadratic form of its upper blocks is the rate of change of the whitened errors,
`Σ ėᵀ R⁻¹ ė`, for every step. Afterwards the status holds the cost at the current values, and one error and one Jacobian evaluation more. -/
theorem C128_gauss_newton {c : ℝ → Expr.Env} {t : ℝ} {δ : (v : Var) → v.Idx → ℝ} (hm : Moves invS c t δ) (jenv : Jacobian.Env ℝ)
    (hd : ∀ v, jenv.dim (num v) = dimV v) (dvs : List Nat) (hix : Hessian.Indexed jenv dvs) (hnd : dvs.Nodup) (hne : dvs ≠ []) (hdvs : ∀ d, jenv.active d = true ↔ d ∈ dvs)
    (η : Nat → Nat → ℝ) (hη : Step num jenv true η δ) (sq : List ETerm) (hsq : ∀ T ∈ sq, T.Ok ∧ Ready tbl c t T.body)
    (debug : Bool) (align : Nat) (hal : 0 < align) (σ : Store) (st : Status) :
    ∃ H σ', (∀ lambda out, computeHessian invS num debug align jenv dvs true (c t) sq lambda out st σ = .ok (H,
        ⟨(sq.map fun T => weightAt T true (errorVec (c t) T.body) *
          ∑ u ∈ Finset.range T.body.dim, (∑ v ∈ Finset.range T.body.dim, T.sqrtInvR.e u v * errorVec (c t) T.body v) ^ 2).sum,
          st.numErrorEvaluations + 1, st.numJacobianEvaluations + 1⟩, σ')) ∧
      H.rl = Hessian.dvLayout jenv dvs ∧ H.cl = Hessian.dvLayout jenv dvs ∧
      quad jenv dvs H η = (sq.map fun T => squared T.sqrtInvR T.body.dim (rate c t T.body)).sum ∧
      ∀ r a k b, r < dvs.length → a < jenv.dim (dvs.getD r 0) → k < r → b < jenv.dim (dvs.getD k 0) →
        H.toDense.e ((Hessian.dvLayout jenv dvs).base r + a) ((Hessian.dvLayout jenv dvs).base k + b) = 0 := by
  obtain ⟨s', es, hok, -, hquad, hlow, -⟩ := normal_equations_full hm jenv hd dvs hix hnd hdvs η hη sq hsq debug align hal false σ _ (fresh_ok jenv dvs fun _ => 0)
  obtain ⟨ks, σ1, e1, p1, -, -⟩ := each_spec (f := ETerm.stored (c t)) (c t) tbl (fun _ => []) (fun T => T.body.ids (c t))
    (fun T k => k = (T, T.updated (errorVec (c t) T.body))) sq (by
      intro T hT σ _
      obtain ⟨x, hx⟩ := (hsq T hT).2.value
      obtain ⟨σ', e, k, m⟩ := evaluate_spec (hsq T hT).2.cons hx σ
      exact ⟨_, _, by simp [ETerm.stored, e]; rfl, by rw [errorVec_eq hx], k, m⟩) σ (by simp)
  have hsum : (ks.map fun p => ErrorTerm.squaredError p.2 true).sum = (sq.map fun T => weightAt T true (errorVec (c t) T.body) *
      ∑ u ∈ Finset.range T.body.dim, (∑ v ∈ Finset.range T.body.dim, T.sqrtInvR.e u v * errorVec (c t) T.body v) ^ 2).sum := by
    clear es e1 hquad
    induction p1 with
    | nil => rfl
    | cons h _ ih =>
      rename_i T _ _ _ _
      rw [List.map_cons, List.sum_cons, List.map_cons, List.sum_cons, ih fun T hT => hsq T (List.mem_cons_of_mem _ hT), h]
      congr 1
      rw [← updated_squaredError T (hsq T (by simp)).1]
      simp only [weightAt, if_true, ErrorTerm.squaredError]
      rw [updated_squaredError T (hsq T (by simp)).1]
      rfl
  simp only [normalEquations, e1, Res.bind_ok, Expr.bind_eq_ok] at es
  obtain ⟨q, e2, e3⟩ := es
  have hn : ¬ (s'.H.rl.n = 0 ∨ s'.H.cl.n = 0) := by
    rw [hok.rl, hok.cl]
    simpa [Hessian.dvLayout] using hne
  refine ⟨⟨s'.H.rl, s'.H.cl, true, s'.H.col⟩, q.2, fun lambda out => ?_, hok.rl, hok.cl, ?_, hlow⟩
  · simp only [computeHessian, Bool.true_eq_false, if_false, e1, Res.bind_ok, e2, setConstantConditioner, freshBlk, e3, copyHessian, cloneInto, if_neg hn, hsum]
  · refine hquad.trans ?_
    simp [weightAt]

/-- **C128** (definiteness). Every matrix `computeHessian` returns is positive semi-definite. -/
theorem C128_semidefinite {c : ℝ → Expr.Env} {t : ℝ} {δ : (v : Var) → v.Idx → ℝ} (hm : Moves invS c t δ) (jenv : Jacobian.Env ℝ)
    (hd : ∀ v, jenv.dim (num v) = dimV v) (dvs : List Nat) (hix : Hessian.Indexed jenv dvs) (hnd : dvs.Nodup) (hne : dvs ≠ []) (hdvs : ∀ d, jenv.active d = true ↔ d ∈ dvs)
    (η : Nat → Nat → ℝ) (hη : Step num jenv true η δ) (sq : List ETerm) (hsq : ∀ T ∈ sq, T.Ok ∧ Ready tbl c t T.body)
    (debug : Bool) (align : Nat) (hal : 0 < align) (σ σ' : Store) (st st' : Status) (lambda : ℝ) (out H : SBM ℝ)
    (hH : computeHessian invS num debug align jenv dvs true (c t) sq lambda out st σ = .ok (H, st', σ')) : 0 ≤ quad jenv dvs H η := by
  obtain ⟨H', σ'', h, -, -, hq, -⟩ := C128_gauss_newton hm jenv hd dvs hix hnd hne hdvs η hη sq hsq debug align hal σ st
  rw [h] at hH
  cases hH
  rw [hq]
  refine List.sum_nonneg fun y hy => ?_
  obtain ⟨T, -, rfl⟩ := List.mem_map.1 hy
  exact squared_nonneg ..

/-! ### Example and counterexamples -/
section Example

theorem exDvs_ne : exDvs ≠ [] := by simp [exDvs]

example := C128_gauss_newton (invS := invS) (tbl := Expr.exTbl) (exMoves 1) exEnv addr_dim exDvs exIndexed exNodup exDvs_ne exActive exStep (exStep_ok true rfl) [exTerm, exCauchy]
  (by simpa using ⟨⟨exTerm_ok, exTerm_ready 1⟩, exCauchy_robust.ok, exGoal_ready 1⟩) true 2 (by norm_num) (fun _ => none) ⟨5, 1, 1⟩

theorem exFar_value (s : ℝ) : exFar.body.value (exCurve s) = .ok (vec (![s, 1, 0] - ![4, 1, 0])) := rfl

theorem exFar_ready (t : ℝ) : Ready Expr.exTbl exCurve t exFar.body :=
  ⟨by simp [Body.Cons, exFar, Expr.Cons], by simp [Body.Smooth, exFar, Expr.Smooth], _, exFar_value t⟩

theorem exFar_rate : squared exFar.sqrtInvR exFar.body.dim (rate exCurve 1 exFar.body) = 1 := by
  have hr : ∀ i, rate exCurve 1 exFar.body i = if i = 0 then 1 else 0 := by
    intro i
    unfold rate
    have : (fun s => errorVec (exCurve s) exFar.body i) = fun s => vec (![s, 1, 0] - ![4, 1, 0]) i := by
      funext s
      rw [errorVec_eq (exFar_value s)]
    rw [this]
    rcases i with _ | _ | _ | i
    all_goals simp [vec]
  simp only [squared, hr]
  simp [exFar, Body.dim]

/-- **C128, counterexample (damping).** `lambda` is not used: there is a problem and a step for which the quadratic form of the result differs, for every `lambda` other than zero, from the one of the
conditioned matrix `JᵀR⁻¹J + lambda² I` that `solveSystem` would factorise. -/
theorem C128_lambda_counterexample (debug : Bool) (out : SBM ℝ) (st : Status) (σ : Store) :
    ∃ H st' σ', (∀ lambda, computeHessian invS addr debug 2 exEnv exDvs true (exCurve 1) [exFar] lambda out st σ = .ok (H, st', σ')) ∧
      ∀ lambda : ℝ, lambda ≠ 0 → quad exEnv exDvs H exStep ≠ squared exFar.sqrtInvR exFar.body.dim (rate exCurve 1 exFar.body) +
        lambda ^ 2 * (exDvs.map fun d => ∑ j ∈ Finset.range (exEnv.dim d), exStep d j ^ 2).sum := by
  obtain ⟨H, σ', h, -, -, hq, -⟩ := C128_gauss_newton (invS := invS) (tbl := Expr.exTbl) (exMoves 1) exEnv addr_dim exDvs exIndexed exNodup exDvs_ne exActive exStep (exStep_ok true rfl) [exFar]
    (by simpa using ⟨exFar_robust.ok, exFar_ready 1⟩) debug 2 (by norm_num) σ st
  refine ⟨H, _, σ', fun lambda => h lambda out, fun lambda hl => ?_⟩
  rw [hq]
  have h1 : (exDvs.map fun d => ∑ j ∈ Finset.range (exEnv.dim d), exStep d j ^ 2).sum = 1 / 2 := by
    simp [exDvs, exEnv, addr_dim, dimV, exStep, addr_ne.symm]
    norm_num
  rw [h1]
  have := pow_pos (abs_pos.2 hl) 2
  rw [sq_abs] at this
  simp only [List.map_cons, List.map_nil, List.sum_cons, List.sum_nil]
  intro h2
  linarith

/-- **C128, counterexample (M-estimators).** The matrix is not the one the optimizer works with: for a term with a Geman-McClure estimator `buildSystem` with M-estimators gives the same step another
quadratic form. -/
theorem C128_robust_counterexample (debug : Bool) (lambda : ℝ) (out : SBM ℝ) (st : Status) (σ : Store) :
    ∃ H st' σ' s', computeHessian invS addr debug 2 exEnv exDvs true (exCurve 1) [exFar] lambda out st σ = .ok (H, st', σ') ∧
      normalEquations invS addr debug 2 exEnv true (exCurve 1) [exFar] σ ⟨SBM.new (Hessian.dvLayout exEnv exDvs) (Hessian.dvLayout exEnv exDvs), fun _ => 0, (Hessian.dvLayout exEnv exDvs).total⟩ = .ok s' ∧
      quad exEnv exDvs s'.H exStep = 1 / 100 * quad exEnv exDvs H exStep ∧ 0 < quad exEnv exDvs H exStep := by
  have hok := (by simpa using ⟨exFar_robust.ok, exFar_ready 1⟩ : ∀ T ∈ [exFar], T.Ok ∧ Ready Expr.exTbl exCurve 1 T.body)
  obtain ⟨H, σ', h, -, -, hq, -⟩ := C128_gauss_newton (invS := invS) (tbl := Expr.exTbl) (exMoves 1) exEnv addr_dim exDvs exIndexed exNodup exDvs_ne exActive exStep (exStep_ok true rfl) [exFar]
    hok debug 2 (by norm_num) σ st
  obtain ⟨s', e, -, h2⟩ := C100_normal_equations (invS := invS) (tbl := Expr.exTbl) (exMoves 1) exEnv addr_dim exDvs exIndexed exNodup exActive exStep (exStep_ok true rfl) [exFar]
    hok debug 2 (by norm_num) true σ _ (fresh_ok exEnv exDvs fun _ => 0)
  refine ⟨H, _, σ', s', h lambda out, e, ?_, ?_⟩
  · rw [hq]
    refine h2.trans ?_
    have hw : weightAt exFar true (errorVec (exCurve 1) exFar.body) = 1 / 100 := by
      rw [errorVec_eq (exFar_value 1)]
      simp [weightAt, exFar, Body.dim, Finset.sum_range_succ, vec, MEstimator.gemanMcClure]
      norm_num
    simp [hw]
  · rw [hq]
    simp [exFar_rate]

/-- **C128** (no solver). Before the optimizer has a linear system solver `computeHessian` throws, whatever the problem: no matrix is returned, also for a problem without error terms. -/
theorem C128_no_solver (debug : Bool) (align : Nat) (jenv : Jacobian.Env ℝ) (dvs : List Nat) (env : Expr.Env) (sq : List ETerm) (lambda : ℝ) (out : SBM ℝ) (st : Status) (σ : Store) :
    computeHessian invS num debug align jenv dvs false env sq lambda out st σ = .exc := rfl

/-- **C128, counterexample (uninitialized).** Before `initialize` an optimizer has no design variables, and `computeHessian` takes the first element of an empty vector. -/
theorem C128_uninitialized_counterexample (debug : Bool) (jenv : Jacobian.Env ℝ) (env : Expr.Env) (lambda : ℝ) (out : SBM ℝ) (st : Status) (σ : Store) :
    computeHessian invS addr debug 2 jenv [] true env [] lambda out st σ = .ub := by
  simp [computeHessian, each, setConstantConditioner, freshBlk, Hessian.buildSystem, Res.run, copyHessian, cloneInto, SBM.clear, SBM.new, Hessian.dvLayout]

end Example

end Verif.ExprTerm
