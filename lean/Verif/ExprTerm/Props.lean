import Verif.ExprTerm.Lemmas
import Mathlib.Tactic.IntervalCases

/-!
C100: the gradient and the normal equations of a problem made of expressions are the derivatives of its cost.
-/
namespace Verif.ExprTerm
open Verif.Expr (Node Store Contr Var Table Val Moves FreshId)
open Verif.MatrixStack (DMat)
open Verif.Jacobian.Spec (Event EnvOk ColumnsOk)
open Verif.Geo Filter Topology
open Matrix

variable {invS : V3 × ℝ → Matrix (Fin 3 ⊕ Unit) (Fin 3) ℝ} {num : Var → Nat} {tbl : Table}

/-! ### What the cost is -/

/-- The error vector of an expression; zero where it cannot be evaluated. -/
noncomputable def errorVec (env : Expr.Env) (b : Body) : Nat → ℝ := match b.value env with
  | .ok x => x
  | _ => 0

/-- The value of a scalar expression. -/
noncomputable def scalarOf (env : Expr.Env) (e : Node .S) : ℝ := errorVec env (.scalar e) 0

/-- `eᵀ R⁻¹ e` for the inverse covariance `R⁻¹ = S Sᵀ`: the squared length of `Sᵀ e`. -/
noncomputable def squared (S : DMat ℝ) (n : Nat) (x : Nat → ℝ) : ℝ := ∑ u ∈ Finset.range n, (∑ v ∈ Finset.range n, S.e v u * x v) ^ 2

/-- The weight of the M-estimator for the squared error the term stores, `|S e|²`. -/
noncomputable def weightAt (T : ETerm) (useM : Bool) (x : Nat → ℝ) : ℝ :=
  if useM then T.policy (∑ u ∈ Finset.range T.body.dim, (∑ v ∈ Finset.range T.body.dim, T.sqrtInvR.e u v * x v) ^ 2) else 1

/-- A legal squared term: a square root of the right size and a weight function without negative values for squared errors. -/
structure ETerm.Ok (T : ETerm) : Prop where
  rows : T.sqrtInvR.rows = T.body.dim
  cols : T.sqrtInvR.cols = T.body.dim
  weight : ∀ x, 0 ≤ x → 0 ≤ T.policy x

theorem Body.dim_le (b : Body) : b.dim ≤ 3 := by cases b <;> simp [Body.dim]

/-- The terms can be evaluated and differentiated along the motion. -/
structure Ready (tbl : Table) (c : ℝ → Expr.Env) (t : ℝ) (b : Body) : Prop where
  cons : b.Cons tbl
  smooth : b.Smooth c t
  value : ∃ x, b.value (c t) = .ok x

/-- How the step `η` of the optimizer moves the variables: active ones by their part of the step (times the scaling where it applies), the
others not at all. -/
def Step (num : Var → Nat) (jenv : Jacobian.Env ℝ) (scaled : Bool) (η : Nat → Nat → ℝ) (δ : (v : Var) → v.Idx → ℝ) : Prop :=
  ∀ (v : Var) (j : Fin (dimV v)), δ v (coord v j) = if jenv.active (num v) then (if scaled then jenv.scaling (num v) else 1) * η (num v) j else 0

theorem Step.numbered {jenv : Jacobian.Env ℝ} {scaled : Bool} {η : Nat → Nat → ℝ} {δ : (v : Var) → v.Idx → ℝ} (h : Step num jenv scaled η δ) :
    Numbered num δ (scaledStep jenv scaled η) := fun v j => (h v j).symm

/-! ### One term -/

theorem errorVec_eq {env : Expr.Env} {b : Body} {x : Nat → ℝ} (h : b.value env = .ok x) : errorVec env b = x := by
  simp [errorVec, h]

theorem updated_squaredError (T : ETerm) (hT : T.Ok) (x : Nat → ℝ) : (T.updated x).squaredError =
    ∑ u ∈ Finset.range T.body.dim, (∑ v ∈ Finset.range T.body.dim, T.sqrtInvR.e u v * x v) ^ 2 := by
  simp only [ETerm.updated, ErrorTerm.updateRaw, ErrorTerm.expressionSquared, hT.cols, sq]

theorem sqrtWeight_mul (T : ETerm) (hT : T.Ok) (useM : Bool) (x : Nat → ℝ) :
    ErrorTerm.sqrtWeight (T.updated x) useM * ErrorTerm.sqrtWeight (T.updated x) useM = weightAt T useM x := by
  cases useM with
  | false => simp [ErrorTerm.sqrtWeight, weightAt]
  | true =>
    simp only [ErrorTerm.sqrtWeight, weightAt, if_true]
    rw [show (T.updated x).policy = T.policy from rfl, updated_squaredError T hT, Real.mul_self_sqrt (hT.weight _ (Finset.sum_nonneg fun _ _ => sq_nonneg _))]

theorem squared_deriv (S : DMat ℝ) (n : Nat) {f : ℝ → Nat → ℝ} {d : Nat → ℝ} {t : ℝ} (h : ∀ i, i < n → HasDerivAt (fun s => f s i) (d i) t) :
    HasDerivAt (fun s => squared S n (f s)) (∑ u ∈ Finset.range n, 2 * (∑ v ∈ Finset.range n, S.e v u * f t v) * ∑ v ∈ Finset.range n, S.e v u * d v) t := by
  unfold squared
  refine HasDerivAt.fun_sum fun u _ => ?_
  have h1 : HasDerivAt (fun s => ∑ v ∈ Finset.range n, S.e v u * f s v) (∑ v ∈ Finset.range n, S.e v u * d v) t :=
    HasDerivAt.fun_sum fun v hv => (h v (Finset.mem_range.1 hv)).const_mul _
  refine (h1.fun_pow 2).congr_deriv ?_
  simp

theorem fits_one {align n : Nat} (hal : align < 2 ^ 16 ∧ 0 < align) (hn : n ≤ 3) (F : DMat ℝ) (hF : F.cols = n) : MatrixStack.Spec.Fits align n [F] := by
  have h9 : n * n ≤ 9 := Nat.mul_le_mul hn hn
  refine ⟨by omega, by rw [hF]; omega, ?_, trivial⟩
  simp only [MatrixStack.Spec.footprint, MatrixStack.Spec.roundUp]
  have : (0 + align - 1) / align * align ≤ 0 + align - 1 := Nat.div_mul_le_self _ _
  rw [hF]
  omega

section Terms

variable {c : ℝ → Expr.Env} {t : ℝ} {δ : (v : Var) → v.Idx → ℝ} (hm : Moves invS c t δ) {jenv : Jacobian.Env ℝ} (hd : ∀ v, jenv.dim (num v) = dimV v)
  {dvs : List Nat} (hnd : dvs.Nodup) (hdvs : ∀ d, jenv.active d = true ↔ d ∈ dvs) {scaled : Bool} {η : Nat → Nat → ℝ} (hη : Step num jenv scaled η δ)

include hm hd hnd hdvs hη

theorem view_sq {align : Nat} (hal : align < 2 ^ 16 ∧ 0 < align) (useM : Bool) {T : ETerm} (hT : T.Ok) (hr : Ready tbl c t T.body) (σ : Store) :
    ∃ b σ', T.view invS num (c t) useM σ = .ok (b, σ') ∧
      (∃ ev, Gradient.Legal jenv align b ev ∧
        HasDerivAt (fun s => weightAt T useM (errorVec (c t) T.body) * squared T.sqrtInvR T.body.dim (errorVec (c s) T.body))
          (along jenv dvs η fun d j => (∑ i ∈ Finset.range b.n, 2 * b.err i * Jacobian.Spec.total ev d i j) * (if scaled then jenv.scaling d else 1)) t) ∧
      Keeps (c t) tbl σ σ' ∧ ∀ i ∈ ([] : List Nat), FreshId (c t) tbl σ' i := by
  obtain ⟨x, hx⟩ := hr.value
  obtain ⟨σ1, e1, k1, m1⟩ := evaluate_spec hr.cons hx σ
  obtain ⟨f, d, h1, h2, h3, h4⟩ := body_good (num := num) hm hη.numbered hd hr.cons hr.smooth hx
  obtain ⟨L, σ2, e2, k2, hL⟩ := h4 σ1 m1
  have hn := T.body.dim_le
  set n := T.body.dim with hndef
  set F := ErrorTerm.weightFactor (T.updated x) useM with hF
  have hFr : F.rows = n := hT.cols
  have hFc : F.cols = n := hT.rows
  have hFe : ∀ i u, F.e i u = ErrorTerm.sqrtWeight (T.updated x) useM * T.sqrtInvR.e u i := fun _ _ => rfl
  refine ⟨_, σ2, by simp [ETerm.view, e1, e2]; rfl, ⟨(L.filter fun p => jenv.active p.1).map fun p => (p.1, Jacobian.Spec.contribution [F] p.2), ⟨by show n < 2 ^ 16; omega, ?_⟩, ?_⟩,
    fun i hi => k2 i (k1 i hi), by simp⟩
  · show Jacobian.Spec.Run jenv align n ([], []) (.applyM F :: Jacobian.adds L ++ [.endScope]) _
    refine .cons (s' := ([F], [])) ?_ (fits_one hal hn F hFc) ?_
    · simp [Jacobian.Spec.step, MatrixStack.Spec.step, MatrixStack.Spec.cols, hFr]
    · refine run_adds_under jenv align n [F] (fits_one hal hn F hFc) L ?_ _ _ _ ?_
      · intro p hp
        exact ⟨((hL.shape p hp).1).trans hFc.symm, (hL.shape p hp).2⟩
      · exact .cons rfl trivial (.nil _)
  · have hder : HasDerivAt (fun s => squared T.sqrtInvR n (errorVec (c s) T.body))
        (∑ u ∈ Finset.range n, 2 * (∑ v ∈ Finset.range n, T.sqrtInvR.e v u * x v) * ∑ v ∈ Finset.range n, T.sqrtInvR.e v u * d v) t := by
      have := squared_deriv T.sqrtInvR n h3
      rw [h2] at this
      refine this.congr_of_eventuallyEq (h1.mono fun s hs => ?_)
      simp only [errorVec_eq hs]
    refine (hder.const_mul _).congr_deriv ?_
    rw [errorVec_eq hx, ← sqrtWeight_mul T hT]
    have e3 : along jenv dvs η (fun dv j => (∑ i ∈ Finset.range n, 2 * ErrorTerm.weightedError (T.updated x) useM i *
          Jacobian.Spec.total ((L.filter fun p => jenv.active p.1).map fun p => (p.1, Jacobian.Spec.contribution [F] p.2)) dv i j) * (if scaled then jenv.scaling dv else 1)) =
        ∑ i ∈ Finset.range n, ∑ u ∈ Finset.range n, 2 * ErrorTerm.weightedError (T.updated x) useM i * F.e i u * d u := by
      have e4 : along jenv dvs η (fun dv j => (∑ i ∈ Finset.range n, 2 * ErrorTerm.weightedError (T.updated x) useM i *
          Jacobian.Spec.total ((L.filter fun p => jenv.active p.1).map fun p => (p.1, Jacobian.Spec.contribution [F] p.2)) dv i j) * (if scaled then jenv.scaling dv else 1)) =
          along jenv dvs η (fun dv j => ∑ i ∈ Finset.range n, ∑ u ∈ Finset.range n, 2 * ErrorTerm.weightedError (T.updated x) useM i * F.e i u *
            (Jacobian.assigned L dv u j * (if scaled then jenv.scaling dv else 1))) := by
        refine along_congr fun dv hdv j _ => ?_
        rw [Finset.sum_mul]
        refine Finset.sum_congr rfl fun i hi => ?_
        rw [total_under jenv F L (fun p hp => ((hL.shape p hp).1).trans hFc.symm) dv ((hdvs dv).2 hdv) (by rw [hFr]; exact Finset.mem_range.1 hi) j, hFc,
          Finset.mul_sum, Finset.sum_mul]
        exact Finset.sum_congr rfl fun u _ => by ring
      rw [e4, along_finset]
      refine Finset.sum_congr rfl fun i _ => ?_
      rw [along_finset]
      refine Finset.sum_congr rfl fun u hu => ?_
      rw [along_smul, along_assigned hnd hdvs scaled η L (fun p hp => (hL.shape p hp).2), hL.sum u (Finset.mem_range.1 hu)]
    refine Eq.trans ?_ e3.symm
    rw [Finset.mul_sum]
    refine Finset.sum_congr rfl fun i _ => ?_
    rw [Finset.mul_sum, Finset.mul_sum]
    refine Finset.sum_congr rfl fun u _ => ?_
    rw [hFe]
    have : ErrorTerm.weightedError (T.updated x) useM i = (∑ v ∈ Finset.range n, T.sqrtInvR.e v i * x v) * ErrorTerm.sqrtWeight (T.updated x) useM := rfl
    rw [this]
    ring

theorem view_ns {align : Nat} (hal : align < 2 ^ 16 ∧ 0 < align) {T : NTerm} (hr : Ready tbl c t (.scalar T.e)) (σ : Store)
    (hσ : ∀ i ∈ (Body.scalar T.e).ids (c t), FreshId (c t) tbl σ i) :
    ∃ b σ', T.view invS num (c t) σ = .ok (b, σ') ∧
      (∃ ev, (b.n = 1 ∧ Gradient.Legal jenv align b ev) ∧
        HasDerivAt (fun s => T.w * scalarOf (c s) T.e)
          (along jenv dvs η fun d j => Jacobian.Spec.total ev d 0 j * (if scaled then jenv.scaling d else 1)) t) ∧
      Keeps (c t) tbl σ σ' ∧ ∀ i ∈ ([] : List Nat), FreshId (c t) tbl σ' i := by
  obtain ⟨x, hx⟩ := hr.value
  obtain ⟨f, d, h1, h2, h3, h4⟩ := body_good (num := num) hm hη.numbered hd hr.cons hr.smooth hx
  obtain ⟨L, σ2, e2, k2, hL⟩ := h4 σ hσ
  set F : DMat ℝ := MatrixStack.Spec.scalarMat 1 T.w with hF
  have hFr : F.rows = 1 := rfl
  have hFc : F.cols = 1 := rfl
  refine ⟨_, σ2, by simp [NTerm.view, e2]; rfl, ⟨(L.filter fun p => jenv.active p.1).map fun p => (p.1, Jacobian.Spec.contribution [F] p.2), ⟨rfl, ⟨by show 1 < 2 ^ 16; omega, ?_⟩⟩, ?_⟩,
    k2, by simp⟩
  · show Jacobian.Spec.Run jenv align 1 ([], []) (.applyS T.w :: Jacobian.adds L ++ [.endScope]) _
    refine .cons (s' := ([F], [])) rfl (fits_one hal (by omega) F hFc) ?_
    refine run_adds_under jenv align 1 [F] (fits_one hal (by omega) F hFc) L ?_ _ _ _ ?_
    · intro p hp
      exact ⟨((hL.shape p hp).1).trans hFc.symm, (hL.shape p hp).2⟩
    · exact .cons rfl trivial (.nil _)
  · have hder : HasDerivAt (fun s => scalarOf (c s) T.e) (d 0) t := by
      refine (h3 0 (by show 0 < 1; omega)).congr_of_eventuallyEq (h1.mono fun s hs => ?_)
      simp only [scalarOf, errorVec_eq hs]
    refine (hder.const_mul _).congr_deriv ?_
    have e4 : along jenv dvs η (fun dv j => Jacobian.Spec.total ((L.filter fun p => jenv.active p.1).map fun p => (p.1, Jacobian.Spec.contribution [F] p.2)) dv 0 j *
          (if scaled then jenv.scaling dv else 1)) =
        along jenv dvs η (fun dv j => T.w * (Jacobian.assigned L dv 0 j * (if scaled then jenv.scaling dv else 1))) := by
      refine along_congr fun dv hdv j _ => ?_
      rw [total_under jenv F L (fun p hp => ((hL.shape p hp).1).trans hFc.symm) dv ((hdvs dv).2 hdv) (by rw [hFr]; omega) j, hFc]
      simp [hF, MatrixStack.Spec.scalarMat]
      ring_nf
    rw [e4, along_smul, along_assigned hnd hdvs scaled η L (fun p hp => (hL.shape p hp).2), hL.sum 0 (by show 0 < 1; omega)]

end Terms

/-! ### The cost that is reported -/

theorem cost_spec {env : Expr.Env} (ns : List NTerm) (sq : List ETerm) (hns : ∀ T ∈ ns, (Body.scalar T.e).Cons tbl ∧ ∃ x, (Body.scalar T.e).value env = .ok x)
    (hsq : ∀ T ∈ sq, T.Ok ∧ T.body.Cons tbl ∧ ∃ x, T.body.value env = .ok x) (σ : Store) :
    ∃ σ', cost env ns sq σ = .ok ((ns.map fun T => T.w * scalarOf env T.e).sum +
        (sq.map fun T => weightAt T true (errorVec env T.body) *
          ∑ u ∈ Finset.range T.body.dim, (∑ v ∈ Finset.range T.body.dim, T.sqrtInvR.e u v * errorVec env T.body v) ^ 2).sum, σ') ∧
      (∀ T ∈ ns, ∀ i ∈ (Body.scalar T.e).ids env, FreshId env tbl σ' i) ∧ ∀ T ∈ sq, ∀ i ∈ T.body.ids env, FreshId env tbl σ' i := by
  obtain ⟨ks, σ1, e1, p1, k1, m1⟩ := each_spec (f := NTerm.error env) env tbl (fun _ => []) (fun T => (Body.scalar T.e).ids env)
    (fun T k => T.w * scalarOf env T.e = k) ns (by
      intro T hT σ _
      obtain ⟨hc, x, hx⟩ := hns T hT
      obtain ⟨σ', e, k, m⟩ := evaluate_spec hc hx σ
      simp only [Body.evaluate, Expr.bind_eq_ok] at e
      obtain ⟨r, hr, h⟩ := e
      cases h
      refine ⟨_, _, by simp [NTerm.error, hr]; rfl, ?_, k, m⟩
      simp [scalarOf, errorVec_eq hx]) σ (by simp)
  obtain ⟨qs, σ2, e2, p2, k2, m2⟩ := each_spec (f := ETerm.error env) env tbl (fun _ => []) (fun T => T.body.ids env)
    (fun T k => weightAt T true (errorVec env T.body) *
          ∑ u ∈ Finset.range T.body.dim, (∑ v ∈ Finset.range T.body.dim, T.sqrtInvR.e u v * errorVec env T.body v) ^ 2 = k) sq (by
      intro T hT σ _
      obtain ⟨hok, hc, x, hx⟩ := hsq T hT
      obtain ⟨σ', e, k, m⟩ := evaluate_spec hc hx σ
      refine ⟨_, _, by simp [ETerm.error, e]; rfl, ?_, k, m⟩
      rw [errorVec_eq hx, ← updated_squaredError T hok]
      simp only [weightAt, if_true, ErrorTerm.squaredError]
      rw [updated_squaredError T hok]
      rfl) σ1 (by simp)
  refine ⟨σ2, ?_, fun T hT i hi => k2 i (m1 T hT i hi), m2⟩
  have s1 := forall₂_sum p1 (fun T => T.w * scalarOf env T.e) id (fun _ _ h => h)
  have s2 := forall₂_sum p2 (fun T => weightAt T true (errorVec env T.body) *
          ∑ u ∈ Finset.range T.body.dim, (∑ v ∈ Finset.range T.body.dim, T.sqrtInvR.e u v * errorVec env T.body v) ^ 2) id (fun _ _ h => h)
  rw [List.map_id] at s1 s2
  simp [cost, e1, e2, s1, s2]

theorem hasDerivAt_forall₂ {α β : Type} {t : ℝ} {as : List α} {bs : List β} {f : α → ℝ → ℝ} {d : β → ℝ} (h : List.Forall₂ (fun a b => HasDerivAt (f a) (d b) t) as bs) :
    HasDerivAt (fun s => (as.map fun a => f a s).sum) (bs.map d).sum t := by
  induction h with
  | nil => simpa using hasDerivAt_const t (0 : ℝ)
  | cons h _ ih =>
    simp only [List.map_cons, List.sum_cons]
    exact h.add ih

/-- **C100, gradient.** Any number of expression error terms, squared and non-squared, over any variables, active or not: `evaluateError` followed
by `computeGradient` returns a gradient whose product with every step of the design variables is the derivative, along that step, of the sum of the
weighted costs: `w e` for the non-squared terms, `ω eᵀ R⁻¹ e` for the squared ones with the M-estimator weight `ω` at the current values (1 if
M-estimators are off). This holds for every build mode, number of threads, container and member values of the expression nodes. -/
theorem C100_gradient {c : ℝ → Expr.Env} {t : ℝ} {δ : (v : Var) → v.Idx → ℝ} (hm : Moves invS c t δ) (jenv : Jacobian.Env ℝ) (hd : ∀ v, jenv.dim (num v) = dimV v)
    (henv : EnvOk jenv) (nCols : Nat) (hcol : ColumnsOk jenv nCols) (dvs : List Nat) (hnd : dvs.Nodup) (hdvs : ∀ d, jenv.active d = true ↔ d ∈ dvs)
    (scaled : Bool) (η : Nat → Nat → ℝ) (hη : Step num jenv scaled η δ) (ns : List NTerm) (hns : ∀ T ∈ ns, Ready tbl c t (.scalar T.e))
    (sq : List ETerm) (hsq : ∀ T ∈ sq, T.Ok ∧ Ready tbl c t T.body) (debug : Bool) (align : Nat) (hal : align < 2 ^ 16 ∧ 0 < align)
    (nThreads : Nat) (hth : 0 < nThreads) (useM useDense : Bool) (σ : Store) :
    ∃ k g, costAndGradient invS num debug align jenv dvs nCols nThreads useM scaled useDense (c t) ns sq σ = .ok (k, g) ∧
      (∃ σ', cost (c t) ns sq σ = .ok (k, σ')) ∧
      HasDerivAt (fun s => (ns.map fun T => T.w * scalarOf (c s) T.e).sum +
          (sq.map fun T => weightAt T useM (errorVec (c t) T.body) * squared T.sqrtInvR T.body.dim (errorVec (c s) T.body)).sum)
        (dvs.map fun d => ∑ j ∈ Finset.range (jenv.dim d), g.e 0 ((jenv.columnBase d).toNat + j) * η d j).sum t := by
  obtain ⟨σ1, e1, m1, m2⟩ := cost_spec (tbl := tbl) (env := c t) ns sq (fun T hT => ⟨(hns T hT).cons, (hns T hT).value⟩)
    (fun T hT => ⟨(hsq T hT).1, (hsq T hT).2.cons, (hsq T hT).2.value⟩) σ
  obtain ⟨nb, σ2, e2, p2, k2, -⟩ := each_spec (f := NTerm.view invS num (c t)) (c t) tbl (fun T => (Body.scalar T.e).ids (c t)) (fun _ => [])
    _ ns (fun T hT σ hσ => view_ns hm hd hnd hdvs hη hal (hns T hT) σ hσ) σ1 m1
  obtain ⟨qb, σ3, e3, p3, k3, -⟩ := each_spec (f := ETerm.view invS num (c t) useM) (c t) tbl (fun _ => []) (fun _ => [])
    _ sq (fun T hT σ _ => view_sq hm hd hnd hdvs hη hal useM (hsq T hT).1 (hsq T hT).2 σ) σ2 (by simp)
  obtain ⟨nt, hn1, hn2⟩ := choose_events p2
  obtain ⟨qt, hq1, hq2⟩ := choose_events p3
  obtain ⟨g, eg, -, -, hg, -⟩ := Gradient.C70_gradient debug align jenv henv nCols hcol hal.2 dvs hnd hdvs nt qt
    (fun p hp => by obtain ⟨T, -, h⟩ := forall₂_mem hn2 p hp; exact h.1)
    (fun p hp => by obtain ⟨T, -, h⟩ := forall₂_mem hq2 p hp; exact h.1) nThreads hth scaled useDense
  rw [hn1, hq1] at eg
  refine ⟨_, g, by simp [costAndGradient, e1, e2, e3, eg], ⟨_, e1⟩, ?_⟩
  have h1 := hasDerivAt_forall₂ (hn2.imp fun _ _ h => h.2)
  have h2 := hasDerivAt_forall₂ (hq2.imp fun _ _ h => h.2)
  refine (h1.add h2).congr_deriv ?_
  rw [← along_list, ← along_list, ← along_add]
  show _ = along jenv dvs η fun d j => g.e 0 ((jenv.columnBase d).toNat + j)
  refine along_congr fun d hdm j hj => ?_
  rw [hg d ((hdvs d).2 hdm) j hj, add_mul, List.sum_map_mul_right, List.sum_map_mul_right]

theorem eventually_list {α : Type} {t : ℝ} {P : ℝ → α → Prop} (as : List α) (h : ∀ a ∈ as, ∀ᶠ s in 𝓝 t, P s a) : ∀ᶠ s in 𝓝 t, ∀ a ∈ as, P s a := by
  induction as with
  | nil => simp
  | cons a as ih =>
    filter_upwards [h a (List.mem_cons_self ..), ih fun b hb => h b (List.mem_cons_of_mem _ hb)] with s h1 h2 b hb
    rcases List.mem_cons.1 hb with rfl | hb
    · exact h1
    · exact h2 b hb

theorem Ready.eventually {c : ℝ → Expr.Env} {t : ℝ} {δ : (v : Var) → v.Idx → ℝ} (hm : Moves invS c t δ) {jenv : Jacobian.Env ℝ} (hd : ∀ v, jenv.dim (num v) = dimV v)
    {scaled : Bool} {η : Nat → Nat → ℝ} (hη : Step num jenv scaled η δ) {b : Body} (h : Ready tbl c t b) : ∀ᶠ s in 𝓝 t, ∃ x, b.value (c s) = .ok x := by
  obtain ⟨x, hx⟩ := h.value
  obtain ⟨f, -, h1, -⟩ := body_good (num := num) hm hη.numbered hd h.cons h.smooth hx
  exact h1.mono fun s hs => ⟨_, hs⟩

/-- **C100, reported cost** (partial: without M-estimators and for symmetric square roots of the inverse covariance). The gradient times a step is
the derivative along that step of the very number that `evaluateError` returns. -/
theorem C100_reported_cost_partial {c : ℝ → Expr.Env} {t : ℝ} {δ : (v : Var) → v.Idx → ℝ} (hm : Moves invS c t δ) (jenv : Jacobian.Env ℝ)
    (hd : ∀ v, jenv.dim (num v) = dimV v) (henv : EnvOk jenv) (nCols : Nat) (hcol : ColumnsOk jenv nCols) (dvs : List Nat) (hnd : dvs.Nodup)
    (hdvs : ∀ d, jenv.active d = true ↔ d ∈ dvs) (scaled : Bool) (η : Nat → Nat → ℝ) (hη : Step num jenv scaled η δ)
    (ns : List NTerm) (hns : ∀ T ∈ ns, Ready tbl c t (.scalar T.e)) (sq : List ETerm) (hsq : ∀ T ∈ sq, T.Ok ∧ Ready tbl c t T.body)
    (hone : ∀ T ∈ sq, ∀ x, T.policy x = 1) (hsym : ∀ T ∈ sq, ∀ i j, i < T.body.dim → j < T.body.dim → T.sqrtInvR.e i j = T.sqrtInvR.e j i)
    (debug : Bool) (align : Nat) (hal : align < 2 ^ 16 ∧ 0 < align) (nThreads : Nat) (hth : 0 < nThreads) (useM useDense : Bool) (σ : Store) :
    ∃ (r : ℝ → ℝ) (g : DMat ℝ), costAndGradient invS num debug align jenv dvs nCols nThreads useM scaled useDense (c t) ns sq σ = .ok (r t, g) ∧
      (∀ᶠ s in 𝓝 t, ∀ σ, ∃ σ', cost (c s) ns sq σ = .ok (r s, σ')) ∧
      HasDerivAt r (dvs.map fun d => ∑ j ∈ Finset.range (jenv.dim d), g.e 0 ((jenv.columnBase d).toNat + j) * η d j).sum t := by
  obtain ⟨k, g, e, ⟨σ', ek⟩, hg⟩ := C100_gradient hm jenv hd henv nCols hcol dvs hnd hdvs scaled η hη ns hns sq hsq debug align hal nThreads hth useM useDense σ
  have key : ∀ s, (∀ T ∈ ns, ∃ x, (Body.scalar T.e).value (c s) = .ok x) → (∀ T ∈ sq, ∃ x, T.body.value (c s) = .ok x) → ∀ σ, ∃ σ', cost (c s) ns sq σ = .ok
      ((ns.map fun T => T.w * scalarOf (c s) T.e).sum +
          (sq.map fun T => weightAt T useM (errorVec (c t) T.body) * squared T.sqrtInvR T.body.dim (errorVec (c s) T.body)).sum, σ') := by
    intro s h1 h2 σ
    obtain ⟨σ', h, -⟩ := cost_spec (tbl := tbl) (env := c s) ns sq (fun T hT => ⟨(hns T hT).cons, h1 T hT⟩)
      (fun T hT => ⟨(hsq T hT).1, (hsq T hT).2.cons, h2 T hT⟩) σ
    refine ⟨σ', h.trans ?_⟩
    congr 3
    refine congrArg List.sum (List.map_congr_left fun T hT => ?_)
    simp only [weightAt, hone T hT, ite_self, squared]
    congr 1
    refine Finset.sum_congr rfl fun u hu => ?_
    congr 1
    refine Finset.sum_congr rfl fun v hv => ?_
    rw [hsym T hT u v (Finset.mem_range.1 hu) (Finset.mem_range.1 hv)]
  have ht := key t (fun T hT => (hns T hT).value) (fun T hT => (hsq T hT).2.value) σ
  refine ⟨_, g, ?_, ?_, hg⟩
  · obtain ⟨σ'', h⟩ := ht
    rw [ek] at h
    cases h
    exact e
  · have h1 : ∀ᶠ s in 𝓝 t, ∀ T ∈ ns, ∃ x, (Body.scalar T.e).value (c s) = .ok x :=
      eventually_list ns fun T hT => (hns T hT).eventually hm hd hη
    have h2 : ∀ᶠ s in 𝓝 t, ∀ T ∈ sq, ∃ x, T.body.value (c s) = .ok x :=
      eventually_list sq fun T hT => (hsq T hT).2.eventually hm hd hη
    filter_upwards [h1, h2] with s a b
    exact key s a b

/-! ### Normal equations -/

theorem sum_getD (l : List Nat) (f : Nat → ℝ) : (l.map f).sum = ∑ r ∈ Finset.range l.length, f (l.getD r 0) := by
  induction l with
  | nil => simp
  | cons a l ih =>
    rw [List.map_cons, List.sum_cons, List.length_cons, Finset.sum_range_succ', ih]
    simp [add_comm]

/-- The rate of change of the error vector. -/
noncomputable def rate (c : ℝ → Expr.Env) (t : ℝ) (b : Body) (i : Nat) : ℝ := deriv (fun s => errorVec (c s) b i) t

theorem weight_symm (b : Hessian.Term ℝ) (v v' : Nat) : Hessian.weight b v v' = Hessian.weight b v' v := by
  unfold Hessian.weight
  congr 1
  exact Finset.sum_congr rfl fun u _ => mul_comm _ _

theorem JtWJ_symm (jenv : Jacobian.Env ℝ) (b : Hessian.Term ℝ) (ev : List (Event ℝ)) (d d' x y : Nat) :
    Hessian.JtWJ jenv b ev d d' x y = Hessian.JtWJ jenv b ev d' d y x := by
  unfold Hessian.JtWJ
  rw [Finset.sum_comm]
  refine Finset.sum_congr rfl fun v _ => Finset.sum_congr rfl fun v' _ => ?_
  rw [weight_symm]
  ring

theorem weight_sum (b : Hessian.Term ℝ) (n : Nat) (hn : b.sqrtInvR.cols = n) (x y : Nat → ℝ) :
    ∑ v ∈ Finset.range n, ∑ v' ∈ Finset.range n, x v * Hessian.weight b v v' * y v' =
      b.sqrtWeight * b.sqrtWeight * ∑ u ∈ Finset.range n, (∑ v ∈ Finset.range n, b.sqrtInvR.e v u * x v) * ∑ v ∈ Finset.range n, b.sqrtInvR.e v u * y v := by
  have h1 : ∀ v v', x v * Hessian.weight b v v' * y v' =
      ∑ u ∈ Finset.range n, b.sqrtWeight * b.sqrtWeight * ((b.sqrtInvR.e v u * x v) * (b.sqrtInvR.e v' u * y v')) := by
    intro v v'
    unfold Hessian.weight
    rw [hn, Finset.mul_sum, Finset.mul_sum, Finset.sum_mul]
    exact Finset.sum_congr rfl fun u _ => by ring
  simp only [h1]
  have h2 : ∀ v, ∑ v' ∈ Finset.range n, ∑ u ∈ Finset.range n, b.sqrtWeight * b.sqrtWeight * ((b.sqrtInvR.e v u * x v) * (b.sqrtInvR.e v' u * y v')) =
      ∑ u ∈ Finset.range n, b.sqrtWeight * b.sqrtWeight * ((b.sqrtInvR.e v u * x v) * ∑ v' ∈ Finset.range n, b.sqrtInvR.e v' u * y v') := by
    intro v
    rw [Finset.sum_comm]
    refine Finset.sum_congr rfl fun u _ => ?_
    rw [Finset.mul_sum, Finset.mul_sum]
  simp only [h2]
  rw [Finset.sum_comm, Finset.mul_sum]
  refine Finset.sum_congr rfl fun u _ => ?_
  rw [Finset.sum_mul, Finset.mul_sum]

section Terms

variable {c : ℝ → Expr.Env} {t : ℝ} {δ : (v : Var) → v.Idx → ℝ} (hm : Moves invS c t δ) {jenv : Jacobian.Env ℝ} (hd : ∀ v, jenv.dim (num v) = dimV v)
  {dvs : List Nat} (hnd : dvs.Nodup) (hdvs : ∀ d, jenv.active d = true ↔ d ∈ dvs) {η : Nat → Nat → ℝ} (hη : Step num jenv true η δ)

include hm hd hnd hdvs hη

theorem hview_spec {align : Nat} (useM : Bool) {T : ETerm} (hT : T.Ok) (hr : Ready tbl c t T.body) (σ : Store) (hσ : ∀ i ∈ T.body.ids (c t), FreshId (c t) tbl σ i) :
    ∃ b σ', hview invS num (c t) useM (T, T.updated (errorVec (c t) T.body)) σ = .ok (b, σ') ∧
      (∃ ev, Hessian.Legal jenv align b ev ∧
        HasDerivAt (fun s => weightAt T useM (errorVec (c t) T.body) * squared T.sqrtInvR T.body.dim (errorVec (c s) T.body))
          (2 * along jenv dvs η fun d j => Hessian.JtWe jenv b ev d j) t ∧
        along jenv dvs η (fun d j => along jenv dvs η fun d' j' => Hessian.JtWJ jenv b ev d d' j j') =
          weightAt T useM (errorVec (c t) T.body) * squared T.sqrtInvR T.body.dim (rate c t T.body)) ∧
      Keeps (c t) tbl σ σ' ∧ ∀ i ∈ ([] : List Nat), FreshId (c t) tbl σ' i := by
  obtain ⟨x, hx⟩ := hr.value
  obtain ⟨f, d, h1, h2, h3, h4⟩ := body_good (num := num) hm hη.numbered hd hr.cons hr.smooth hx
  obtain ⟨L, σ2, e2, k2, hL⟩ := h4 σ hσ
  have hn := T.body.dim_le
  set n := T.body.dim with hndef
  rw [errorVec_eq hx]
  have hrate : ∀ i, i < n → rate c t T.body i = d i := by
    intro i hi
    refine HasDerivAt.deriv ((h3 i hi).congr_of_eventuallyEq (h1.mono fun s hs => ?_))
    simp only [errorVec_eq hs]
  set ev : List (Event ℝ) := (L.filter fun p => jenv.active p.1).map fun p => (p.1, Jacobian.Spec.contribution [] p.2) with hev
  have hJ : ∀ v, v < n → along jenv dvs η (fun dv j => Hessian.scaledJ jenv ev dv v j) = d v := by
    intro v hv
    rw [← hL.sum v hv, ← along_assigned hnd hdvs true η L (fun p hp => (hL.shape p hp).2)]
    refine along_congr fun dv hdv j _ => ?_
    rw [Hessian.scaledJ, Jacobian.total_adds jenv n L (fun p hp => (hL.shape p hp).1) dv ((hdvs dv).2 hdv) hv]
    simp [mul_comm]
  set b : Hessian.Term ℝ := ⟨n, Jacobian.adds L, x, T.sqrtInvR, ErrorTerm.sqrtWeight (T.updated x) useM⟩ with hb
  refine ⟨b, σ2, by simp [hview, e2, hb]; exact ⟨rfl, rfl⟩, ⟨ev, ⟨by show n < 2 ^ 16; omega, hT.rows, [], ?_⟩, ?_, ?_⟩, k2, by simp⟩
  · simpa using Jacobian.run_adds jenv align n L hL.shape []
  · have hder : HasDerivAt (fun s => squared T.sqrtInvR n (errorVec (c s) T.body))
        (∑ u ∈ Finset.range n, 2 * (∑ v ∈ Finset.range n, T.sqrtInvR.e v u * x v) * ∑ v ∈ Finset.range n, T.sqrtInvR.e v u * d v) t := by
      have := squared_deriv T.sqrtInvR n h3
      rw [h2] at this
      refine this.congr_of_eventuallyEq (h1.mono fun s hs => ?_)
      simp only [errorVec_eq hs]
    refine (hder.const_mul _).congr_deriv ?_
    have h5 : along jenv dvs η (fun dv j => Hessian.JtWe jenv b ev dv j) =
        ∑ v ∈ Finset.range n, ∑ v' ∈ Finset.range n, d v * Hessian.weight b v v' * x v' := by
      have h6 : along jenv dvs η (fun dv j => Hessian.JtWe jenv b ev dv j) =
          along jenv dvs η (fun dv j => ∑ v ∈ Finset.range n, ∑ v' ∈ Finset.range n, Hessian.weight b v v' * x v' * Hessian.scaledJ jenv ev dv v j) := by
        refine along_congr fun dv _ j _ => ?_
        unfold Hessian.JtWe
        exact Finset.sum_congr rfl fun v _ => Finset.sum_congr rfl fun v' _ => by ring
      rw [h6, along_finset]
      refine Finset.sum_congr rfl fun v hv => ?_
      rw [along_finset]
      refine Finset.sum_congr rfl fun v' _ => ?_
      rw [along_smul, hJ v (Finset.mem_range.1 hv)]
      ring
    rw [h5, weight_sum b n hT.cols, ← sqrtWeight_mul T hT, Finset.mul_sum, Finset.mul_sum, Finset.mul_sum]
    exact Finset.sum_congr rfl fun u _ => by rw [hb]; ring
  · have h5 : along jenv dvs η (fun dv j => along jenv dvs η fun d' j' => Hessian.JtWJ jenv b ev dv d' j j') =
        ∑ v ∈ Finset.range n, ∑ v' ∈ Finset.range n, d v * Hessian.weight b v v' * d v' := by
      have h6 : along jenv dvs η (fun dv j => along jenv dvs η fun d' j' => Hessian.JtWJ jenv b ev dv d' j j') =
          along jenv dvs η (fun dv j => ∑ v ∈ Finset.range n, ∑ v' ∈ Finset.range n, Hessian.weight b v v' * d v' * Hessian.scaledJ jenv ev dv v j) := by
        refine along_congr fun dv _ j _ => ?_
        have h7 : along jenv dvs η (fun d' j' => Hessian.JtWJ jenv b ev dv d' j j') =
            along jenv dvs η (fun d' j' => ∑ v ∈ Finset.range n, ∑ v' ∈ Finset.range n, Hessian.weight b v v' * Hessian.scaledJ jenv ev dv v j * Hessian.scaledJ jenv ev d' v' j') := by
          refine along_congr fun d' _ j' _ => ?_
          unfold Hessian.JtWJ
          exact Finset.sum_congr rfl fun v _ => Finset.sum_congr rfl fun v' _ => by ring
        rw [h7, along_finset]
        refine Finset.sum_congr rfl fun v _ => ?_
        rw [along_finset]
        refine Finset.sum_congr rfl fun v' hv' => ?_
        rw [along_smul, hJ v' (Finset.mem_range.1 hv')]
        ring
      rw [h6, along_finset]
      refine Finset.sum_congr rfl fun v hv => ?_
      rw [along_finset]
      refine Finset.sum_congr rfl fun v' _ => ?_
      rw [along_smul, hJ v (Finset.mem_range.1 hv)]
      ring
    rw [h5, weight_sum b n hT.cols, ← sqrtWeight_mul T hT]
    unfold squared
    congr 1
    refine Finset.sum_congr rfl fun u _ => ?_
    have h7 : ∑ v ∈ Finset.range n, T.sqrtInvR.e v u * rate c t T.body v = ∑ v ∈ Finset.range n, T.sqrtInvR.e v u * d v :=
      Finset.sum_congr rfl fun v hv => by rw [hrate v (Finset.mem_range.1 hv)]
    rw [h7, sq]

end Terms

/-- The symmetric matrix whose upper blocks the solver stores: coefficient `(a, b)` of block `(r, c)`. -/
def symm (L : SBM.Layout) (H : DMat ℝ) (r a k b : Nat) : ℝ := if r ≤ k then H.e (L.base r + a) (L.base k + b) else H.e (L.base k + b) (L.base r + a)

/-- `C100_normal_equations` below, and that the layout is kept, the blocks below the diagonal are zero and those on the diagonal are symmetric. For a problem of squared expression error terms `evaluateError` followed by `buildSystem` gives the normal equations
of that problem: the right-hand side times any step is minus half of the derivative of the weighted cost along the step, and the quadratic form of the
matrix at the step is the weighted squared rate of change of the errors, `Σ ω ėᵀ R⁻¹ ė` (Gauss-Newton). -/
theorem normal_equations_full {c : ℝ → Expr.Env} {t : ℝ} {δ : (v : Var) → v.Idx → ℝ} (hm : Moves invS c t δ) (jenv : Jacobian.Env ℝ)
    (hd : ∀ v, jenv.dim (num v) = dimV v) (dvs : List Nat) (hix : Hessian.Indexed jenv dvs) (hnd : dvs.Nodup) (hdvs : ∀ d, jenv.active d = true ↔ d ∈ dvs)
    (η : Nat → Nat → ℝ) (hη : Step num jenv true η δ) (sq : List ETerm) (hsq : ∀ T ∈ sq, T.Ok ∧ Ready tbl c t T.body)
    (debug : Bool) (align : Nat) (hal : 0 < align) (useM : Bool) (σ : Store) (s : Hessian.Sys ℝ) (hs : Hessian.SysOk (Hessian.dvLayout jenv dvs) s) :
    ∃ s', normalEquations invS num debug align jenv useM (c t) sq σ s = .ok s' ∧ Hessian.SysOk (Hessian.dvLayout jenv dvs) s' ∧
      HasDerivAt (fun s => (sq.map fun T => weightAt T useM (errorVec (c t) T.body) * squared T.sqrtInvR T.body.dim (errorVec (c s) T.body)).sum)
        (-2 * ∑ r ∈ Finset.range dvs.length, ∑ a ∈ Finset.range (jenv.dim (dvs.getD r 0)),
          s'.rhs ((Hessian.dvLayout jenv dvs).base r + a) * η (dvs.getD r 0) a) t ∧
      (∑ r ∈ Finset.range dvs.length, ∑ a ∈ Finset.range (jenv.dim (dvs.getD r 0)),
        (∑ k ∈ Finset.range dvs.length, ∑ b ∈ Finset.range (jenv.dim (dvs.getD k 0)),
          symm (Hessian.dvLayout jenv dvs) s'.H.toDense r a k b * η (dvs.getD k 0) b) * η (dvs.getD r 0) a) =
        (sq.map fun T => weightAt T useM (errorVec (c t) T.body) * squared T.sqrtInvR T.body.dim (rate c t T.body)).sum ∧
      (∀ r a k b, r < dvs.length → a < jenv.dim (dvs.getD r 0) → k < r → b < jenv.dim (dvs.getD k 0) →
        s'.H.toDense.e ((Hessian.dvLayout jenv dvs).base r + a) ((Hessian.dvLayout jenv dvs).base k + b) = 0) ∧
      ∀ r a b, r < dvs.length → a < jenv.dim (dvs.getD r 0) → b < jenv.dim (dvs.getD r 0) →
        s'.H.toDense.e ((Hessian.dvLayout jenv dvs).base r + a) ((Hessian.dvLayout jenv dvs).base r + b) =
        s'.H.toDense.e ((Hessian.dvLayout jenv dvs).base r + b) ((Hessian.dvLayout jenv dvs).base r + a) := by
  obtain ⟨ks, σ1, e1, p1, -, m1⟩ := each_spec (f := ETerm.stored (c t)) (c t) tbl (fun _ => []) (fun T => T.body.ids (c t))
    (fun T k => k = (T, T.updated (errorVec (c t) T.body))) sq (by
      intro T hT σ _
      obtain ⟨x, hx⟩ := (hsq T hT).2.value
      obtain ⟨σ', e, k, m⟩ := evaluate_spec (hsq T hT).2.cons hx σ
      exact ⟨_, _, by simp [ETerm.stored, e]; rfl, by rw [errorVec_eq hx], k, m⟩) σ (by simp)
  have hks : ks = sq.map fun T => (T, T.updated (errorVec (c t) T.body)) := by
    clear e1 m1 hsq
    induction p1 with
    | nil => rfl
    | cons h _ ih => rw [h, ih, List.map_cons]
  subst hks
  obtain ⟨qb, σ3, e3, p3, -, -⟩ := each_spec (f := hview invS num (c t) useM) (c t) tbl (fun p => p.1.body.ids (c t)) (fun _ => [])
    (fun p b => ∃ ev, Hessian.Legal jenv align b ev ∧
        HasDerivAt (fun s => weightAt p.1 useM (errorVec (c t) p.1.body) * squared p.1.sqrtInvR p.1.body.dim (errorVec (c s) p.1.body))
          (2 * along jenv dvs η fun d j => Hessian.JtWe jenv b ev d j) t ∧
        along jenv dvs η (fun d j => along jenv dvs η fun d' j' => Hessian.JtWJ jenv b ev d d' j j') =
          weightAt p.1 useM (errorVec (c t) p.1.body) * squared p.1.sqrtInvR p.1.body.dim (rate c t p.1.body)) (sq.map fun T => (T, T.updated (errorVec (c t) T.body)))
    (by
      intro p hp σ hσ
      obtain ⟨T, hT, rfl⟩ := List.mem_map.1 hp
      exact hview_spec hm hd hnd hdvs hη useM (hsq T hT).1 (hsq T hT).2 σ hσ) σ1 (by
      intro p hp
      obtain ⟨T, hT, rfl⟩ := List.mem_map.1 hp
      exact m1 T hT)
  obtain ⟨qt, hq1, hq2⟩ := choose_events p3
  obtain ⟨s', es, hok, hsys⟩ := Hessian.C07_normal_equations debug align hal jenv dvs hix qt
    (fun p hp => by obtain ⟨T, -, h⟩ := forall₂_mem hq2 p hp; exact h.1) s hs
  rw [hq1] at es
  refine ⟨s', by simp [normalEquations, e1, e3, es], hok, ?_, ?_, fun r a k b hr ha hk hb => by rw [((hsys r a hr ha).2 k b (by omega) hb), if_neg (by omega)],
    fun r a b hr ha hb => by
      rw [(hsys r a hr ha).2 r b hr hb, (hsys r b hr hb).2 r a hr ha, if_pos le_rfl, if_pos le_rfl]
      exact congrArg List.sum (List.map_congr_left fun p _ => JtWJ_symm ..)⟩
  · have h2 := hasDerivAt_forall₂ (hq2.imp fun _ _ h => h.2.1)
    simp only [List.map_map, Function.comp_def] at h2
    refine h2.congr_deriv ?_
    rw [List.sum_map_mul_left, ← along_list, along, sum_getD, Finset.mul_sum, Finset.mul_sum]
    refine Finset.sum_congr rfl fun r hr => ?_
    rw [Finset.mul_sum, Finset.mul_sum]
    refine Finset.sum_congr rfl fun a ha => ?_
    rw [(hsys r a (Finset.mem_range.1 hr) (Finset.mem_range.1 ha)).1]
    ring
  · have h3 := forall₂_sum hq2 _ _ (fun _ _ h => h.2.2.symm)
    simp only [List.map_map, Function.comp_def] at h3
    rw [h3, ← along_list, along, sum_getD]
    refine Finset.sum_congr rfl fun r hr => Finset.sum_congr rfl fun a ha => ?_
    congr 1
    rw [← along_list, along, sum_getD]
    refine Finset.sum_congr rfl fun k hk => Finset.sum_congr rfl fun b hb => ?_
    congr 1
    have h4 := (hsys r a (Finset.mem_range.1 hr) (Finset.mem_range.1 ha)).2 k b (Finset.mem_range.1 hk) (Finset.mem_range.1 hb)
    have h5 := (hsys k b (Finset.mem_range.1 hk) (Finset.mem_range.1 hb)).2 r a (Finset.mem_range.1 hr) (Finset.mem_range.1 ha)
    unfold symm
    by_cases hrk : r ≤ k
    · rw [if_pos hrk, h4, if_pos hrk]
    · rw [if_neg hrk, h5, if_pos (by omega)]
      exact congrArg List.sum (List.map_congr_left fun p _ => JtWJ_symm ..)

/-- **C100, normal equations.** For a problem of squared expression error terms `evaluateError` followed by `buildSystem` gives the normal equations
of that problem: the right-hand side times any step is minus half of the derivative of the weighted cost along the step, and the quadratic form of the
matrix at the step is the weighted squared rate of change of the errors, `Σ ω ėᵀ R⁻¹ ė` (Gauss-Newton). -/
theorem C100_normal_equations {c : ℝ → Expr.Env} {t : ℝ} {δ : (v : Var) → v.Idx → ℝ} (hm : Moves invS c t δ) (jenv : Jacobian.Env ℝ)
    (hd : ∀ v, jenv.dim (num v) = dimV v) (dvs : List Nat) (hix : Hessian.Indexed jenv dvs) (hnd : dvs.Nodup) (hdvs : ∀ d, jenv.active d = true ↔ d ∈ dvs)
    (η : Nat → Nat → ℝ) (hη : Step num jenv true η δ) (sq : List ETerm) (hsq : ∀ T ∈ sq, T.Ok ∧ Ready tbl c t T.body)
    (debug : Bool) (align : Nat) (hal : 0 < align) (useM : Bool) (σ : Store) (s : Hessian.Sys ℝ) (hs : Hessian.SysOk (Hessian.dvLayout jenv dvs) s) :
    ∃ s', normalEquations invS num debug align jenv useM (c t) sq σ s = .ok s' ∧
      HasDerivAt (fun s => (sq.map fun T => weightAt T useM (errorVec (c t) T.body) * squared T.sqrtInvR T.body.dim (errorVec (c s) T.body)).sum)
        (-2 * ∑ r ∈ Finset.range dvs.length, ∑ a ∈ Finset.range (jenv.dim (dvs.getD r 0)),
          s'.rhs ((Hessian.dvLayout jenv dvs).base r + a) * η (dvs.getD r 0) a) t ∧
      (∑ r ∈ Finset.range dvs.length, ∑ a ∈ Finset.range (jenv.dim (dvs.getD r 0)),
        (∑ k ∈ Finset.range dvs.length, ∑ b ∈ Finset.range (jenv.dim (dvs.getD k 0)),
          symm (Hessian.dvLayout jenv dvs) s'.H.toDense r a k b * η (dvs.getD k 0) b) * η (dvs.getD r 0) a) =
        (sq.map fun T => weightAt T useM (errorVec (c t) T.body) * squared T.sqrtInvR T.body.dim (rate c t T.body)).sum := by
  obtain ⟨s', e, -, h1, h2, -⟩ := normal_equations_full hm jenv hd dvs hix hnd hdvs η hη sq hsq debug align hal useM σ s hs
  exact ⟨s', e, h1, h2⟩

/-- **C100, descent.** A step that solves the normal equations of a problem of expression error terms, with any non-negative damping on the diagonal,
does not increase the weighted cost to first order: the derivative along it is minus twice the weighted squared rate of the errors plus the damping. -/
theorem C100_descent {c : ℝ → Expr.Env} {t : ℝ} {δ : (v : Var) → v.Idx → ℝ} (hm : Moves invS c t δ) (jenv : Jacobian.Env ℝ)
    (hd : ∀ v, jenv.dim (num v) = dimV v) (dvs : List Nat) (hix : Hessian.Indexed jenv dvs) (hnd : dvs.Nodup) (hdvs : ∀ d, jenv.active d = true ↔ d ∈ dvs)
    (η : Nat → Nat → ℝ) (hη : Step num jenv true η δ) (sq : List ETerm) (hsq : ∀ T ∈ sq, T.Ok ∧ Ready tbl c t T.body)
    (debug : Bool) (align : Nat) (hal : 0 < align) (useM : Bool) (σ : Store) (s : Hessian.Sys ℝ) (hs : Hessian.SysOk (Hessian.dvLayout jenv dvs) s)
    (s' : Hessian.Sys ℝ) (hs' : normalEquations invS num debug align jenv useM (c t) sq σ s = .ok s') (damp : Nat → Nat → ℝ) (hdamp : ∀ r a, 0 ≤ damp r a)
    (hsol : ∀ r, r < dvs.length → ∀ a, a < jenv.dim (dvs.getD r 0) →
      (∑ k ∈ Finset.range dvs.length, ∑ b ∈ Finset.range (jenv.dim (dvs.getD k 0)),
        symm (Hessian.dvLayout jenv dvs) s'.H.toDense r a k b * η (dvs.getD k 0) b) + damp r a * η (dvs.getD r 0) a =
      s'.rhs ((Hessian.dvLayout jenv dvs).base r + a)) :
    ∃ D, HasDerivAt (fun s => (sq.map fun T => weightAt T useM (errorVec (c t) T.body) * squared T.sqrtInvR T.body.dim (errorVec (c s) T.body)).sum) D t ∧
      D = -2 * ((sq.map fun T => weightAt T useM (errorVec (c t) T.body) * squared T.sqrtInvR T.body.dim (rate c t T.body)).sum +
        ∑ r ∈ Finset.range dvs.length, ∑ a ∈ Finset.range (jenv.dim (dvs.getD r 0)), damp r a * η (dvs.getD r 0) a ^ 2) ∧ D ≤ 0 := by
  obtain ⟨s'', e, h1, h2⟩ := C100_normal_equations hm jenv hd dvs hix hnd hdvs η hη sq hsq debug align hal useM σ s hs
  rw [hs'] at e
  cases e
  have h3 : (∑ r ∈ Finset.range dvs.length, ∑ a ∈ Finset.range (jenv.dim (dvs.getD r 0)),
      s'.rhs ((Hessian.dvLayout jenv dvs).base r + a) * η (dvs.getD r 0) a) =
      (sq.map fun T => weightAt T useM (errorVec (c t) T.body) * squared T.sqrtInvR T.body.dim (rate c t T.body)).sum +
        ∑ r ∈ Finset.range dvs.length, ∑ a ∈ Finset.range (jenv.dim (dvs.getD r 0)), damp r a * η (dvs.getD r 0) a ^ 2 := by
    rw [← h2, ← Finset.sum_add_distrib]
    refine Finset.sum_congr rfl fun r hr => ?_
    rw [← Finset.sum_add_distrib]
    refine Finset.sum_congr rfl fun a ha => ?_
    rw [← hsol r (Finset.mem_range.1 hr) a (Finset.mem_range.1 ha)]
    ring
  rw [h3] at h1
  refine ⟨_, h1, rfl, ?_⟩
  have h4 : 0 ≤ (sq.map fun T => weightAt T useM (errorVec (c t) T.body) * squared T.sqrtInvR T.body.dim (rate c t T.body)).sum := by
    refine List.sum_nonneg fun y hy => ?_
    obtain ⟨T, hT, rfl⟩ := List.mem_map.1 hy
    refine mul_nonneg ?_ (Finset.sum_nonneg fun u _ => sq_nonneg _)
    unfold weightAt
    split_ifs
    · exact (hsq T hT).1.weight _ (Finset.sum_nonneg fun _ _ => sq_nonneg _)
    · exact zero_le_one
  have h5 : 0 ≤ ∑ r ∈ Finset.range dvs.length, ∑ a ∈ Finset.range (jenv.dim (dvs.getD r 0)), damp r a * η (dvs.getD r 0) a ^ 2 :=
    Finset.sum_nonneg fun r _ => Finset.sum_nonneg fun a _ => mul_nonneg (hdamp r a) (sq_nonneg _)
  linarith

/-! ### Examples -/
section Example

/-- An address for every design variable. -/
def addr : Var → Nat
  | .sc i => Nat.pair 0 i
  | .pt i => Nat.pair 1 i
  | .ro i => Nat.pair 2 i
  | .ho i => Nat.pair 3 i
  | .mat i free => Nat.pair 4 (Nat.pair i (Encodable.encode free))

theorem addr_inj : Function.Injective addr := by
  intro v w h
  cases v <;> cases w <;> simp_all [addr, Nat.pair_eq_pair]

def addrDim (d : Nat) : Nat :=
  if d.unpair.1 = 0 then 1 else if d.unpair.1 ≤ 3 then 3 else match (Encodable.decode d.unpair.2.unpair.2 : Option (List (Fin 3 × Fin 3))) with
    | some l => l.length
    | none => 0

theorem addr_dim (v : Var) : addrDim (addr v) = dimV v := by
  cases v <;> simp [addrDim, addr, dimV]

/-- Point 0 and rotation 0 are active, scaled by 2. -/
noncomputable def exEnv : Jacobian.Env ℝ where
  blockIndex d := if d = addr (.pt 0) then 0 else if d = addr (.ro 0) then 1 else -1
  columnBase d := if d = addr (.pt 0) then 0 else if d = addr (.ro 0) then 3 else -1
  dim := addrDim
  active d := d = addr (.pt 0) || d = addr (.ro 0)
  scaling _ := 2

def exDvs : List Nat := [addr (.pt 0), addr (.ro 0)]

/-- Point 0 moves along x, rotation 0 turns about z, the rest is at rest. -/
noncomputable def exCurve (s : ℝ) : Expr.Env :=
  ⟨fun i => i, fun i => if i = 0 then ![s, 1, 0] else ![1, 2, 3], fun i => if i = 0 then Expr.axisRot 2 s else Expr.axisRot 2 0, fun _ => (![0, 0, 1], 1), fun _ _ => 1⟩

noncomputable def exDir : (v : Var) → v.Idx → ℝ
  | .pt 0 => ![1, 0, 0]
  | .ro 0 => -Expr.colUnit 2 *ᵥ fun _ => 1
  | _ => 0

noncomputable def exStep (d j : Nat) : ℝ :=
  if d = addr (.pt 0) then (if j = 0 then 1 / 2 else 0) else if d = addr (.ro 0) then (if j = 2 then -1 / 2 else 0) else 0

theorem addr_ne : addr (.pt 0) ≠ addr (.ro 0) := by decide

theorem exMoves (t : ℝ) : Moves invS exCurve t exDir where
  sc i := hasDerivAt_const _ _
  pt i := by
    by_cases hi : i = 0
    · subst hi
      intro k
      fin_cases k
      · exact hasDerivAt_id t
      · exact hasDerivAt_const _ _
      · exact hasDerivAt_const _ _
    · simp only [exCurve, hi, if_false]
      refine (VDeriv.const _).congr ?_
      cases i with
      | zero => exact absurd rfl hi
      | succ i => rfl
  ro i := by
    by_cases hi : i = 0
    · subst hi
      exact Expr.axisRot_deriv 2 (hasDerivAt_id t)
    · simp only [exCurve, hi, if_false]
      refine (MDeriv.const _).congr ?_
      cases i with
      | zero => exact absurd rfl hi
      | succ i => simp [exDir, crossMx_zero]
  rot i s := by
    by_cases hi : i = 0 <;> simp only [exCurve, hi, if_true, if_false] <;> exact Expr.axisRot_isRot _ _
  ho1 i := (VDeriv.const _).congr (by simp [exDir]; rfl)
  ho2 i := HasDerivAt.congr_deriv (hasDerivAt_const _ _) (by simp [exDir])
  mat i free := (MDeriv.const _).congr (by simp [exDir]; rfl)

theorem exStep_ok (scaled : Bool) (hs : scaled = true) : Step addr exEnv scaled exStep exDir := by
  subst hs
  intro v j
  by_cases h1 : v = .pt 0
  · subst h1
    fin_cases j <;> simp [exEnv, exStep, exDir, coord] <;> rfl
  · by_cases h2 : v = .ro 0
    · subst h2
      have h : ∀ k : Fin 3, (-Expr.colUnit 2 *ᵥ fun _ => (1 : ℝ)) k = if k = 2 then -1 else 0 := by
        intro k
        fin_cases k <;> simp [Expr.colUnit, Expr.colM, mulVec, dotProduct]
      fin_cases j
      · exact (h 0).trans (by simp [exEnv, exStep, addr_ne.symm])
      · exact (h 1).trans (by simp [exEnv, exStep, addr_ne.symm])
      · exact (h 2).trans (by simp [exEnv, exStep, addr_ne.symm]; norm_num)
    · have ha1 : addr v ≠ addr (.pt 0) := fun h => h1 (addr_inj h)
      have ha2 : addr v ≠ addr (.ro 0) := fun h => h2 (addr_inj h)
      simp only [exEnv, ha1, ha2, decide_false, Bool.or_self, Bool.false_eq_true, if_false]
      cases v with
      | sc i => rfl
      | pt i => cases i with
        | zero => exact absurd rfl h1
        | succ i => rfl
      | ro i => cases i with
        | zero => exact absurd rfl h2
        | succ i => rfl
      | ho i => rfl
      | mat i free => rfl

theorem exIndexed : Hessian.Indexed exEnv exDvs where
  block i hi := by
    have : i = 0 ∨ i = 1 := by simp [exDvs] at hi; omega
    rcases this with rfl | rfl <;> simp [exEnv, exDvs, addr_ne.symm]
  mem d hd := by
    simp only [exEnv, Bool.or_eq_true, decide_eq_true_eq] at hd
    rcases hd with rfl | rfl
    · exact ⟨0, by simp [exDvs], rfl⟩
    · exact ⟨1, by simp [exDvs], rfl⟩

theorem exNodup : exDvs.Nodup := by simp [exDvs, addr_ne]

theorem exActive (d : Nat) : exEnv.active d = true ↔ d ∈ exDvs := by simp [exEnv, exDvs]

theorem exColumns : ColumnsOk exEnv 6 where
  nonneg d hd := by
    rcases List.mem_cons.1 ((exActive d).1 hd) with rfl | h
    · simp [exEnv]
    · rw [List.mem_singleton] at h; subst h; simp [exEnv, addr_ne.symm]
  fits d hd := by
    rcases List.mem_cons.1 ((exActive d).1 hd) with rfl | h
    · simp [exEnv, addr_dim, dimV]
    · rw [List.mem_singleton] at h; subst h; simp [exEnv, addr_ne.symm, addr_dim, dimV]
  disjoint d d' hd hd' hne := by
    rcases List.mem_cons.1 ((exActive d).1 hd) with rfl | h <;> rcases List.mem_cons.1 ((exActive d').1 hd') with rfl | h'
    · exact absurd rfl hne
    · rw [List.mem_singleton] at h'; subst h'; left; simp [exEnv, addr_ne.symm, addr_dim, dimV]
    · rw [List.mem_singleton] at h; subst h; right; simp [exEnv, addr_ne.symm, addr_dim, dimV]
    · rw [List.mem_singleton] at h h'; exact absurd (h.trans h'.symm) hne

/-- The rotated sum of two points, weighted with correlations and with a Cauchy weight. -/
noncomputable def exTerm : ETerm where
  body := .point Expr.exPoint
  sqrtInvR := ⟨3, 3, fun i j => if i = j then 2 else if i + j = 1 then 1 else 0⟩
  policy x := 1 / (1 + x ^ 2)

theorem exTerm_ok : exTerm.Ok := ⟨rfl, rfl, fun x _ => by simp only [exTerm]; positivity⟩

theorem exTerm_ready (t : ℝ) : Ready Expr.exTbl exCurve t exTerm.body :=
  ⟨by simp [Body.Cons, exTerm, Expr.Cons, Expr.exPoint, Expr.exTbl], by simp [Body.Smooth, exTerm, Expr.Smooth, Expr.exPoint], _, rfl⟩

/-- A non-squared term, the cosine-like product of two numbers. -/
noncomputable def exN : NTerm := ⟨.smul (.svar 0) (.svar 1), 3⟩

theorem exN_ready (t : ℝ) : Ready Expr.exTbl exCurve t (.scalar exN.e) :=
  ⟨by simp [Body.Cons, exN, Expr.Cons], by simp [Body.Smooth, exN, Expr.Smooth], _, rfl⟩

example := C100_gradient (invS := invS) (tbl := Expr.exTbl) (exMoves 1) exEnv addr_dim exIndexed.envOk 6 exColumns exDvs exNodup exActive true exStep (exStep_ok true rfl) [exN]
    (by simp [exN_ready]) [exTerm, exTerm] (by simp [exTerm_ok, exTerm_ready]) true 2 (by norm_num) 2 (by norm_num) true false fun _ => none

theorem exSys : Hessian.SysOk (Hessian.dvLayout exEnv exDvs)
    (⟨SBM.new (Hessian.dvLayout exEnv exDvs) (Hessian.dvLayout exEnv exDvs), fun _ => 7, 6⟩ : Hessian.Sys ℝ) :=
  ⟨SBM.new_WF _ _ (Hessian.dvLayout_mono _ _) (Hessian.dvLayout_mono _ _) _, rfl, rfl, rfl, by
    simp [SBM.Layout.total, Hessian.dvLayout, Finset.sum_range_succ, exEnv, exDvs, addr_dim, dimV]⟩

example := C100_normal_equations (invS := invS) (tbl := Expr.exTbl) (exMoves 1) exEnv addr_dim exDvs exIndexed exNodup exActive exStep (exStep_ok true rfl) [exTerm]
    (by simp [exTerm_ok, exTerm_ready]) true 2 (by norm_num) true (fun _ => none) _ exSys

/-- The distance of a point from `(2, 1, 0)`. -/
noncomputable def exGoal : ETerm where
  body := .point (.esubc (.evar 0) ![2, 1, 0])
  sqrtInvR := ⟨3, 3, fun i j => if i = j then 1 else 0⟩
  policy _ := 1

theorem exGoal_ok : exGoal.Ok := ⟨rfl, rfl, fun _ _ => zero_le_one⟩

theorem exGoal_value (s : ℝ) : exGoal.body.value (exCurve s) = .ok (vec (![s, 1, 0] - ![2, 1, 0])) := by
  rfl

theorem exGoal_ready (t : ℝ) : Ready Expr.exTbl exCurve t exGoal.body :=
  ⟨by simp [Body.Cons, exGoal, Expr.Cons], by simp [Body.Smooth, exGoal, Expr.Smooth], _, exGoal_value t⟩

example := C100_reported_cost_partial (invS := invS) (tbl := Expr.exTbl) (exMoves 1) exEnv addr_dim exIndexed.envOk 6 exColumns exDvs exNodup exActive true exStep
  (exStep_ok true rfl) [exN] (by simp [exN_ready]) [exGoal] (by simp [exGoal_ok, exGoal_ready]) (by simp [exGoal])
  (by simp only [List.mem_singleton, forall_eq]; intro i j _ _; simp [exGoal, eq_comm]) true 2 (by norm_num) 2 (by norm_num) true false fun _ => none

/-- The system of `exGoal`, and its solution. -/
theorem exGoal_solved : ∃ s', normalEquations invS addr true 2 exEnv true (exCurve 1) [exGoal] (fun _ => none)
      ⟨SBM.new (Hessian.dvLayout exEnv exDvs) (Hessian.dvLayout exEnv exDvs), fun _ => 7, 6⟩ = .ok s' ∧
    ∀ r, r < exDvs.length → ∀ a, a < exEnv.dim (exDvs.getD r 0) →
      (∑ k ∈ Finset.range exDvs.length, ∑ b ∈ Finset.range (exEnv.dim (exDvs.getD k 0)),
        symm (Hessian.dvLayout exEnv exDvs) s'.H.toDense r a k b * exStep (exDvs.getD k 0) b) + 0 * exStep (exDvs.getD r 0) a =
      s'.rhs ((Hessian.dvLayout exEnv exDvs).base r + a) := by
  set E : DMat ℝ := ⟨3, 3, fun i j => if h : i < 3 ∧ j < 3 then (1 : M3) ⟨i, h.1⟩ ⟨j, h.2⟩ else 0⟩ with hE
  set x : Nat → ℝ := vec (![1, 1, 0] - ![2, 1, 0]) with hx
  set b : Hessian.Term ℝ := ⟨3, Jacobian.adds [(addr (.pt 0), E)], x, exGoal.sqrtInvR, ErrorTerm.sqrtWeight (exGoal.updated x) true⟩ with hb
  have hw : b.sqrtWeight = 1 := by simp [hb, ErrorTerm.sqrtWeight, ETerm.updated, ErrorTerm.updateRaw, exGoal]
  set ev : List (Event ℝ) := ([(addr (.pt 0), E)].filter fun p => exEnv.active p.1).map fun p => (p.1, Jacobian.Spec.contribution [] p.2) with hev
  have hleg : Hessian.Legal exEnv 2 b ev := ⟨by show 3 < 2 ^ 16; omega, rfl, [], by
    simpa using Jacobian.run_adds exEnv 2 3 [(addr (.pt 0), E)] (by simp [hE, exEnv, addr_dim, dimV]) []⟩
  obtain ⟨s', es, -, hsys⟩ := Hessian.C07_normal_equations true 2 (by norm_num) exEnv exDvs exIndexed [(b, ev)] (by simpa using hleg) _ exSys
  refine ⟨s', ?_, ?_⟩
  · rw [← es]
    rfl
  · have hJ : ∀ d, d = addr (.pt 0) ∨ d = addr (.ro 0) → ∀ v, v < 3 → ∀ a, a < 3 → Hessian.scaledJ exEnv ev d v a = if d = addr (.pt 0) ∧ v = a then 2 else 0 := by
      intro d hd v hv a ha
      have hact : exEnv.active d = true := by simpa [exEnv] using hd
      rw [Hessian.scaledJ, hev, Jacobian.total_adds exEnv 3 [(addr (.pt 0), E)] (by simp [hE]) d hact hv]
      rcases hd with rfl | rfl
      · by_cases h : v = a <;> simp [Jacobian.assigned, hE, exEnv, hv, ha, Matrix.one_apply, h]
      · simp [Jacobian.assigned, addr_ne, addr_ne.symm]
    have hW : ∀ v, v < 3 → ∀ v', v' < 3 → Hessian.weight b v v' = if v = v' then 1 else 0 := by
      intro v hv v' hv'
      unfold Hessian.weight
      rw [hw]
      interval_cases v <;> interval_cases v' <;> simp [hb, exGoal, Finset.sum_range_succ]
    have hRhs : ∀ d, d = addr (.pt 0) ∨ d = addr (.ro 0) → ∀ a, a < 3 → Hessian.JtWe exEnv b ev d a = if d = addr (.pt 0) then 2 * x a else 0 := by
      intro d hd a ha
      unfold Hessian.JtWe
      show ∑ v ∈ Finset.range 3, ∑ v' ∈ Finset.range 3, _ * _ * x v' = _
      rw [Finset.sum_congr rfl fun v hv => Finset.sum_congr rfl fun v' hv' => by
        rw [hJ d hd v (Finset.mem_range.1 hv) a ha, hW v (Finset.mem_range.1 hv) v' (Finset.mem_range.1 hv')]]
      by_cases h : d = addr (.pt 0) <;> interval_cases a <;> simp [h, Finset.sum_range_succ]
    have hMat : ∀ d, d = addr (.pt 0) ∨ d = addr (.ro 0) → ∀ d', d' = addr (.pt 0) ∨ d' = addr (.ro 0) → ∀ a, a < 3 → ∀ a', a' < 3 →
        Hessian.JtWJ exEnv b ev d d' a a' = if d = addr (.pt 0) ∧ d' = addr (.pt 0) ∧ a = a' then 4 else 0 := by
      intro d hd d' hd' a ha a' ha'
      unfold Hessian.JtWJ
      show ∑ v ∈ Finset.range 3, ∑ v' ∈ Finset.range 3, _ = _
      rw [Finset.sum_congr rfl fun v hv => Finset.sum_congr rfl fun v' hv' => by
        rw [hJ d hd v (Finset.mem_range.1 hv) a ha, hJ d' hd' v' (Finset.mem_range.1 hv') a' ha', hW v (Finset.mem_range.1 hv) v' (Finset.mem_range.1 hv')]]
      by_cases h : d = addr (.pt 0) <;> by_cases h' : d' = addr (.pt 0) <;> interval_cases a <;> interval_cases a' <;> simp [h, h', Finset.sum_range_succ] <;> norm_num
    have hget : ∀ k, k < exDvs.length → (exDvs.getD k 0 = addr (.pt 0) ∨ exDvs.getD k 0 = addr (.ro 0)) ∧ exEnv.dim (exDvs.getD k 0) = 3 := by
      intro k hk
      have : k = 0 ∨ k = 1 := by simp [exDvs] at hk; omega
      rcases this with rfl | rfl
      · exact ⟨.inl rfl, by simp [exDvs, exEnv, addr_dim, dimV]⟩
      · exact ⟨.inr rfl, by simp [exDvs, exEnv, addr_dim, dimV]⟩
    intro r hr a ha
    have hS : ∀ k, k < exDvs.length → ∀ a', a' < 3 → symm (Hessian.dvLayout exEnv exDvs) s'.H.toDense r a k a' =
        if exDvs.getD r 0 = addr (.pt 0) ∧ exDvs.getD k 0 = addr (.pt 0) ∧ a = a' then 4 else 0 := by
      intro k hk a' ha'
      unfold symm
      have ha3 : a < 3 := by rw [(hget r hr).2] at ha; exact ha
      by_cases h : r ≤ k
      · rw [if_pos h, (hsys r a hr ha).2 k a' hk (by rw [(hget k hk).2]; exact ha'), if_pos h]
        simp only [List.map_cons, List.map_nil, List.sum_cons, List.sum_nil, add_zero, hMat _ (hget r hr).1 _ (hget k hk).1 a ha3 a' ha']
      · rw [if_neg h, (hsys k a' hk (by rw [(hget k hk).2]; exact ha')).2 r a hr ha, if_pos (by omega)]
        simp only [List.map_cons, List.map_nil, List.sum_cons, List.sum_nil, add_zero, hMat _ (hget k hk).1 _ (hget r hr).1 a' ha' a ha3]
        exact if_congr (by tauto) rfl rfl
    rw [(hsys r a hr ha).1]
    have ha3 : a < 3 := by rw [(hget r hr).2] at ha; exact ha
    simp only [List.map_cons, List.map_nil, List.sum_cons, List.sum_nil, add_zero, hRhs _ (hget r hr).1 a ha3]
    have hsum : (∑ k ∈ Finset.range exDvs.length, ∑ a' ∈ Finset.range (exEnv.dim (exDvs.getD k 0)),
        symm (Hessian.dvLayout exEnv exDvs) s'.H.toDense r a k a' * exStep (exDvs.getD k 0) a') =
        ∑ k ∈ Finset.range 2, ∑ a' ∈ Finset.range 3, (if exDvs.getD r 0 = addr (.pt 0) ∧ exDvs.getD k 0 = addr (.pt 0) ∧ a = a' then 4 else 0) * exStep (exDvs.getD k 0) a' := by
      refine Finset.sum_congr rfl fun k hk => ?_
      rw [(hget k (Finset.mem_range.1 hk)).2]
      exact Finset.sum_congr rfl fun a' ha' => by rw [hS k (Finset.mem_range.1 hk) a' (Finset.mem_range.1 ha')]
    rw [hsum]
    have : r = 0 ∨ r = 1 := by simp [exDvs] at hr; omega
    rcases this with rfl | rfl <;> interval_cases a <;> simp [exDvs, Finset.sum_range_succ, exStep, addr_ne, addr_ne.symm, hx, vec] <;> norm_num

example : ∃ D, HasDerivAt (fun s => ([exGoal].map fun T => weightAt T true (errorVec (exCurve 1) T.body) *
      squared T.sqrtInvR T.body.dim (errorVec (exCurve s) T.body)).sum) D 1 ∧ D ≤ 0 := by
  obtain ⟨s', h1, h2⟩ := exGoal_solved (invS := fun _ => 0)
  obtain ⟨D, h3, -, h4⟩ := C100_descent (tbl := Expr.exTbl) (exMoves 1) exEnv addr_dim exDvs exIndexed exNodup exActive exStep (exStep_ok true rfl) [exGoal]
    (by simp [exGoal_ok, exGoal_ready]) true 2 (by norm_num) true _ _ exSys s' h1 (fun _ _ => 0) (fun _ _ => le_refl _) h2
  exact ⟨D, h3, h4⟩

/-- A point variable as error, with a triangular root of the inverse covariance. -/
noncomputable def exSkew : ETerm where
  body := .point (.evar 0)
  sqrtInvR := ⟨3, 3, fun i j => if i = j then 1 else if i = 0 ∧ j = 1 then 1 else 0⟩
  policy _ := 1

/-- **C100, counterexample.** With a root of the inverse covariance that is not symmetric, the number that `evaluateError` returns changes along a
step at another rate than the gradient of `computeGradient` predicts. -/
theorem C100_reported_cost_counterexample (debug : Bool) (nThreads : Nat) (hth : 0 < nThreads) (useM useDense : Bool) (σ : Store) :
    ∃ (r : ℝ → ℝ) (k : ℝ) (g : DMat ℝ) (D : ℝ), (∀ s σ, ∃ σ', cost (exCurve s) [] [exSkew] σ = .ok (r s, σ')) ∧ HasDerivAt r D 1 ∧
      costAndGradient invS addr debug 2 exEnv exDvs 6 nThreads useM true useDense (exCurve 1) [] [exSkew] σ = .ok (k, g) ∧
      (exDvs.map fun d => ∑ j ∈ Finset.range (exEnv.dim d), g.e 0 ((exEnv.columnBase d).toNat + j) * exStep d j).sum ≠ D := by
  have hok : exSkew.Ok := ⟨rfl, rfl, fun _ _ => zero_le_one⟩
  have hv : ∀ s, exSkew.body.value (exCurve s) = .ok (vec ![s, 1, 0]) := fun s => by simp [Body.value, exSkew, Expr.val, exCurve]
  have hc : exSkew.body.Cons Expr.exTbl := by simp [Body.Cons, exSkew, Expr.Cons]
  obtain ⟨k, g, e, -, h⟩ := C100_gradient (invS := invS) (tbl := Expr.exTbl) (exMoves 1) exEnv addr_dim exIndexed.envOk 6 exColumns exDvs exNodup exActive true exStep
    (exStep_ok true rfl) [] (by simp) [exSkew] (by
      intro T hT
      rw [List.mem_singleton] at hT
      subst hT
      exact ⟨hok, hc, by simp [Body.Smooth, exSkew, Expr.Smooth], _, hv 1⟩) debug 2 (by norm_num) nThreads hth useM useDense σ
  refine ⟨fun s => (s + 1) ^ 2 + 1, k, g, 4, fun s σ => ?_, ?_, e, ?_⟩
  · obtain ⟨σ', h, -⟩ := cost_spec (tbl := Expr.exTbl) (env := exCurve s) [] [exSkew] (by simp) (by
      intro T hT
      rw [List.mem_singleton] at hT
      subst hT
      exact ⟨hok, hc, _, hv s⟩) σ
    refine ⟨σ', h.trans ?_⟩
    simp only [List.map_nil, List.sum_nil, List.map_cons, List.sum_cons, errorVec_eq (hv s)]
    simp [weightAt, exSkew, Body.dim, Finset.sum_range_succ, vec]
  · exact (((hasDerivAt_id' (1 : ℝ)).add_const 1).fun_pow 2 |>.add_const 1).congr_deriv (by norm_num)
  · have h2 : HasDerivAt (fun s : ℝ => s ^ 2 + (s + 1) ^ 2) 6 1 :=
      (((hasDerivAt_id' (1 : ℝ)).fun_pow 2).add (((hasDerivAt_id' (1 : ℝ)).add_const 1).fun_pow 2)).congr_deriv (by norm_num)
    have h3 : (fun s => (([] : List NTerm).map fun T => T.w * scalarOf (exCurve s) T.e).sum +
          ([exSkew].map fun T => weightAt T useM (errorVec (exCurve 1) T.body) * squared T.sqrtInvR T.body.dim (errorVec (exCurve s) T.body)).sum) =
        fun s : ℝ => s ^ 2 + (s + 1) ^ 2 := by
      funext s
      simp only [List.map_nil, List.sum_nil, List.map_cons, List.sum_cons, errorVec_eq (hv _)]
      simp [weightAt, exSkew, Body.dim, squared, Finset.sum_range_succ, vec]
    rw [h3] at h
    rw [h.unique h2]
    norm_num

end Example

end Verif.ExprTerm
