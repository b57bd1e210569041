import Verif.ErrorTerm.Model
import Mathlib.Algebra.BigOperators.Group.Finset.Sigma
import Mathlib.Tactic.Ring
import Mathlib.Tactic.NormNum

/-! Property theorems C08 (weighted error and weighted Jacobian). -/
namespace Verif.ErrorTerm
open Verif.MatrixStack (DMat)
open Verif.MatrixStack.Spec (prod cols scalarMat Fits)
open Verif.Jacobian Verif.Jacobian.Spec

theorem sqrtWeight_sq (t : Term) (useM : Bool) (h : 0 ≤ t.policy t.squaredError) :
    sqrtWeight t useM * sqrtWeight t useM = if useM then t.policy t.squaredError else 1 := by
  cases useM <;> simp [sqrtWeight, Real.mul_self_sqrt h]

theorem chiSquared_eq (t : Term) :
    chiSquared t = ∑ v ∈ Finset.range t.dim, ∑ v' ∈ Finset.range t.dim,
      t.error v * invR t v v' * t.error v' := by
  unfold chiSquared invR
  simp only [Finset.sum_mul_sum, Finset.mul_sum, Finset.sum_mul]
  rw [Finset.sum_comm]
  refine Finset.sum_congr rfl fun v _ => ?_
  rw [Finset.sum_comm]
  refine Finset.sum_congr rfl fun v' _ => Finset.sum_congr rfl fun u _ => ?_
  ring

/-- **C08.** After an evaluation at any error vector, for every square-root information matrix and every
M-estimator whose weight is non-negative, the squared norm of the weighted error vector handed to the
linear solver equals the reported squared error, and both equal weight × `eᵀ R⁻¹ e` with the inverse
covariance the term reports. -/
theorem C08_weighted_norm (t : Term) (e : Nat → ℝ) (useM : Bool)
    (hw : ∀ x, 0 ≤ x → 0 ≤ t.policy x) :
    let t' := updateRaw .chi t e
    ∑ u ∈ Finset.range t.sqrtInvR.cols, weightedError t' useM u * weightedError t' useM u =
      squaredError t' useM ∧
    squaredError t' useM = (if useM then t.policy t'.squaredError else 1) *
      ∑ v ∈ Finset.range t.dim, ∑ v' ∈ Finset.range t.dim, e v * invR t v v' * e v' := by
  intro t'
  have hsq : t'.squaredError = chiSquared t' := rfl
  have hnn : 0 ≤ t'.squaredError := by
    rw [hsq]; exact Finset.sum_nonneg fun u _ => mul_self_nonneg _
  have hchi : chiSquared t' = ∑ v ∈ Finset.range t.dim, ∑ v' ∈ Finset.range t.dim,
      e v * invR t v v' * e v' := chiSquared_eq t'
  constructor
  · have : ∀ u, weightedError t' useM u * weightedError t' useM u =
        (sqrtWeight t' useM * sqrtWeight t' useM) *
        ((∑ v ∈ Finset.range t'.dim, t'.sqrtInvR.e v u * t'.error v) *
         (∑ v ∈ Finset.range t'.dim, t'.sqrtInvR.e v u * t'.error v)) := by
      intro u; unfold weightedError; ring
    simp only [this]
    rw [← Finset.mul_sum, sqrtWeight_sq t' useM (hw _ hnn)]
    show _ * chiSquared t' = _
    rw [← hsq]
    cases useM <;> simp [squaredError]
  · rw [← hchi, ← hsq]
    cases useM
    · simp [squaredError]
    · simp [squaredError]; left; rfl

/-- **C08 (evaluateError).** The scalar an evaluation returns is always the M-estimator-weighted one; it
equals the squared norm of the vector handed to the solver with the M-estimator in use. -/
theorem C08_evaluateError (t : Term) (e : Nat → ℝ) (hw : ∀ x, 0 ≤ x → 0 ≤ t.policy x) :
    (evaluateError .chi t e).2 = ∑ u ∈ Finset.range t.sqrtInvR.cols,
      weightedError (updateRaw .chi t e) true u * weightedError (updateRaw .chi t e) true u :=
  (C08_weighted_norm t e true hw).1.symm

/-- **C08 (without M-estimator: false).** When the solver is asked not to use M-estimators, the scalar
an evaluation returns still contains the weight, so it differs from the squared norm of the vector
handed to the solver: weight 1/2, unit information, error 1. -/
theorem C08_unweighted_counterexample :
    let t : Term := ⟨1, fun _ => 0, ⟨1, 1, fun _ _ => 1⟩, fun _ => 1 / 2, 0⟩
    (evaluateError .chi t fun _ => 1).2 = 1 / 2 ∧
    ∑ u ∈ Finset.range 1, weightedError (updateRaw .chi t fun _ => 1) false u *
      weightedError (updateRaw .chi t fun _ => 1) false u = 1 := by
  simp [evaluateError, updateRaw, chiSquared, squaredError, weightedError, sqrtWeight]

/-- **C08 (expression error terms: false).** A term made from an expression computes `‖S e‖²` instead of
`‖Sᵀ e‖²`: with the triangular root `S = [[1,1],[0,1]]` and `e = (0,1)` it reports 2 while the vector
handed to the solver has squared norm 1, and `eᵀ R⁻¹ e = 1`. -/
theorem C08_expression_term_counterexample :
    let t : Term := ⟨2, fun _ => 0, ⟨2, 2, fun i j => if i ≤ j then 1 else 0⟩, fun _ => 1, 0⟩
    let e : Nat → ℝ := fun i => if i = 1 then 1 else 0
    squaredError (updateRaw .expression t e) true = 2 ∧
    ∑ u ∈ Finset.range 2, weightedError (updateRaw .expression t e) true u *
      weightedError (updateRaw .expression t e) true u = 1 ∧
    ∑ v ∈ Finset.range 2, ∑ v' ∈ Finset.range 2, e v * invR t v v' * e v' = 1 := by
  refine ⟨?_, ?_, ?_⟩
  · simp [updateRaw, expressionSquared, squaredError, Finset.sum_range_succ]; norm_num
  · simp [updateRaw, weightedError, sqrtWeight, Finset.sum_range_succ]
  · simp [invR, Finset.sum_range_succ]

/-- **C08, partial** (expression error terms). With a symmetric root the expression term agrees with the
documented squared error. Missing: any root, see the counterexample. -/
theorem C08_expression_symmetric_partial (t : Term) (e : Nat → ℝ) (hd : t.sqrtInvR.cols = t.dim)
    (hs : ∀ i j, t.sqrtInvR.e i j = t.sqrtInvR.e j i) :
    updateRaw .expression t e = updateRaw .chi t e := by
  simp only [updateRaw, chiSquared, expressionSquared, hd]
  congr 1
  refine Finset.sum_congr rfl fun u _ => ?_
  congr 1 <;> exact Finset.sum_congr rfl fun v _ => by rw [hs]

/-- A symmetric root that is not diagonal. -/
example : let t : Term := ⟨2, fun _ => 0, ⟨2, 2, fun i j => if i = j then 2 else 1⟩, fun _ => 1, 0⟩
    t.sqrtInvR.cols = t.dim ∧ ∀ i j, t.sqrtInvR.e i j = t.sqrtInvR.e j i := ⟨rfl, fun i j => by simp [eq_comm]⟩

/-! ### weighted Jacobian -/

/-- Consecutive factors conform. -/
def Conform (n : Nat) : List (DMat ℝ) → Prop
  | [] => True
  | f :: fs => f.rows = cols n fs ∧ Conform n fs

theorem cols_shift (n : Nat) (F : DMat ℝ) (hF : F.cols = n) (n' : Nat) (fs : List (DMat ℝ)) :
    cols n' (fs ++ [F]) = cols n fs := by
  cases fs <;> simp [cols, hF]

theorem prod_shift (n : Nat) (F : DMat ℝ) (hF : F.cols = n) (fs : List (DMat ℝ)) (hc : Conform n fs)
    (i : Nat) (hi : i < F.rows) (t : Nat) (ht : t < cols n fs) :
    prod (fs ++ [F]) i t = ∑ u ∈ Finset.range n, F.e i u * prod fs u t := by
  induction fs generalizing t with
  | nil =>
    simp only [List.nil_append, cols] at *
    rw [MatrixStack.prod_single_rows rfl hi, Finset.sum_eq_single t]
    · simp [prod]
    · intro u _ hne; simp [prod, hne]
    · intro h; exact absurd (Finset.mem_range.2 ht) h
  | cons f fs ih =>
    obtain ⟨h1, h2⟩ := hc
    rw [List.cons_append, prod]
    simp only [prod, Finset.mul_sum]
    rw [Finset.sum_comm]
    refine Finset.sum_congr rfl fun k hk => ?_
    rw [ih h2 k (by rw [← h1]; exact Finset.mem_range.1 hk), Finset.sum_mul]
    exact Finset.sum_congr rfl fun u _ => by ring

/-- Same design variables; each contribution multiplied by `F`. -/
structure Shifted (env : Env ℝ) (F : DMat ℝ) (n : Nat) (ev ev' : List (Event ℝ)) : Prop where
  keys : ev'.map Prod.fst = ev.map Prod.fst
  val : ∀ d i j, i < F.rows → j < env.dim d →
    total ev' d i j = ∑ u ∈ Finset.range n, F.e i u * total ev d u j

theorem contribution_shift (n : Nat) (F : DMat ℝ) (hF : F.cols = n) (fs : List (DMat ℝ))
    (hc : Conform n fs) (J : DMat ℝ) (hJ : J.rows = cols n fs) (i j : Nat) (hi : i < F.rows) :
    contribution (fs ++ [F]) J i j = ∑ u ∈ Finset.range n, F.e i u * contribution fs J u j := by
  unfold contribution
  simp only [Finset.mul_sum]
  rw [Finset.sum_comm]
  refine Finset.sum_congr rfl fun t ht => ?_
  rw [prod_shift n F hF fs hc i hi t (by rw [← hJ]; exact Finset.mem_range.1 ht), Finset.sum_mul]
  exact Finset.sum_congr rfl fun u _ => by ring

theorem record_shift (env : Env ℝ) (F : DMat ℝ) (n : Nat) {ev ev' : List (Event ℝ)}
    (h : Shifted env F n ev ev') (dv : Nat) (g g' : Nat → Nat → ℝ)
    (hg : ∀ i j, i < F.rows → j < env.dim dv → g' i j = ∑ u ∈ Finset.range n, F.e i u * g u j) :
    Shifted env F n (record env ev dv g) (record env ev' dv g') := by
  unfold record
  by_cases ha : env.active dv = true
  · rw [if_pos ha, if_pos ha]
    refine ⟨by simp [h.keys], ?_⟩
    intro d i j hi hj
    simp only [total_append, h.val d i j hi hj]
    by_cases hd : dv = d
    · subst hd
      simp only [if_true, mul_add, Finset.sum_add_distrib, hg i j hi hj]
    · simp [hd]
  · rw [if_neg ha, if_neg ha]; exact h

theorem step_shift (env : Env ℝ) (n n' : Nat) (F : DMat ℝ) (hF : F.cols = n)
    {s s2 s' s2' : List (DMat ℝ) × List (Event ℝ)} (o : Op ℝ)
    (hc : Conform n s.1) (h1 : s'.1 = s.1 ++ [F]) (h2 : Shifted env F n s.2 s'.2)
    (hs : Jacobian.Spec.step env n s o = some s2) (hs' : Jacobian.Spec.step env n' s' o = some s2') :
    Conform n s2.1 ∧ s2'.1 = s2.1 ++ [F] ∧ Shifted env F n s2.2 s2'.2 := by
  obtain ⟨fs, ev⟩ := s
  obtain ⟨fs', ev'⟩ := s'
  simp only at h1 h2 hc
  subst h1
  cases o with
  | applyM m =>
    simp only [Jacobian.Spec.step, MatrixStack.Spec.step, Option.map_eq_some_iff] at hs hs'
    obtain ⟨a, ha, rfl⟩ := hs
    obtain ⟨a', ha', rfl⟩ := hs'
    split at ha <;> cases ha
    split at ha' <;> cases ha'
    rename_i h _
    exact ⟨⟨h, hc⟩, rfl, h2⟩
  | applyS c =>
    simp only [Jacobian.Spec.step, MatrixStack.Spec.step, Option.map_some, Option.some.injEq] at hs hs'
    subst hs; subst hs'
    exact ⟨⟨rfl, hc⟩, by simp [cols_shift n F hF], h2⟩
  | endScope =>
    simp only [Jacobian.Spec.step, MatrixStack.Spec.step, Option.map_eq_some_iff] at hs hs'
    obtain ⟨a, ha, rfl⟩ := hs
    obtain ⟨a', ha', rfl⟩ := hs'
    cases fs with
    | nil => simp at ha
    | cons f fs =>
      simp only [Option.some.injEq, List.cons_append] at ha ha'
      subst ha; subst ha'
      exact ⟨hc.2, rfl, h2⟩
  | add dv J =>
    simp only [Jacobian.Spec.step] at hs hs'
    split at hs <;> cases hs
    split at hs' <;> cases hs'
    rename_i h _
    refine ⟨hc, rfl, record_shift env F n h2 dv _ _ ?_⟩
    intro i j hi _
    exact contribution_shift n F hF fs hc J h.1 i j hi
  | addId dv =>
    simp only [Jacobian.Spec.step] at hs hs'
    split at hs <;> cases hs
    split at hs' <;> cases hs'
    refine ⟨hc, rfl, record_shift env F n h2 dv _ _ ?_⟩
    intro i j hi _
    rw [cols_shift n F hF]
    exact contribution_shift n F hF fs hc _ rfl i j hi

theorem run_shift (env : Env ℝ) (align n n' : Nat) (F : DMat ℝ) (hF : F.cols = n) (os : List (Op ℝ)) :
    ∀ (s s2 s' s2' : List (DMat ℝ) × List (Event ℝ)),
    Conform n s.1 → s'.1 = s.1 ++ [F] → Shifted env F n s.2 s'.2 →
    Run env align n s os s2 → Run env align n' s' os s2' →
    Conform n s2.1 ∧ s2'.1 = s2.1 ++ [F] ∧ Shifted env F n s2.2 s2'.2 := by
  induction os with
  | nil =>
    intro s s2 s' s2' hc h1 h2 hr hr'
    cases hr; cases hr'; exact ⟨hc, h1, h2⟩
  | cons o os ih =>
    intro s s2 s' s2' hc h1 h2 hr hr'
    cases hr with
    | cons e _ hr =>
      cases hr' with
      | cons e' _ hr' =>
        obtain ⟨a, b, c⟩ := step_shift env n n' F hF o hc h1 h2 e e'
        exact ih _ _ _ _ a b c hr hr'

theorem run_append (env : Env ℝ) (align n : Nat) (os os' : List (Op ℝ)) :
    ∀ (s s2 : List (DMat ℝ) × List (Event ℝ)), Run env align n s (os ++ os') s2 →
    ∃ m, Run env align n s os m ∧ Run env align n m os' s2 := by
  induction os with
  | nil => intro s s2 h; exact ⟨s, .nil s, h⟩
  | cons o os ih =>
    intro s s2 h
    cases h with
    | cons e f h =>
      obtain ⟨m, h1, h2⟩ := ih _ _ h
      exact ⟨m, .cons e f h1, h2⟩

/-- **C08 (Jacobian).** For every term whose `evaluateJacobians` amounts to contributions `ev`: asking
for the weighted Jacobians leaves in a new container, for every active variable that received a
contribution, `√w·Sᵀ` times the unweighted Jacobian — the factor that turns the error into the weighted
error — and leaves the chain empty. -/
theorem C08_weighted_jacobian (debug : Bool) (env : Env ℝ) (henv : EnvOk env) (align k : Nat)
    (ha : 0 < align) (t : Term) (useM : Bool) (hd : t.sqrtInvR.rows = t.dim)
    (hn : t.sqrtInvR.cols < 2 ^ 16) (calls : List (Op ℝ)) (ev : List (Event ℝ))
    (hr : Run env align t.dim ([], []) calls ([], ev)) (fs' : List (DMat ℝ)) (ev' : List (Event ℝ))
    (hr' : Run env align t.sqrtInvR.cols ([], []) (weightedCalls t useM calls) (fs', ev')) :
    fs' = [] ∧ ∃ jc, Res.run (Jacobian.step debug align env sparseAddJ) (newSparse t.sqrtInvR.cols k)
        (weightedCalls t useM calls) = .ok jc ∧
      ∀ dv, env.active dv = true → dv ∈ ev.map Prod.fst →
        ∃ J, sparseJacobian env jc dv = .ok J ∧ J.rows = t.sqrtInvR.cols ∧ J.cols = env.dim dv ∧
          ∀ i j, i < t.sqrtInvR.cols → j < env.dim dv →
            J.e i j = ∑ v ∈ Finset.range t.dim, sqrtWeight t useM * t.sqrtInvR.e v i * total ev dv v j := by
  obtain ⟨jc, e, h1, _, _⟩ := C04_sparse_accumulates debug env henv align t.sqrtInvR.cols k ha hn
    _ _ _ hr'
  have key : fs' = [] ∧ Shifted env (weightFactor t useM) t.dim ev ev' := by
    unfold weightedCalls at hr'
    rw [List.cons_append] at hr'
    cases hr' with
    | cons e0 _ hr' =>
      simp only [Jacobian.Spec.step, MatrixStack.Spec.step, Option.map_eq_some_iff] at e0
      obtain ⟨a, ha, rfl⟩ := e0
      split at ha <;> cases ha
      obtain ⟨m, hm1, hm2⟩ := run_append env align _ calls _ _ _ hr'
      obtain ⟨_, g1, g2⟩ := run_shift env align t.dim t.sqrtInvR.cols (weightFactor t useM) hd calls
        ([], []) ([], ev) ([weightFactor t useM], []) m trivial rfl ⟨rfl, by intros; simp [total]⟩ hr hm1
      cases hm2 with
      | cons e2 _ hm2 =>
        cases hm2
        simp only [List.nil_append] at g1
        obtain ⟨mf, me⟩ := m
        simp only at g1 g2
        subst g1
        simp only [Jacobian.Spec.step, MatrixStack.Spec.step, Option.map_some, Option.some.injEq,
          Prod.mk.injEq] at e2
        obtain ⟨rfl, rfl⟩ := e2
        exact ⟨rfl, g2⟩
  refine ⟨key.1, jc, e, ?_⟩
  intro dv hact hmem
  obtain ⟨J, a, b, c, d⟩ := h1 dv hact (by rw [key.2.keys]; exact hmem)
  refine ⟨J, a, b, c, ?_⟩
  intro i j hi hj
  rw [d i j hi hj, key.2.val dv i j hi hj]
  rfl

/-! ### Concrete instance -/

/-- One active variable of dimension 2. -/
def oneEnv : Env ℝ := ⟨fun _ => 0, fun _ => 0, fun _ => 2, fun d => d == 0, fun _ => 1⟩

/-- A non-symmetric root and a Huber weight. -/
noncomputable def demoTerm : Term :=
  ⟨2, fun _ => 3, ⟨2, 2, fun i j => if i ≤ j then 1 else 0⟩, MEstimator.huber 1, 0⟩

example : ∀ x, 0 ≤ x → 0 ≤ demoTerm.policy x := by
  intro x _
  show 0 ≤ MEstimator.huber 1 x
  unfold MEstimator.huber
  split
  · exact zero_le_one
  · exact div_nonneg zero_le_one (Real.sqrt_nonneg x)

example : EnvOk oneEnv where
  nonneg := by intros; simp [oneEnv]
  inj := by
    intro d d' h h' _
    have h1 : d = 0 := by simpa [oneEnv] using h
    have h2 : d' = 0 := by simpa [oneEnv] using h'
    rw [h1, h2]

example : ∃ ev ev', Run oneEnv 2 2 ([], []) [.add 0 ⟨2, 2, fun i j => i + j⟩] ([], ev) ∧
    Run oneEnv 2 2 ([], []) (weightedCalls demoTerm true [.add 0 ⟨2, 2, fun i j => i + j⟩]) ([], ev') ∧
    0 ∈ ev.map Prod.fst := by
  refine ⟨_, _, .cons rfl (by simp [Fits]) (.nil _), .cons rfl ?_ (.cons rfl ?_ (.cons rfl (by simp [Fits]) (.nil _))), ?_⟩
  · simp [Fits, weightFactor, demoTerm, MatrixStack.Spec.footprint, MatrixStack.Spec.roundUp]
  · simp [Fits, weightFactor, demoTerm, MatrixStack.Spec.footprint, MatrixStack.Spec.roundUp]
  · simp [record, oneEnv]

end Verif.ErrorTerm
