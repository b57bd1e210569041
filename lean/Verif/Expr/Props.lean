import Verif.Expr.Deriv
import Verif.Expr.History
import Verif.Expr.Depend
import Verif.Expr.Handle
import Verif.Expr.Series

/-!
C57, C59: Jacobians of expressions. C60: Jacobians and evaluation histories. C61: empty expressions. C62: reported design variables.
-/
namespace Verif.Expr
open Matrix Verif.Geo Filter Topology

section Concrete

/-- A motion of all design variables: numbers grow, points move along x, rotations turn about z. -/
noncomputable def exC (s : ℝ) : Env :=
  ⟨fun i => s + i, fun i => ![s, 1, i], fun _ => axisRot 2 s, fun _ => (![0, 0, 1], 1), fun _ _ => 1⟩

noncomputable def exD : (v : Var) → v.Idx → ℝ
  | .sc _ => fun _ => 1
  | .pt _ => ![1, 0, 0]
  | .ro _ => -colUnit 2 *ᵥ fun _ => 1
  | .ho _ => 0
  | .mat _ _ => 0

theorem exMoves (invS : V3 × ℝ → Matrix (Fin 3 ⊕ Unit) (Fin 3) ℝ) (t : ℝ) : Moves invS exC t exD where
  sc i := (hasDerivAt_id t).add_const (i : ℝ)
  pt i k := by
    fin_cases k
    · exact hasDerivAt_id t
    · exact hasDerivAt_const _ _
    · exact hasDerivAt_const _ _
  ro i := axisRot_deriv 2 (hasDerivAt_id t)
  rot i s := axisRot_isRot 2 s
  ho1 i := (VDeriv.const _).congr (by simp [exD]; rfl)
  ho2 i := HasDerivAt.congr_deriv (hasDerivAt_const _ _) (by simp [exD])
  mat i free := (MDeriv.const _).congr (by simp [exD]; rfl)

end Concrete

variable {invS : V3 × ℝ → Matrix (Fin 3 ⊕ Unit) (Fin 3) ℝ} {c : ℝ → Env} {t : ℝ} {δ : (v : Var) → v.Idx → ℝ} {tbl : Table}

/-- The main statement for all kinds of expressions: after the expression has been evaluated (whatever the members `σ` of its nodes were
before), the Jacobians exist and, summed over the design variables with the velocities of the motion, give `A` times the velocity of the
value. -/
theorem C59_first_order (hm : Moves invS c t δ) {ty : Ty} (e : Node ty) (hc : Cons tbl e) (hs : Smooth c t e) {v : Val ty}
    (hv : val (c t) e = .ok v) {m : Nat} (A : Matrix (Fin m) (TI ty) ℝ) (σ : Store) :
    ∃ f d L σ', (∀ᶠ s in 𝓝 t, val (c s) e = .ok (f s)) ∧ Der ty f d t ∧
      jac invS (c t) e A (upd (c t) e σ) = .ok (L, σ') ∧ total δ L = A *ᵥ d := by
  obtain ⟨f, d, h1, h2, h3⟩ := good hm e hc hs hv
  obtain ⟨L, σ', h4, h5, -⟩ := h3 m A (upd (c t) e σ) (upd_fresh (c t) tbl e σ v hc hv)
  exact ⟨f, d, L, σ', h1, h2, h4, h5⟩

/-- Points: the Jacobian times the velocities of the design variables is the velocity of the point. -/
theorem C59_point (hm : Moves invS c t δ) (e : Node .E) (hc : Cons tbl e) (hs : Smooth c t e) {v : V3} (hv : val (c t) e = .ok v) (σ : Store) :
    ∃ f L σ', (∀ᶠ s in 𝓝 t, val (c s) e = .ok (f s)) ∧ jac invS (c t) e (1 : M3) (upd (c t) e σ) = .ok (L, σ') ∧ VDeriv f (total δ L) t := by
  obtain ⟨f, d, L, σ', h1, h2, h3, h4⟩ := C59_first_order hm e hc hs hv (1 : M3) σ
  refine ⟨f, L, σ', h1, h3, ?_⟩
  rw [h4]
  exact VDeriv.congr h2 (Matrix.one_mulVec d).symm

/-- Rotations: `Ċ = -(J δ)^× C`. -/
theorem C59_rotation (hm : Moves invS c t δ) (e : Node .R) (hc : Cons tbl e) (hs : Smooth c t e) {v : M3} (hv : val (c t) e = .ok v) (σ : Store) :
    ∃ f L σ', (∀ᶠ s in 𝓝 t, val (c s) e = .ok (f s) ∧ IsRot (f s)) ∧ jac invS (c t) e (1 : M3) (upd (c t) e σ) = .ok (L, σ') ∧
      MDeriv f (-(crossMx (total δ L) * f t)) t := by
  obtain ⟨f, d, L, σ', h1, h2, h3, h4⟩ := C59_first_order hm e hc hs hv (1 : M3) σ
  refine ⟨f, L, σ', h1.and h2.2, h3, ?_⟩
  rw [h4]
  exact MDeriv.congr h2.1 (by rw [Matrix.one_mulVec])

/-- The identity as chain rule matrix of transformations: rows 0-2 translation, rows 3-5 rotation. -/
def idT : Matrix (Fin 6) (Fin 3 ⊕ Fin 3) ℝ := fun k j => if (match j with | .inl i => i.val | .inr i => 3 + i.val : Nat) = k.val then 1 else 0

/-- Transformations: the first three rows of the Jacobian give `ρ`, the last three `φ` with `Ċ = -φ^× C` and `ṫ = ρ - φ × t`. -/
theorem C59_transformation (hm : Moves invS c t δ) (e : Node .T) (hc : Cons tbl e) (hs : Smooth c t e) {v : Pose} (hv : val (c t) e = .ok v) (σ : Store) :
    ∃ (f : ℝ → Pose) (L : List (Contr 6)) (σ' : Store), (∀ᶠ s in 𝓝 t, val (c s) e = .ok (f s) ∧ IsRot (f s).C) ∧ jac invS (c t) e idT (upd (c t) e σ) = .ok (L, σ') ∧
      MDeriv (fun s => (f s).C) (-(crossMx (fun k => total δ L (Fin.natAdd 3 k)) * (f t).C)) t ∧
      VDeriv (fun s => (f s).t) ((fun k => total δ L (Fin.castAdd 3 k)) - (fun k => total δ L (Fin.natAdd 3 k)) ⨯₃ (f t).t) t := by
  obtain ⟨f, d, L, σ', h1, h2, h3, h4⟩ := C59_first_order hm e hc hs hv idT σ
  have e1 : (fun k : Fin 3 => total δ L (Fin.natAdd 3 k)) = fun k => d (.inr k) := by
    funext k
    rw [h4]
    simp only [Matrix.mulVec, dotProduct, idT]
    fin_cases k <;> simp [Fin.sum_univ_three]
  have e2 : (fun k : Fin 3 => total δ L (Fin.castAdd 3 k)) = fun k => d (.inl k) := by
    funext k
    rw [h4]
    simp only [Matrix.mulVec, dotProduct, idT]
    fin_cases k <;> simp [Fin.sum_univ_three]
  refine ⟨f, L, σ', h1.and h2.2.2, h3, ?_, ?_⟩
  · rw [e1]; exact h2.1
  · rw [e1, e2]; exact h2.2.1

/-- The identity as chain rule matrix of homogeneous coordinates. -/
def idH : Matrix (Fin 4) (Fin 3 ⊕ Unit) ℝ := fun k j => if (match j with | .inl i => i.val | .inr _ => 3 : Nat) = k.val then 1 else 0

/-- Homogeneous coordinates: componentwise. -/
theorem C59_homogeneous (hm : Moves invS c t δ) (e : Node .H) (hc : Cons tbl e) (hs : Smooth c t e) {v : V3 × ℝ} (hv : val (c t) e = .ok v) (σ : Store) :
    ∃ (f : ℝ → V3 × ℝ) (L : List (Contr 4)) (σ' : Store), (∀ᶠ s in 𝓝 t, val (c s) e = .ok (f s)) ∧ jac invS (c t) e idH (upd (c t) e σ) = .ok (L, σ') ∧
      VDeriv (fun s => (f s).1) (fun k => total δ L (Fin.castAdd 1 k)) t ∧ HasDerivAt (fun s => (f s).2) (total δ L 3) t := by
  obtain ⟨f, d, L, σ', h1, h2, h3, h4⟩ := C59_first_order hm e hc hs hv idH σ
  have e1 : (fun k : Fin 3 => total δ L (Fin.castAdd 1 k)) = fun k => d (.inl k) := by
    funext k
    rw [h4]
    simp only [Matrix.mulVec, dotProduct, idH]
    fin_cases k <;> simp [Fin.sum_univ_three]
  have e2 : total δ L 3 = d (.inr ()) := by
    rw [h4]
    simp only [Matrix.mulVec, dotProduct, idH]
    simp [Fin.sum_univ_three]
  refine ⟨f, L, σ', h1, h3, ?_, ?_⟩
  · rw [e1]; exact h2.1
  · rw [e2]; exact h2.2

/-- A rotated sum of points, and the product of a transformation with an inverted one applied to it. -/
def exPoint : Node .E := .erot 0 (.rvar 0) (.eadd (.evar 0) (.evar 1))
def exPose : Node .T := .tmul 1 (.tbasic (.rvar 0) (.evar 0)) (.tinv 2 (.tbasic (.rvar 1) exPoint))
def exTbl : Table := fun i => if i = 0 then ⟨_, exPoint⟩ else if i = 1 then ⟨_, exPose⟩ else ⟨_, .tinv 2 (.tbasic (.rvar 1) exPoint)⟩

example : ∃ f L σ', (∀ᶠ s in 𝓝 (0 : ℝ), val (exC s) exPoint = .ok (f s)) ∧
    jac invS (exC 0) exPoint (1 : M3) (upd (exC 0) exPoint fun _ => none) = .ok (L, σ') ∧ VDeriv f (total exD L) 0 :=
  C59_point (tbl := exTbl) (exMoves invS 0) exPoint (by simp [Cons, exPoint, exTbl]) (by simp [Smooth, exPoint]) (v := _) rfl _

example : ∃ (f : ℝ → Pose) (L : List (Contr 6)) (σ' : Store), (∀ᶠ s in 𝓝 (0 : ℝ), val (exC s) exPose = .ok (f s) ∧ IsRot (f s).C) ∧
    jac invS (exC 0) exPose idT (upd (exC 0) exPose fun _ => none) = .ok (L, σ') ∧
    MDeriv (fun s => (f s).C) (-(crossMx (fun k => total exD L (Fin.natAdd 3 k)) * (f 0).C)) 0 ∧
    VDeriv (fun s => (f s).t) ((fun k => total exD L (Fin.castAdd 3 k)) - (fun k => total exD L (Fin.natAdd 3 k)) ⨯₃ (f 0).t) 0 :=
  C59_transformation (tbl := exTbl) (exMoves invS 0) exPose (by simp [Cons, exPose, exPoint, exTbl]) (by simp [Smooth, exPose, exPoint])
    (v := Pose.mul ⟨axisRot 2 0, ![0, 1, ((0 : ℕ) : ℝ)]⟩ ⟨(axisRot 2 0)ᵀ, -((axisRot 2 0)ᵀ *ᵥ (axisRot 2 0 *ᵥ (![0, 1, ((0 : ℕ) : ℝ)] + ![0, 1, ((1 : ℕ) : ℝ)])))⟩)
    (by simp [val, exPose, exPoint, exC, Pose.inv_eq (P := ⟨axisRot 2 0, _⟩) (axisRot_isRot 2 0)]) _

example : ∃ f L σ', (∀ᶠ s in 𝓝 (0 : ℝ), val (exC s) (.rmul 5 (.rvar 0) (.raxis 1 (.svar 2))) = .ok (f s) ∧ IsRot (f s)) ∧
    jac invS (exC 0) (.rmul 5 (.rvar 0) (.raxis 1 (.svar 2))) (1 : M3) (upd (exC 0) (.rmul 5 (.rvar 0) (.raxis 1 (.svar 2))) fun _ => none) = .ok (L, σ') ∧
    MDeriv f (-(crossMx (total exD L) * f 0)) 0 :=
  C59_rotation (tbl := fun _ => ⟨_, .rmul 5 (.rvar 0) (.raxis 1 (.svar 2))⟩) (exMoves invS 0) _ (by simp [Cons]) (by simp [Smooth]) rfl _

example : ∃ (f : ℝ → V3 × ℝ) (L : List (Contr 4)) (σ' : Store), (∀ᶠ s in 𝓝 (0 : ℝ), val (exC s) (.hmul 5 (.tbasicR (.rvar 0)) (.heuc (.evar 0))) = .ok (f s)) ∧
    jac invS (exC 0) (.hmul 5 (.tbasicR (.rvar 0)) (.heuc (.evar 0))) idH (upd (exC 0) (.hmul 5 (.tbasicR (.rvar 0)) (.heuc (.evar 0))) fun _ => none) = .ok (L, σ') ∧
    VDeriv (fun s => (f s).1) (fun k => total exD L (Fin.castAdd 1 k)) 0 ∧ HasDerivAt (fun s => (f s).2) (total exD L 3) 0 :=
  C59_homogeneous (tbl := fun _ => ⟨_, .hmul 5 (.tbasicR (.rvar 0)) (.heuc (.evar 0))⟩) (exMoves invS 0) _ (by simp [Cons]) (by simp [Smooth]) rfl _

/-! ### C57 -/

/-- The full claim has "wherever the operations are differentiable". Missing here: integer powers with exponent 0 at 0, where the library
reports NaN (`C57_power_counterexample`), and the squared arc cosine within 2⁻²⁶ of 1, where it uses a series (`C57_acosSquared_series`);
both are excluded by `Smooth`. -/
theorem C57_derivative_partial (hm : Moves invS c t δ) (e : Node .S) (hc : Cons tbl e) (hs : Smooth c t e) {v : ℝ} (hv : val (c t) e = .ok v) (σ : Store) :
    ∃ f L σ', (∀ᶠ s in 𝓝 t, val (c s) e = .ok (f s)) ∧
      jac invS (c t) e (fun _ _ => 1 : Matrix (Fin 1) Unit ℝ) (upd (c t) e σ) = .ok (L, σ') ∧ HasDerivAt f (total δ L 0) t := by
  obtain ⟨f, d, L, σ', h1, h2, h3, h4⟩ := C59_first_order hm e hc hs hv (fun _ _ => 1 : Matrix (Fin 1) Unit ℝ) σ
  refine ⟨f, L, σ', h1, h3, ?_⟩
  have h2' : HasDerivAt f (d ()) t := h2
  rw [h4]
  refine h2'.congr_deriv ?_
  simp [Matrix.mulVec, dotProduct]

/-- The environment in which the scalar design variable `i` has the value `x`. -/
def setSc (env : Env) (i : Nat) (x : ℝ) : Env := { env with sc := fun j => if j = i then x else env.sc j }

/-- The Jacobian of one design variable: 1 in its direction. -/
def dirSc (i : Nat) : (v : Var) → v.Idx → ℝ
  | .sc j => fun _ => if j = i then 1 else 0
  | .pt _ => 0
  | .ro _ => 0
  | .ho _ => 0
  | .mat _ _ => 0

/-- The Jacobian of a scalar design variable is the partial derivative. -/
theorem C57_partial_derivative_partial (env : Env) (hr : ∀ i, IsRot (env.ro i)) (i : Nat) (e : Node .S) (hc : Cons tbl e)
    (hs : Smooth (setSc env i) (env.sc i) e) {v : ℝ} (hv : val env e = .ok v) (σ : Store) :
    ∃ f L σ', (∀ᶠ x in 𝓝 (env.sc i), val (setSc env i x) e = .ok (f x)) ∧
      jac invS env e (fun _ _ => 1 : Matrix (Fin 1) Unit ℝ) (upd env e σ) = .ok (L, σ') ∧ HasDerivAt f (total (dirSc i) L 0) (env.sc i) := by
  have he : setSc env i (env.sc i) = env := by
    simp only [setSc]
    congr 1
    funext j
    split
    · next h => rw [h]
    · rfl
  have hm : Moves invS (setSc env i) (env.sc i) (dirSc i) :=
    { sc := fun j => by
        by_cases h : j = i
        · simp only [setSc, dirSc, h, if_true]; exact hasDerivAt_id _
        · simp only [setSc, dirSc, h, if_false]; exact hasDerivAt_const _ _
      pt := fun j => VDeriv.const _
      ro := fun j => (MDeriv.const _).congr (by simp [dirSc, crossMx_zero])
      rot := fun j s => hr j
      ho1 := fun j => (VDeriv.const (env.ho j).1).congr (by funext k; simp [dirSc])
      ho2 := fun j => HasDerivAt.congr_deriv (hasDerivAt_const (env.sc i) (env.ho j).2) (by simp [dirSc])
      mat := fun j free => (MDeriv.const _).congr (by simp [dirSc]; rfl) }
  have := C57_derivative_partial hm e hc hs (v := v) (by rw [he]; exact hv) σ
  rw [he] at this
  exact this

/-- `sqrt(x₀ * x₁) / exp(x₂ - 1)` at `x = (1, 2, 3)`. -/
def exScalar : Node .S := .sdiv (.sun .sqrt (.smul (.svar 0) (.svar 1))) (.sun .exp (.sadd (.svar 2) (.sconst 1) (-1)))

example : ∃ f L σ', (∀ᶠ x in 𝓝 ((exC 1).sc 1), val (setSc (exC 1) 1 x) exScalar = .ok (f x)) ∧
      jac invS (exC 1) exScalar (fun _ _ => 1 : Matrix (Fin 1) Unit ℝ) (upd (exC 1) exScalar fun _ => none) = .ok (L, σ') ∧
      HasDerivAt f (total (dirSc 1) L 0) ((exC 1).sc 1) :=
  C57_partial_derivative_partial (tbl := exTbl) (exC 1) (fun _ => axisRot_isRot 2 1) 1 exScalar (by simp [Cons, exScalar])
    (by simp [Smooth, exScalar, UnOp.Smooth]) (v := Real.sqrt 2 / Real.exp 2)
    (by simp [val, exScalar, exC, UnOp.ap, Real.exp_ne_zero]; norm_num) _

example : ∃ f L σ', (∀ᶠ s in 𝓝 (1 : ℝ), val (exC s) exScalar = .ok (f s)) ∧
      jac invS (exC 1) exScalar (fun _ _ => 1 : Matrix (Fin 1) Unit ℝ) (upd (exC 1) exScalar fun _ => none) = .ok (L, σ') ∧ HasDerivAt f (total exD L 0) 1 :=
  C57_derivative_partial (tbl := exTbl) (exMoves invS 1) exScalar (by simp [Cons, exScalar]) (by simp [Smooth, exScalar, UnOp.Smooth])
    (v := Real.sqrt 2 / Real.exp 2) (by simp [val, exScalar, exC, UnOp.ap, Real.exp_ne_zero]; norm_num) _

/-- `x⁰` is 1 everywhere, so its derivative is 0, but at 0 the Jacobian is `0 * (1/0)`, not a number. -/
theorem C57_power_counterexample (σ : Store) :
    (∀ s, val (exC s) (.sun (.power 0) (.svar 0)) = .ok 1) ∧
    jac invS (exC 0) (.sun (.power 0) (.svar 0)) (fun _ _ => 1 : Matrix (Fin 1) Unit ℝ) (upd (exC 0) (.sun (.power 0) (.svar 0)) σ) = .ub := by
  constructor
  · intro s
    simp [val, UnOp.ap]
  · simp [jac, ev, val, exC, UnOp.factor]

/-- Within 2⁻²⁶ of 1 the factor of the squared arc cosine differs from its derivative by at most 2⁻³⁶. -/
theorem C57_acosSquared_series (x : ℝ) (h : (x - 1) * (x - 1) < eps) (h1 : x < 1) :
    ∃ d d', UnOp.acosSquared.factor x = .ok d ∧ HasDerivAt (fun y => Real.arccos y * Real.arccos y) d' x ∧ |d - d'| ≤ 1 / 2 ^ 36 :=
  acosSquared_series x h h1

example : ((1 - 1 / 2 ^ 30 : ℝ) - 1) * ((1 - 1 / 2 ^ 30 : ℝ) - 1) < eps ∧ (1 - 1 / 2 ^ 30 : ℝ) < 1 := by unfold eps; constructor <;> norm_num

/-! ### C60 -/

/-- What else may happen between evaluating an expression and asking for its Jacobians while no design variable changes: other
expressions are evaluated or differentiated. -/
inductive Act
  | evaluate {ty : Ty} (e : Node ty)
  | jacobians {ty : Ty} {m : Nat} (e : Node ty) (A : Matrix (Fin m) (TI ty) ℝ)

/-- All nodes with one identity are the same node. -/
def Act.Cons (tbl : Table) : Act → Prop
  | .evaluate e => Expr.Cons tbl e
  | .jacobians e _ => Expr.Cons tbl e

noncomputable def Act.run (invS : V3 × ℝ → Matrix (Fin 3 ⊕ Unit) (Fin 3) ℝ) (env : Env) (σ : Store) : Act → Res Store
  | .evaluate e => Expr.evaluate env e σ >>= fun r => .ok r.2
  | .jacobians e A => jac invS env e A σ >>= fun r => .ok r.2

/-- The Jacobians without the members of nodes. -/
def jacobians {m : Nat} (r : JRes m) : Res (List (Contr m)) := r >>= fun x => .ok x.1

theorem acts_fresh {env : Env} {acts : List Act} {σ τ : Store} (hc : ∀ a ∈ acts, a.Cons tbl) (h : Res.run (Act.run invS env) σ acts = .ok τ) :
    ∀ i, FreshId env tbl σ i → FreshId env tbl τ i := by
  induction acts generalizing σ with
  | nil => simp at h; exact fun i hi => h ▸ hi
  | cons a l ih =>
    rw [Res.run_cons, bind_eq_ok] at h
    obtain ⟨ρ, h1, h2⟩ := h
    intro i hi
    refine ih (fun b hb => hc b (List.mem_cons_of_mem _ hb)) h2 i ?_
    have hca := hc a (List.mem_cons_self ..)
    cases a with
    | evaluate e =>
      simp only [Act.run, Expr.evaluate, bind_eq_ok] at h1
      obtain ⟨r, ⟨v, hv, h3⟩, h4⟩ := h1
      simp at h3 h4
      subst h3
      exact h4 ▸ upd_mono env tbl e σ i hca hi
    | jacobians e A =>
      simp only [Act.run, bind_eq_ok] at h1
      obtain ⟨⟨L, r⟩, h3, h4⟩ := h1
      simp at h4
      exact h4 ▸ (jac_mono e A hca _ _ _ h3).1 i hi

/-- The full claim holds for any history. Here the expression must have been evaluated since the design variables last changed; it does
not matter what happened before (`σ`, `σ'` are arbitrary) nor what else is evaluated afterwards. Without the evaluation it is false,
see the counterexamples. -/
theorem C60_history_partial (env : Env) {ty : Ty} (e : Node ty) (hc : Cons tbl e) {v : Val ty} (hv : val env e = .ok v)
    {m : Nat} (A : Matrix (Fin m) (TI ty) ℝ) (σ σ' τ τ' : Store) (acts acts' : List Act)
    (ha : ∀ a ∈ acts, a.Cons tbl) (ha' : ∀ a ∈ acts', a.Cons tbl)
    (h : (evaluate env e σ >>= fun r => Res.run (Act.run invS env) r.2 acts) = .ok τ)
    (h' : (evaluate env e σ' >>= fun r => Res.run (Act.run invS env) r.2 acts') = .ok τ') :
    jacobians (jac invS env e A τ) = jacobians (jac invS env e A τ') := by
  simp only [evaluate, hv, Res.bind_ok] at h h'
  obtain ⟨R, hR⟩ := jac_det (invS := invS) e A hc hv
  have f1 : ∀ i ∈ ids env e, FreshId env tbl τ i := fun i hi => acts_fresh ha h i (upd_fresh env tbl e σ v hc hv i hi)
  have f2 : ∀ i ∈ ids env e, FreshId env tbl τ' i := fun i hi => acts_fresh ha' h' i (upd_fresh env tbl e σ' v hc hv i hi)
  have g1 := hR τ f1
  have g2 := hR τ' f2
  cases R with
  | ok L =>
    obtain ⟨s1, q1, -⟩ := g1
    obtain ⟨s2, q2, -⟩ := g2
    simp [jacobians, q1, q2]
  | exc => simp only at g1 g2; simp [jacobians, g1, g2]
  | ub => simp only at g1 g2; simp [jacobians, g1, g2]

example (σ σ' : Store) : jacobians (jac invS (exC 0) exPoint (1 : M3) (upd (exC 0) exPoint (upd (exC 0) exPoint σ))) =
    jacobians (jac invS (exC 0) exPoint (1 : M3) (upd (exC 0) exPoint σ')) :=
  C60_history_partial (tbl := exTbl) (exC 0) exPoint (by simp [Cons, exPoint, exTbl]) rfl 1 σ σ' _ _ [.evaluate exPoint] []
    (by simp [Act.Cons, Cons, exPoint, exTbl]) (by simp) (by simp [evaluate, exPoint, val, Act.run]) (by simp [evaluate, exPoint, val])

/-- Two environments which differ in the point only. -/
noncomputable def envP (p : V3) : Env := ⟨fun _ => 0, fun _ => p, fun _ => 1, fun _ => (0, 1), fun _ _ => 1⟩

theorem stale (p q : V3) (σ : Store) :
    jac invS (envP q) (.erot 0 (.rvar 0) (.evar 0)) (1 : M3) (upd (envP p) (.erot 0 (.rvar 0) (.evar 0)) σ) =
      .ok ([⟨.ro 0, crossMx p⟩, ⟨.pt 0, (1 : M3)⟩], upd (envP p) (.erot 0 (.rvar 0) (.evar 0)) σ) := by
  simp [jac, upd, cell, put, val, envP, seq]

/-- Evaluate `C p`, change `p` from 0 to `(1, 0, 0)` and ask for Jacobians: the Jacobian of the rotation is still that at the old point. -/
theorem C60_stale_counterexample (σ : Store) : ∃ δ L L' τ τ',
    jac invS (envP ![1, 0, 0]) (.erot 0 (.rvar 0) (.evar 0)) (1 : M3) (upd (envP 0) (.erot 0 (.rvar 0) (.evar 0)) σ) = .ok (L, τ) ∧
    jac invS (envP ![1, 0, 0]) (.erot 0 (.rvar 0) (.evar 0)) (1 : M3) (upd (envP ![1, 0, 0]) (.erot 0 (.rvar 0) (.evar 0)) σ) = .ok (L', τ') ∧
    total δ L ≠ total δ L' := by
  refine ⟨fun v => match v with | .ro _ => ![0, 0, 1] | .sc _ => 0 | .pt _ => 0 | .ho _ => 0 | .mat _ _ => 0, _, _, _, _, stale 0 _ σ, stale _ _ σ, ?_⟩
  intro h
  have := congrFun h 1
  simp [total, crossMx, Matrix.mulVec, dotProduct, Fin.sum_univ_three, crossMx_zero] at this

/-- A product of transformations which has never been evaluated has no Jacobians: its members have not been set. -/
theorem C60_uninitialised_counterexample :
    jac invS (envP 0) (.tmul 0 (.tbasicE (.evar 0)) (.tbasicE (.evar 1))) idT (fun _ => none) = .ub ∧
    ∃ L τ, jac invS (envP 0) (.tmul 0 (.tbasicE (.evar 0)) (.tbasicE (.evar 1))) idT (upd (envP 0) (.tmul 0 (.tbasicE (.evar 0)) (.tbasicE (.evar 1))) fun _ => none) = .ok (L, τ) := by
  constructor
  · simp [jac]
  · simp [jac, upd, cell, put, val, seq]

/-! ### C61 -/

section Empty
variable (env : Env)

/-- Sums: an empty operand counts as zero. -/
theorem C61_add (a b : Handle .E) {x y : V3} (ha : a.val env = .ok x) (hb : b.val env = .ok y) :
    ∃ h, Handle.add a b = .ok h ∧ h.val env = .ok (x + y) := by
  cases a <;> cases b <;> simp_all [Handle.add, Handle.val, val]

/-- Negation. -/
theorem C61_neg (a : Handle .E) {x : V3} (ha : a.val env = .ok x) : ∃ h, Handle.neg a = .ok h ∧ h.val env = .ok (-x) := by
  cases a <;> simp_all [Handle.neg, Handle.val, val]
  subst ha; simp

/-- Cross products. -/
theorem C61_cross (a b : Handle .E) {x y : V3} (ha : a.val env = .ok x) (hb : b.val env = .ok y) :
    ∃ h, Handle.cross a b = .ok h ∧ h.val env = .ok (x ⨯₃ y) := by
  cases a <;> cases b <;> simp_all [Handle.cross, Handle.val, val, crossMx_mulVec] <;> (try subst ha) <;> (try subst hb) <;> (try simp)

/-- Multiplication by a scalar expression. -/
theorem C61_scale (a : Handle .E) (s : Handle .S) {x : V3} {k : ℝ} (ha : a.val env = .ok x) (hs : s.val env = .ok k) :
    ∃ h, Handle.scale a s = .ok h ∧ h.val env = .ok (k • x) := by
  cases a <;> cases s <;> simp_all [Handle.scale, Handle.val, val]
  subst ha; simp

/-- Components. -/
theorem C61_component (k : Fin 3) (a : Handle .E) {x : V3} (ha : a.val env = .ok x) :
    ∃ h, Handle.component k a = .ok h ∧ h.val env = .ok (x k) := by
  cases a <;> simp_all [Handle.component, Handle.val, val]
  subst ha; rfl

/-- Products of rotations: an empty operand counts as the identity. -/
theorem C61_rotation_product (id : Nat) (a b : Handle .R) {x y : M3} (ha : a.val env = .ok x) (hb : b.val env = .ok y) :
    ∃ h, Handle.rmul id a b = .ok h ∧ h.val env = .ok (x * y) := by
  rcases a with _ | a <;> rcases b with _ | b
  · cases ha; cases hb; simp [Handle.rmul, Handle.val, val]
  all_goals simp_all [Handle.rmul, Handle.val, val] <;> (try subst ha) <;> (try subst hb) <;> (try simp)

/-- Inverses of rotations. -/
theorem C61_rotation_inverse (id : Nat) (a : Handle .R) {x : M3} (ha : a.val env = .ok x) :
    ∃ h, Handle.rinv id a = .ok h ∧ h.val env = .ok xᵀ := by
  cases a <;> simp_all [Handle.rinv, Handle.val, val]
  subst ha; simp

/-- Rotated vectors. -/
theorem C61_rotate (id : Nat) (r : Handle .R) (p : Handle .E) {C : M3} {x : V3} (hr : r.val env = .ok C) (hp : p.val env = .ok x) :
    ∃ h, Handle.rotate id r p = .ok h ∧ h.val env = .ok (C *ᵥ x) := by
  cases r <;> cases p <;> simp_all [Handle.rotate, Handle.val, val] <;> (try subst hr) <;> (try subst hp) <;> (try simp)

/-- Transformations made of a rotation and a translation. -/
theorem C61_transformation (r : Handle .R) (p : Handle .E) {C : M3} {x : V3} (hr : r.val env = .ok C) (hp : p.val env = .ok x) :
    ∃ h, Handle.transformation r p = .ok h ∧ h.val env = .ok ⟨C, x⟩ := by
  cases r <;> cases p <;> simp_all [Handle.transformation, Handle.val, val]

/-- The rotation of a transformation. -/
theorem C61_rotation_of (T : Handle .T) {P : Pose} (hT : T.val env = .ok P) : ∃ h, Handle.rotation T = .ok h ∧ h.val env = .ok P.C := by
  cases T with
  | none => simp [Handle.val] at hT; subst hT; exact ⟨none, rfl, rfl⟩
  | some e =>
    cases e with
    | tbasic r p =>
      simp only [Handle.val, val, bind_eq_ok] at hT
      obtain ⟨C, hC, x, hx, h⟩ := hT
      cases h
      exact ⟨some r, rfl, hC⟩
    | tbasicR r =>
      simp only [Handle.val, val, bind_eq_ok] at hT
      obtain ⟨C, hC, h⟩ := hT
      cases h
      exact ⟨some r, rfl, hC⟩
    | tbasicE p =>
      simp only [Handle.val, val, bind_eq_ok] at hT
      obtain ⟨C, hC, h⟩ := hT
      cases h
      exact ⟨none, rfl, rfl⟩
    | tconst Q => exact ⟨some (.rtrans _), rfl, by
      simp only [Handle.val] at hT
      simp only [Handle.val]
      rw [val, hT]
      rfl⟩
    | tmul id a b => exact ⟨some (.rtrans _), rfl, by
      simp only [Handle.val] at hT
      simp only [Handle.val]
      rw [val, hT]
      rfl⟩
    | tinv id a => exact ⟨some (.rtrans _), rfl, by
      simp only [Handle.val] at hT
      simp only [Handle.val]
      rw [val, hT]
      rfl⟩

/-- The translation of a transformation. -/
theorem C61_translation_of (T : Handle .T) {P : Pose} (hT : T.val env = .ok P) : ∃ h, Handle.translation T = .ok h ∧ h.val env = .ok P.t := by
  cases T with
  | none => simp [Handle.val] at hT; subst hT; exact ⟨none, rfl, rfl⟩
  | some e =>
    have hT' : val env e = .ok P := hT
    have key : Handle.val env (some (.etrans e)) = .ok P.t := by
      simp only [Handle.val]
      rw [val, hT']
      rfl
    cases e with
    | tbasicE p =>
      simp only [val, bind_eq_ok] at hT'
      obtain ⟨C, hC, h⟩ := hT'
      cases h
      exact ⟨some p, rfl, hC⟩
    | tbasic r p => exact ⟨_, rfl, key⟩
    | tbasicR r => exact ⟨_, rfl, key⟩
    | tconst Q => exact ⟨_, rfl, key⟩
    | tmul id a b => exact ⟨_, rfl, key⟩
    | tinv id a => exact ⟨_, rfl, key⟩

/-- Products of transformations. -/
theorem C61_transformation_product (id : Nat) (a b : Handle .T) {P Q : Pose} (ha : a.val env = .ok P) (hb : b.val env = .ok Q) :
    ∃ h, Handle.tmul id a b = .ok h ∧ h.val env = .ok ⟨P.C * Q.C, P.C *ᵥ Q.t + P.t⟩ := by
  rcases a with _ | a <;> rcases b with _ | b
  · cases ha; cases hb; simp [Handle.tmul, Handle.val, val, Pose.mul]
  all_goals simp_all [Handle.tmul, Handle.val, val, Pose.mul] <;> (try subst ha) <;> (try subst hb) <;> (try simp)

/-- Inverses of transformations. -/
theorem C61_transformation_inverse (id : Nat) (a : Handle .T) {P : Pose} (ha : a.val env = .ok P) (hr : IsRot P.C) :
    ∃ h, Handle.tinv id a = .ok h ∧ h.val env = .ok ⟨P.Cᵀ, -(P.Cᵀ *ᵥ P.t)⟩ := by
  cases a <;> simp_all [Handle.tinv, Handle.val, val, Pose.inv_eq]
  subst ha; simp

/-- Transformed points. The full claim has no condition on `p`. Missing: an empty point, for which the library asserts or dereferences
a null pointer instead of giving the translation. -/
theorem C61_transform_partial (id : Nat) (T : Handle .T) (p : Handle .E) (hne : T = none ∨ p ≠ none) {P : Pose} {x : V3}
    (hT : T.val env = .ok P) (hp : p.val env = .ok x) : ∃ h, Handle.tmulE id T p = .ok h ∧ h.val env = .ok (P.C *ᵥ x + P.t) := by
  cases T with
  | none =>
    simp [Handle.val] at hT
    subst hT
    exact ⟨p, by cases p <;> rfl, by simpa using hp⟩
  | some T =>
    cases p with
    | none => simp at hne
    | some p => simp_all [Handle.tmulE, Handle.toHom, Handle.tmulH, both, Handle.toEuc, Handle.val, val, Pose.ap]

/-- Differences. The full claim has no condition. Missing: an empty first operand, where the sign is wrong. -/
theorem C61_sub_partial (a b : Handle .E) (hne : a ≠ none ∨ b = none) {x y : V3} (ha : a.val env = .ok x) (hb : b.val env = .ok y) :
    ∃ h, Handle.sub a b = .ok h ∧ h.val env = .ok (x - y) := by
  cases a <;> cases b <;> simp_all [Handle.sub, Handle.val, val] <;> (try subst hb) <;> (try simp)

/-- Elementwise products, products of a matrix and a point, and homogeneous coordinates. The full claim has no condition. Missing: empty
points, which are zero elsewhere (`C61_null_counterexample`). -/
theorem C61_products_partial (id : Nat) (p q : Handle .E) (hp : p ≠ none) (hq : q ≠ none) (M : Handle .M) (T : Handle .T) {x y : V3} {A : M3} {P : Pose}
    (hx : p.val env = .ok x) (hy : q.val env = .ok y) (hA : M.val env = .ok A) (hT : T.val env = .ok P) :
    (∃ h, Handle.elementwise p q = .ok h ∧ h.val env = .ok (fun k => x k * y k)) ∧
    (∃ h, Handle.matMul id M p = .ok h ∧ h.val env = .ok (A *ᵥ x)) ∧
    (∃ h, Handle.toHom p = .ok h ∧ h.val env = .ok (x, 1) ∧
      (∃ g, Handle.tmulH id T h = .ok g ∧ g.val env = .ok (P.C *ᵥ x + P.t, 1)) ∧ ∃ r, Handle.toEuc h = .ok r ∧ r.val env = .ok x) := by
  obtain ⟨p, rfl⟩ := Option.ne_none_iff_exists'.1 hp
  obtain ⟨q, rfl⟩ := Option.ne_none_iff_exists'.1 hq
  rcases M with _ | M
  · simp [Handle.val] at hA
  simp only [Handle.val] at hx hy hA
  refine ⟨⟨_, rfl, by simp [Handle.val, val, hx, hy]; rfl⟩, ⟨_, rfl, by simp [Handle.val, val, hx, hA]⟩, _, rfl, by simp [Handle.val, val, hx], ?_, _, rfl,
    by simp [Handle.val, val, hx]⟩
  rcases T with _ | T
  · simp only [Handle.val] at hT
    cases hT
    exact ⟨_, rfl, by simp [Handle.val, val, hx]⟩
  · simp only [Handle.val] at hT
    exact ⟨_, rfl, by simp [Handle.val, val, hx, hT, Pose.ap]⟩

example : ∃ h, Handle.matMul 0 (some (.mvar 0 [])) (some (.evar 1)) = .ok h ∧ h.val (exC 1) = .ok ((1 : M3) *ᵥ (exC 1).pt 1) :=
  (C61_products_partial (exC 1) 0 (some (.evar 1)) (some (.evar 0)) (by simp) (by simp) (some (.mvar 0 [])) none rfl rfl rfl rfl).2.1

example : ∃ h, Handle.sub (some (.evar 0)) none = .ok h ∧ h.val (exC 1) = .ok ((exC 1).pt 0 - (0 : V3)) :=
  C61_sub_partial (exC 1) (some (.evar 0)) none (.inl (by simp)) rfl rfl
example : ∃ h, Handle.add none (some (.evar 0)) = .ok h ∧ h.val (exC 1) = .ok ((0 : V3) + (exC 1).pt 0) := C61_add (exC 1) _ _ rfl rfl
example : ∃ h, Handle.neg none = .ok h ∧ h.val (exC 1) = .ok (-(0 : V3)) := C61_neg (exC 1) _ rfl
example : ∃ h, Handle.cross (some (.evar 0)) none = .ok h ∧ h.val (exC 1) = .ok ((exC 1).pt 0 ⨯₃ (0 : V3)) := C61_cross (exC 1) _ _ rfl rfl
example : ∃ h, Handle.scale none (some (.svar 0)) = .ok h ∧ h.val (exC 1) = .ok ((1 + (0 : ℕ) : ℝ) • (0 : V3)) := C61_scale (exC 1) _ _ rfl rfl
example : ∃ h, Handle.component 2 none = .ok h ∧ h.val (exC 1) = .ok ((0 : V3) 2) := C61_component (exC 1) _ _ rfl
example : ∃ h, Handle.rmul 0 none (some (.rvar 0)) = .ok h ∧ h.val (exC 1) = .ok (1 * axisRot 2 1) := C61_rotation_product (exC 1) _ _ _ rfl rfl
example : ∃ h, Handle.rinv 0 (some (.rvar 0)) = .ok h ∧ h.val (exC 1) = .ok (axisRot 2 1)ᵀ := C61_rotation_inverse (exC 1) _ _ rfl
example : ∃ h, Handle.rotate 0 none (some (.evar 0)) = .ok h ∧ h.val (exC 1) = .ok ((1 : M3) *ᵥ (exC 1).pt 0) := C61_rotate (exC 1) _ _ _ rfl rfl
example : ∃ h, Handle.transformation none (some (.evar 0)) = .ok h ∧ h.val (exC 1) = .ok ⟨1, (exC 1).pt 0⟩ := C61_transformation (exC 1) _ _ rfl rfl
example : ∃ h, Handle.rotation (some (.tbasicE (.evar 0))) = .ok h ∧ h.val (exC 1) = .ok (1 : M3) :=
  C61_rotation_of (exC 1) (some (.tbasicE (.evar 0))) (P := ⟨1, (exC 1).pt 0⟩) rfl
example : ∃ h, Handle.translation (some (.tbasicR (.rvar 0))) = .ok h ∧ h.val (exC 1) = .ok (0 : V3) :=
  C61_translation_of (exC 1) (some (.tbasicR (.rvar 0))) (P := ⟨axisRot 2 1, 0⟩) rfl
example : ∃ h, Handle.tmul 0 none (some (.tbasicE (.evar 0))) = .ok h ∧ h.val (exC 1) = .ok ⟨1 * 1, (1 : M3) *ᵥ (exC 1).pt 0 + (0 : V3)⟩ :=
  C61_transformation_product (exC 1) _ none (some (.tbasicE (.evar 0))) (P := ⟨1, 0⟩) (Q := ⟨1, (exC 1).pt 0⟩) rfl rfl
example : ∃ h, Handle.tinv 0 (some (.tbasicE (.evar 0))) = .ok h ∧ h.val (exC 1) = .ok ⟨1ᵀ, -((1ᵀ : M3) *ᵥ (exC 1).pt 0)⟩ :=
  C61_transformation_inverse (exC 1) _ (some (.tbasicE (.evar 0))) (P := ⟨1, (exC 1).pt 0⟩) rfl IsRot.one
example : ∃ h, Handle.tmulE 0 (some (.tbasicR (.rvar 0))) (some (.evar 0)) = .ok h ∧ h.val (exC 1) = .ok (axisRot 2 1 *ᵥ (exC 1).pt 0 + (0 : V3)) :=
  C61_transform_partial (exC 1) _ (some (.tbasicR (.rvar 0))) (some (.evar 0)) (.inr (by simp)) (P := ⟨axisRot 2 1, 0⟩) rfl rfl

/-- An empty expression minus `p` is `p`, not `-p`; both overloads. -/
theorem C61_sub_counterexample :
    (∃ h, Handle.sub none (some (.econst ![1, 0, 0])) = .ok h ∧ h.val env = .ok ![1, 0, 0]) ∧
    (∃ h, Handle.subVec none ![1, 0, 0] = .ok h ∧ h.val env = .ok ![1, 0, 0]) ∧ (![1, 0, 0] : V3) ≠ 0 - ![1, 0, 0] := by
  refine ⟨⟨_, rfl, rfl⟩, ⟨_, rfl, rfl⟩, fun h => ?_⟩
  have := congrFun h 0
  norm_num at this

/-- A transformation applied to an empty point, the elementwise product with an empty point and the product of a matrix and an empty point
are undefined, though the empty point evaluates to zero. Empty scalars, homogeneous points and matrices cannot be evaluated at all. -/
theorem C61_null_counterexample (id : Nat) (T : Node .T) (p : Node .E) (M : Node .M) : Handle.val env (none : Handle .E) = .ok 0 ∧
    Handle.tmulE id (some T) none = .ub ∧ Handle.toHom none = .ub ∧ Handle.toEuc none = .ub ∧ Handle.elementwise (some p) none = .ub ∧ Handle.matMul id (some M) none = .ub ∧
    Handle.val env (none : Handle .S) = .ub ∧ Handle.val env (none : Handle .H) = .ub ∧ Handle.val env (none : Handle .M) = .ub := ⟨rfl, rfl, rfl, rfl, rfl, rfl, rfl, rfl, rfl⟩

end Empty

/-! ### C62 -/

/-- Every design variable which receives a Jacobian is reported. -/
theorem C62_jacobians_reported (env : Env) {ty : Ty} (e : Node ty) (hc : Cons tbl e) {m : Nat} (A : Matrix (Fin m) (TI ty) ℝ) (σ τ : Store)
    (L : List (Contr m)) (h : jac invS env e A σ = .ok (L, τ)) : ∀ b ∈ L, b.v ∈ dvs env e := (jac_mono e A hc σ L τ h).2

example (σ : Store) : ∀ b ∈ ([⟨.ro 0, crossMx 0⟩, ⟨.pt 0, (1 : M3)⟩] : List (Contr 3)), b.v ∈ dvs (envP 0) (.erot 0 (.rvar 0) (.evar 0)) :=
  C62_jacobians_reported (invS := fun _ => 0) (tbl := fun _ => ⟨_, .erot 0 (.rvar 0) (.evar 0)⟩) (envP 0) (.erot 0 (.rvar 0) (.evar 0)) (by simp [Cons]) (1 : M3) _ _ _ (stale 0 0 σ)

/-- Expressions without piecewise nodes. -/
def NoPiecewise {ty : Ty} (e : Node ty) : Prop := ∀ env env', SameBranches env env' e

/-- The value depends on the reported variables only. The full claim includes piecewise expressions. Missing: changes which make a
condition choose another branch; neither the variables of the condition nor those of the other branch are reported
(`C62_piecewise_counterexample`). -/
theorem C62_dependencies_partial (env env' : Env) {ty : Ty} (e : Node ty) (hb : SameBranches env env' e) (h : AgreeOn env env' (dvs env e)) :
    val env e = val env' e := val_agree env env' e hb h

/-- Without piecewise nodes nothing is missing. -/
theorem C62_dependencies (env env' : Env) {ty : Ty} (e : Node ty) (hb : NoPiecewise e) (h : AgreeOn env env' (dvs env e)) :
    val env e = val env' e := val_agree env env' e (hb env env') h

example : NoPiecewise exPoint ∧ AgreeOn (exC 0) { exC 0 with sc := fun _ => 7 } (dvs (exC 0) exPoint) :=
  ⟨fun _ _ => by simp [SameBranches, exPoint], by simp [AgreeOn, dvs, exPoint, SameAt]⟩

/-- `x₀ > 0 ? x₁ : x₂` at `x = (1, ..)` reports `x₁` only, but changing `x₀` changes the value. -/
theorem C62_piecewise_counterexample : ∃ (cond : Env → Bool) (env env' : Env),
    AgreeOn env env' (dvs env (.spiece cond (.svar 1) (.svar 2))) ∧
    val env (.spiece cond (.svar 1) (.svar 2)) = .ok 1 ∧ val env' (.spiece cond (.svar 1) (.svar 2)) = .ok 2 := by
  classical
  refine ⟨fun env => decide (0 < env.sc 0), ⟨fun i => if i = 0 then 1 else i, fun _ => 0, fun _ => 1, fun _ => 0, fun _ _ => 1⟩,
    ⟨fun i => if i = 0 then -1 else i, fun _ => 0, fun _ => 1, fun _ => 0, fun _ _ => 1⟩, ?_, ?_, ?_⟩
  · simp [AgreeOn, dvs, SameAt]
  · simp [val]
  · simp [val]

end Verif.Expr
