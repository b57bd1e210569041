import Verif.Motion.Lemmas
import Verif.Expr.Props

/-!
C108: the Jacobians of expressions are derivatives with respect to what `update` of the design variables does.
C109: rotations made from four numbers.  C110: transformations in memory of the user.
-/
namespace Verif.Motion
open Verif.Quat (Q4 axisAngle2quat quatPlus quatOPlus dot4 axisAngle_unit)
open Verif.DesignVar (Sm Cls Class St Mat vec unvec)
open Verif.Geo
open Verif.Expr (Env Var Pose Node Ty Val TI Store Table Moves Der Cons Smooth jac upd total)
open Matrix Filter Topology

variable {debug : Bool}

theorem ofFn_get {n : Nat} (f : Fin n → ℝ) : (fun i : Fin n => (List.ofFn f).getD i.val 0) = f := by
  funext i
  simp [List.getD_eq_getElem?_getD]

theorem update_val {k : Cls} {s s' : St k} {f : Fin k.d → ℝ} (h : DesignVar.update debug s (List.ofFn f) = .ok s') :
    s'.val = k.upd s.val f ∧ s'.shown = k.eval (k.upd s.val f) := by
  obtain ⟨-, rfl⟩ := DesignVar.update_ok h
  rw [ofFn_get f]
  exact ⟨rfl, rfl⟩

/-- Every step has an effect: the sizes of the parts are the ones `update` asks for. -/
theorem step_exists (w : World) (s : ℝ) (δ : (v : Var) → v.Idx → ℝ) : ∃ w', w.step debug s δ w' :=
  ⟨⟨_, _, _, _, _⟩, fun i => DesignVar.update_fits (w.sc i) _ rfl, fun i => DesignVar.update_fits (w.pt i) _ (by rw [List.length_ofFn]; rfl),
    fun i => DesignVar.update_fits (w.ro i) _ (by rw [List.length_ofFn]; rfl), fun i => DesignVar.update_fits (w.ho i) _ (by rw [List.length_ofFn]; rfl),
    fun i free => DesignVar.update_fits (w.mat i free) _ (by rw [List.length_ofFn]; rfl)⟩

theorem mat_upd {free : List (Fin 3 × Fin 3)} (A : M3) (δ : Fin free.length → ℝ) (i j : Fin 3) :
    ((Class.matrixBasic free.length (selection free)).cls smKin).upd A δ i j = A i j + ∑ k, if free.get k = (i, j) then δ k else 0 := by
  change A i j + (selection free *ᵥ δ) ⟨j.val * 3 + i.val, _⟩ = _
  congr 1
  simp only [mulVec, dotProduct, selection]
  refine Finset.sum_congr rfl fun k _ => ?_
  have : DesignVar.place (free.get k) = ⟨j.val * 3 + i.val, by omega⟩ ↔ free.get k = (i, j) :=
    ⟨fun h => DesignVar.place_inj h, fun h => by rw [h]; rfl⟩
  by_cases hk : free.get k = (i, j)
  · rw [if_pos (this.2 hk), if_pos hk, one_mul]
  · rw [if_neg (fun h => hk (this.1 h)), if_neg hk, zero_mul]

/-- The matrices in `World` are the ones the constructor of `MatrixBasic` makes from a pattern. -/
theorem pattern_selection (P : Matrix (Fin 3) (Fin 3) ℤ) : DesignVar.pattern P = .ok ⟨_, selection (DesignVar.marked P)⟩ := by
  obtain ⟨B, h, hB⟩ := DesignVar.pattern_ok P
  rw [h]
  congr 2
  funext i k
  exact hB i k

/-- What the expressions read after a step. -/
theorem step_env {w w' : World} {s : ℝ} {δ : (v : Var) → v.Idx → ℝ} (h : w.step debug s δ w') :
    w'.env = ⟨fun i => vec (n := 1) (w.sc i).val 0 + s * δ (.sc i) (), fun i => vec (n := 3) (w.pt i).val + s • δ (.pt i),
      fun i => quat2r (smKin.updateQuat (vec (n := 4) (w.ro i).val) (s • δ (.ro i))),
      fun i => let q := smKin.updateQuat (vec (n := 4) (w.ho i).val) (s • δ (.ho i)); (![q 0, q 1, q 2], q 3),
      fun i free a b => (w.mat i free).val a b + ∑ k, if free.get k = (a, b) then s * δ (.mat i free) k else 0⟩ := by
  obtain ⟨h1, h2, h3, h4, h5⟩ := h
  unfold World.env
  congr 1
  · funext i
    obtain ⟨-, e⟩ := DesignVar.update_ok (h1 i)
    rw [e]
    rfl
  · funext i
    rw [(update_val (h2 i)).2]
    rfl
  · funext i
    rw [(update_val (h3 i)).2]
    rfl
  · funext i
    rw [(update_val (h4 i)).2]
    rfl
  · funext i free a b
    rw [(update_val (h5 i free)).2]
    exact mat_upd _ _ _ _

/-- A step of length zero changes no value. -/
theorem step_zero {w w' : World} (hw : w.Ok) {δ : (v : Var) → v.Idx → ℝ} (h : w.step debug 0 δ w') : w'.env = w.env := by
  rw [step_env h]
  unfold World.env
  congr 1
  · funext i
    rw [hw.sc i, zero_mul, add_zero]
    rfl
  · funext i
    rw [hw.pt i, zero_smul, add_zero]
    rfl
  · funext i
    rw [hw.ro i, zero_smul, updateQuat_zero]
    rfl
  · funext i
    rw [hw.ho i, zero_smul, updateQuat_zero]
    rfl
  · funext i free a b
    rw [hw.mat i free]
    simp
    rfl

/-- The motion of the design variables under `update`. -/
theorem step_moves {w : World} (hw : w.Ok) {δ : (v : Var) → v.Idx → ℝ} {w' : ℝ → World} (h : ∀ s, w.step debug s δ (w' s)) :
    Moves invS (fun s => (w' s).env) 0 δ := by
  have hq : ∀ i, VDeriv (fun s : ℝ => smKin.updateQuat (vec (n := 4) (w.ho i).val) (s • δ (.ho i))) _ 0 := fun i => updateQuat_deriv _ _
  have h0 : ∀ i, smKin.updateQuat (vec (n := 4) (w.ho i).val) ((0 : ℝ) • δ (.ho i)) = vec (n := 4) (w.ho i).val := fun i => by rw [zero_smul, updateQuat_zero]
  simp only [funext fun s => step_env (h s)]
  refine ⟨fun i => ?_, fun i k => ?_, fun i => ?_, fun i s => ?_, fun i k => ?_, fun i => ?_, fun i free a b => ?_⟩
  · simpa using ((hasDerivAt_id (0 : ℝ)).mul_const (δ (.sc i) ())).const_add (vec (n := 1) (w.sc i).val 0)
  · simpa using ((hasDerivAt_id (0 : ℝ)).mul_const (δ (.pt i) k)).const_add (vec (n := 3) (w.pt i).val k)
  · refine (rotation_deriv _ (δ (.ro i))).congr ?_
    simp only [zero_smul, updateQuat_zero]
  · exact quat2r_isRot (updateQuat_unit (hw.unit i) _)
  · simp only [h0]
    fin_cases k
    · refine (hq i 0).congr_deriv ?_
      simp [invS, mulVec, dotProduct, Fin.sum_univ_three, quatOPlus]
    · refine (hq i 1).congr_deriv ?_
      simp [invS, mulVec, dotProduct, Fin.sum_univ_three, quatOPlus]
    · refine (hq i 2).congr_deriv ?_
      simp [invS, mulVec, dotProduct, Fin.sum_univ_three, quatOPlus]
  · simp only [h0]
    refine (hq i 3).congr_deriv ?_
    simp [invS, mulVec, dotProduct, Fin.sum_univ_three, quatOPlus]
  · have : HasDerivAt (fun s : ℝ => (w.mat i free).val a b + ∑ k, if free.get k = (a, b) then s * δ (.mat i free) k else 0)
        (∑ k, if free.get k = (a, b) then δ (.mat i free) k else 0) 0 := by
      refine HasDerivAt.const_add _ (HasDerivAt.fun_sum fun k _ => ?_)
      by_cases hk : free.get k = (a, b)
      · simp only [if_pos hk]
        simpa using (hasDerivAt_id (0 : ℝ)).mul_const (δ (.mat i free) k)
      · simp only [if_neg hk]
        exact hasDerivAt_const _ _
    exact this

/-- Steps leave the objects as they should be: in particular unit quaternions stay unit quaternions. -/
theorem C108_ok {w w' : World} (hw : w.Ok) {s : ℝ} {δ : (v : Var) → v.Idx → ℝ} (h : w.step debug s δ w') : w'.Ok := by
  obtain ⟨h1, h2, h3, h4, h5⟩ := h
  refine ⟨fun i => ?_, fun i => ?_, fun i => ?_, fun i => ?_, fun i free => ?_, fun i => ?_⟩
  · rw [(DesignVar.update_ok (h1 i)).2]
  · rw [(DesignVar.update_ok (h2 i)).2]
  · rw [(DesignVar.update_ok (h3 i)).2]
  · rw [(DesignVar.update_ok (h4 i)).2]
  · rw [(DesignVar.update_ok (h5 i free)).2]
  · rw [(update_val (h3 i)).1]
    exact updateQuat_unit (hw.unit i) _

/-- The objects after a list of steps, one after the other. -/
inductive Reach (debug : Bool) (w : World) : World → Prop
  | start : Reach debug w w
  | next {w' w'' : World} {s : ℝ} {δ : (v : Var) → v.Idx → ℝ} : Reach debug w w' → w'.step debug s δ w'' → Reach debug w w''

theorem reach_ok {w w' : World} (hw : w.Ok) (h : Reach debug w w') : w'.Ok := by
  induction h with
  | start => exact hw
  | next _ h ih => exact C108_ok ih h

/-- **C108.** After any number of steps, for every expression and every direction: evaluate the Jacobians of the expression, then hand
`s` times the direction to `update` of the design variables.  The Jacobian times the direction is the rate at which the value of the
expression changes with `s`. -/
theorem C108_update {w₀ w : World} (hw₀ : w₀.Ok) (hreach : Reach debug w₀ w) {δ : (v : Var) → v.Idx → ℝ} {w' : ℝ → World}
    (h : ∀ s, w.step debug s δ (w' s)) {tbl : Table} {ty : Ty} (e : Node ty) (hc : Cons tbl e) (hs : Smooth (fun s => (w' s).env) 0 e)
    {v : Val ty} (hv : Expr.val w.env e = .ok v) {m : Nat} (A : Matrix (Fin m) (TI ty) ℝ) (σ : Store) :
    ∃ f d L σ', f 0 = v ∧ (∀ᶠ s in 𝓝 0, Expr.val (w' s).env e = .ok (f s)) ∧ Der ty f d 0 ∧
      jac invS w.env e A (upd w.env e σ) = .ok (L, σ') ∧ total δ L = A *ᵥ d := by
  have hw := reach_ok hw₀ hreach
  have e0 := step_zero hw (h 0)
  obtain ⟨f, d, L, σ', h1, h2, h3, h4⟩ := Expr.C59_first_order (step_moves hw h) e hc hs (by simpa only [e0] using hv) A σ
  simp only [e0] at h3
  have := h1.self_of_nhds
  rw [e0, hv] at this
  exact ⟨f, d, L, σ', (Res.ok.inj this).symm, h1, h2, h3, h4⟩

/-- For points, with the identity as chain rule matrix. -/
theorem C108_point {w₀ w : World} (hw₀ : w₀.Ok) (hreach : Reach debug w₀ w) {δ : (v : Var) → v.Idx → ℝ} {w' : ℝ → World}
    (h : ∀ s, w.step debug s δ (w' s)) {tbl : Table} (e : Node .E) (hc : Cons tbl e) (hs : Smooth (fun s => (w' s).env) 0 e)
    {v : V3} (hv : Expr.val w.env e = .ok v) (σ : Store) :
    ∃ f L σ', f 0 = v ∧ (∀ᶠ s in 𝓝 0, Expr.val (w' s).env e = .ok (f s)) ∧ jac invS w.env e (1 : M3) (upd w.env e σ) = .ok (L, σ') ∧
      VDeriv f (total δ L) 0 := by
  obtain ⟨f, d, L, σ', h0, h1, h2, h3, h4⟩ := C108_update hw₀ hreach h e hc hs hv (1 : M3) σ
  exact ⟨f, L, σ', h0, h1, h3, VDeriv.congr h2 (by rw [h4]; exact (Matrix.one_mulVec d).symm)⟩

/-- A world: all numbers and points at rest at simple values, all rotations a turn given by `(0, 0, 3/5, 4/5)`. -/
noncomputable def exWorld : World where
  sc _ := DesignVar.make _ (unvec ![2])
  pt i := DesignVar.make _ (unvec ![1, 2, i])
  ro _ := DesignVar.make _ (unvec ![0, 0, 3 / 5, 4 / 5])
  ho _ := DesignVar.make _ (unvec ![0, 0, 1, 1])
  mat _ _ := DesignVar.make _ (1 : M3)

theorem exWorld_ok : exWorld.Ok :=
  ⟨fun _ => rfl, fun _ => rfl, fun _ => rfl, fun _ => rfl, fun _ _ => rfl, fun _ => by
    change dot4 (![0, 0, 3 / 5, 4 / 5] : Q4 ℝ) ![0, 0, 3 / 5, 4 / 5] = 1
    simp [dot4]
    norm_num⟩

/-- The rotated difference of two points, after two steps in a direction that moves everything. -/
example : ∃ (w : World) (w' : ℝ → World) (f : ℝ → V3) (L : List (Expr.Contr 3)) (σ' : Store), Reach true exWorld w ∧
    (∀ s, w.step true s (fun _ _ => 1) (w' s)) ∧ VDeriv f (total (fun _ _ => 1) L) 0 ∧
    jac invS w.env (.erot 0 (.rvar 0) (.esub (.evar 0) (.evar 1))) (1 : M3) (upd w.env (.erot 0 (.rvar 0) (.esub (.evar 0) (.evar 1))) fun _ => none) = .ok (L, σ') := by
  obtain ⟨w1, h1⟩ := step_exists (debug := true) exWorld (1 / 2) (fun _ _ => 1)
  obtain ⟨w2, h2⟩ := step_exists (debug := true) w1 3 (fun _ _ => -1)
  choose w' h' using fun s => step_exists (debug := true) w2 s (fun _ _ => 1)
  obtain ⟨f, L, σ', -, -, h3, h4⟩ := C108_point exWorld_ok (.next (.next .start h1) h2) h' (tbl := fun _ => ⟨_, .erot 0 (.rvar 0) (.esub (.evar 0) (.evar 1))⟩)
    (.erot 0 (.rvar 0) (.esub (.evar 0) (.evar 1))) (by simp [Cons]) (by simp [Smooth]) rfl fun _ => none
  exact ⟨w2, w', f, L, σ', .next (.next .start h1) h2, h', h4, h3⟩

/-- A world in which the quaternions of the rotations have length 2. -/
noncomputable def exLong : World := { exWorld with ro := fun _ => DesignVar.make _ (unvec ![0, 0, 0, 2]) }

/-- All rotations turn about z. -/
def exTurn : (v : Var) → v.Idx → ℝ
  | .ro _ => ![0, 0, 1]
  | _ => 0

/-- **C108, counterexample.** Rotations whose quaternion does not have length one (neither the constructors nor `setParameters` normalise): the Jacobian
of the inverse rotation is not the derivative.  Here the length is 2 and the Jacobian says the inverse turns four times faster than it does. -/
theorem C108_length_counterexample (debug : Bool) (σ : Store) (w' : ℝ → World)
    (h : ∀ s, exLong.step debug s exTurn (w' s)) :
    ∃ (f : ℝ → M3) (L : List (Expr.Contr 3)) (σ' : Store), (∀ s, Expr.val (w' s).env (.rinv 0 (.rvar 0)) = .ok (f s)) ∧
      jac invS exLong.env (.rinv 0 (.rvar 0)) (1 : M3) (upd exLong.env (.rinv 0 (.rvar 0)) σ) = .ok (L, σ') ∧
      ¬ MDeriv f (-(crossMx (total exTurn L) * f 0)) 0 ∧
      MDeriv f (-(crossMx ((1 / 4 : ℝ) • total exTurn L) * f 0)) 0 := by
  have hC : quat2r ![0, 0, 0, 2] = (4 : ℝ) • (1 : M3) := by
    ext i j
    fin_cases i <;> fin_cases j <;> simp [quat2r] <;> norm_num
  have hd := (rotation_deriv ![0, 0, 0, 2] ![0, 0, 1]).transpose
  have hf0 : (quat2r (smKin.updateQuat ![0, 0, 0, 2] ((0 : ℝ) • (![0, 0, 1] : Fin 3 → ℝ))))ᵀ = (4 : ℝ) • (1 : M3) := by
    rw [zero_smul, updateQuat_zero, hC, Matrix.transpose_smul, Matrix.transpose_one]
  have ht : total exTurn
      [(⟨.ro 0, (1 : M3) * -((4 : ℝ) • (1 : M3))ᵀ⟩ : Expr.Contr 3)] = ![0, 0, -4] := by
    funext i
    fin_cases i <;> simp [total, exTurn, mulVec, dotProduct, Matrix.one_apply]
  refine ⟨fun s => (quat2r (smKin.updateQuat ![0, 0, 0, 2] (s • ![0, 0, 1])))ᵀ, [⟨.ro 0, (1 : M3) * -(quat2r ![0, 0, 0, 2])ᵀ⟩],
    upd exLong.env (.rinv 0 (.rvar 0)) σ, fun s => ?_, ?_, fun h1 => ?_, ?_⟩
  · simp only [Expr.val, step_env (h s)]
    rfl
  · have hv : Expr.val exLong.env (.rvar 0) = .ok (quat2r ![0, 0, 0, 2]) := rfl
    simp only [upd, Expr.cell, hv, Res.bind_ok, jac]
    simp [Expr.put]
  · rw [hC, ht] at h1
    simp only [hf0] at h1
    have := (h1 1 0).unique (hd 1 0)
    rw [hC] at this
    simp [crossMx] at this
  · rw [hC, ht]
    simp only [hf0]
    refine hd.congr ?_
    rw [hC]
    ext i j
    fin_cases i <;> fin_cases j <;> simp [crossMx]

example : ∃ w' : ℝ → World, ∀ s, exLong.step true s exTurn (w' s) :=
  Classical.skolem.1 fun s => step_exists exLong s exTurn

/-! ### Rotations made from four numbers -/

theorem isRot_iff (q : Q4 ℝ) : IsRot (quat2r q) ↔ dot4 q q = 1 := by
  refine ⟨fun h => ?_, quat2r_isRot⟩
  have hd : (quat2r q).det = dot4 q q ^ 3 := by
    simp [quat2r, Matrix.det_fin_three, dot4]
    ring
  rw [h.2] at hd
  have hnn : 0 ≤ dot4 q q := by
    unfold dot4
    nlinarith [mul_self_nonneg (q 0), mul_self_nonneg (q 1), mul_self_nonneg (q 2), mul_self_nonneg (q 3)]
  exact (pow_eq_one_iff_of_nonneg hnn (by norm_num)).1 hd.symm

/-- **C109.** A rotation made from an expression of four numbers whose value is a unit quaternion near the current values: the value is a rotation
and the Jacobian handed on (the matrix of the adapter times the velocity of the four numbers) is its velocity.
What is missing: four numbers that do not stay on the unit sphere, see the counterexamples. -/
theorem C109_adapter_partial {v : ℝ → Q4 ℝ} {v' : Q4 ℝ} {t : ℝ} (h : VDeriv v v' t) (hu : ∀ᶠ s in 𝓝 t, dot4 (v s) (v s) = 1) :
    Der .R (fun s => adapterValue (v s)) (adapterMatrix (v t) *ᵥ v') t := by
  have hd : HasDerivAt (fun s => dot4 (v s) (v s)) (2 * dot4 (v t) v') t := by
    refine (((((h 0).mul (h 0)).add ((h 1).mul (h 1))).add ((h 2).mul (h 2))).add ((h 3).mul (h 3))).congr_deriv ?_
    unfold dot4
    ring
  have h0 := hd.unique ((hasDerivAt_const t (1 : ℝ)).congr_of_eventuallyEq hu)
  exact ⟨quat2r_deriv h hu.self_of_nhds (by linarith), hu.mono fun s hs => quat2r_isRot hs⟩

/-- Unit quaternions of a turn about z. -/
theorem exUnit (t : ℝ) : VDeriv (fun s : ℝ => (![0, 0, Real.sin s, Real.cos s] : Q4 ℝ)) ![0, 0, Real.cos t, -Real.sin t] t := by
  intro k
  fin_cases k
  · exact hasDerivAt_const _ _
  · exact hasDerivAt_const _ _
  · exact Real.hasDerivAt_sin t
  · exact Real.hasDerivAt_cos t

example := C109_adapter_partial (exUnit 1) (Filter.Eventually.of_forall fun s => by
  simp only [dot4, Matrix.cons_val_zero, Matrix.cons_val_one, Matrix.cons_val, Fin.isValue]
  nlinarith [Real.sin_sq_add_cos_sq s])

/-- **C109, counterexample.** A design variable of four numbers (`DesignVariableVector<4>`) moves by addition: from a unit quaternion every step that
is orthogonal to it, hence every step the Jacobian of the adapter can tell from no step, makes the value something else than a rotation. -/
theorem C109_leaves_counterexample (debug : Bool) (q : Q4 ℝ) (hq : dot4 q q = 1) (δ : Q4 ℝ) (h0 : dot4 q δ = 0) (hδ : δ ≠ 0) :
    ∃ s' : St ((Class.vector 4).cls smKin), DesignVar.update debug (DesignVar.make ((Class.vector 4).cls smKin) (unvec q)) (List.ofFn δ) = .ok s' ∧
      ¬ IsRot (adapterValue s'.shown) := by
  refine ⟨_, DesignVar.update_fits _ _ (by rw [List.length_ofFn]; rfl), ?_⟩
  have e : (fun i : Fin 4 => (List.ofFn δ).getD i.val 0) = δ := ofFn_get δ
  change ¬ IsRot (adapterValue (q + fun i : Fin 4 => (List.ofFn δ).getD i.val 0))
  rw [e, adapterValue, isRot_iff]
  have h1 : dot4 (q + δ) (q + δ) = dot4 q q + 2 * dot4 q δ + dot4 δ δ := by
    simp only [dot4, Pi.add_apply]
    ring
  rw [h1, hq, h0]
  intro h2
  refine hδ ?_
  have h3 : δ 0 * δ 0 + δ 1 * δ 1 + δ 2 * δ 2 + δ 3 * δ 3 = 0 := by unfold dot4 at h2; linarith
  funext k
  fin_cases k <;> simp <;> nlinarith [mul_self_nonneg (δ 0), mul_self_nonneg (δ 1), mul_self_nonneg (δ 2), mul_self_nonneg (δ 3)]

example : dot4 (![0, 0, 0, 1] : Q4 ℝ) ![0, 0, 0, 1] = 1 ∧ dot4 (![0, 0, 0, 1] : Q4 ℝ) ![1, 2, 0, 0] = 0 ∧ (![1, 2, 0, 0] : Q4 ℝ) ≠ 0 :=
  ⟨by simp [dot4], by simp [dot4], fun h => by simpa using congrFun h 0⟩

/-- **C109, counterexample.** A step along the quaternion: the Jacobian of the adapter says that nothing moves, the value grows at twice the rate of the step. -/
theorem C109_length_counterexample (debug : Bool) (q : Q4 ℝ) (hq : dot4 q q = 1) :
    ∃ f : ℝ → M3, (∀ s : ℝ, ∃ s' : St ((Class.vector 4).cls smKin),
        DesignVar.update debug (DesignVar.make ((Class.vector 4).cls smKin) (unvec q)) (List.ofFn (s • q)) = .ok s' ∧ adapterValue s'.shown = f s) ∧
      adapterMatrix q *ᵥ q = 0 ∧ MDeriv f ((2 : ℝ) • quat2r q) 0 ∧ (2 : ℝ) • quat2r q ≠ 0 := by
  have hs : ∀ (a : ℝ) (p : Q4 ℝ), quat2r (a • p) = (a * a) • quat2r p := by
    intro a p
    ext i j
    fin_cases i <;> fin_cases j <;> simp [quat2r] <;> ring
  refine ⟨fun s => ((1 + s) * (1 + s)) • quat2r q, fun s => ⟨_, DesignVar.update_fits _ _ (by rw [List.length_ofFn]; rfl), ?_⟩, ?_, fun i j => ?_, fun h => ?_⟩
  · have e : (fun i : Fin 4 => (List.ofFn (s • q)).getD i.val 0) = s • q := ofFn_get _
    change quat2r (q + fun i : Fin 4 => (List.ofFn (s • q)).getD i.val 0) = _
    rw [e]
    change _ = ((1 + s) * (1 + s)) • quat2r q
    rw [← hs, add_smul, one_smul]
  · funext i
    fin_cases i <;> simp [adapterMatrix, quatOPlus, quatInv, mulVec, dotProduct, Fin.sum_univ_four] <;> ring
  · have h1 : HasDerivAt (fun s : ℝ => 1 + s) 1 0 := (hasDerivAt_id (0 : ℝ)).const_add 1
    refine ((h1.mul h1).mul_const (quat2r q i j)).congr_deriv ?_
    change _ = 2 * quat2r q i j
    ring
  · have h2 := (quat2r_isRot hq).2
    have h3 : quat2r q = 0 := by simpa using h
    rw [h3] at h2
    simp at h2

/-! ### Transformations in memory of the user -/

/-- The call is not an assignment by the owner of the memory. -/
def MOp.Own : MOp → Prop
  | .onQ o => o.Own
  | .onT o => o.Own
  | .assign _ _ => False

theorem mapped_inv {m m' : Mapped} {o : MOp} (ho : o.Own) (hm : m.q.shown = quat2r (vec (n := 4) m.q.val) ∧ m.t.shown = vec (n := 3) m.t.val)
    (h : m.step debug o = .ok m') : m'.q.shown = quat2r (vec (n := 4) m'.q.val) ∧ m'.t.shown = vec (n := 3) m'.t.val := by
  cases o with
  | onQ o =>
    simp only [Mapped.step] at h
    cases hs : DesignVar.step debug m.q o with
    | ok q =>
      rw [hs, Res.bind_ok] at h
      cases h
      exact ⟨DesignVar.step_shown ho hs, hm.2⟩
    | exc => rw [hs] at h; cases h
    | ub => rw [hs] at h; cases h
  | onT o =>
    simp only [Mapped.step] at h
    cases hs : DesignVar.step debug m.t o with
    | ok q =>
      rw [hs, Res.bind_ok] at h
      cases h
      exact ⟨hm.1, DesignVar.step_shown ho hs⟩
    | exc => rw [hs] at h; cases h
    | ub => rw [hs] at h; cases h
  | assign q t => exact ho.elim

/-- **C110.** The expression made from a transformation and the transformation itself: after any calls to the two design variables (updates, reverts,
`setParameters`) they have the same value.  What is missing: assignments to the transformation by its owner, see the counterexample. -/
theorem C110_values_partial (q : Q4 ℝ) (t : V3) (ops : List MOp) (hown : ∀ o ∈ ops, o.Own) (m : Mapped)
    (h : Res.run (Mapped.step debug) (mapTransformation q t) ops = .ok m) : m.expression = m.transformation := by
  suffices H : ∀ (ops : List MOp) (m₀ : Mapped), (m₀.q.shown = quat2r (vec (n := 4) m₀.q.val) ∧ m₀.t.shown = vec (n := 3) m₀.t.val) → (∀ o ∈ ops, o.Own) →
      Res.run (Mapped.step debug) m₀ ops = .ok m → m.q.shown = quat2r (vec (n := 4) m.q.val) ∧ m.t.shown = vec (n := 3) m.t.val by
    obtain ⟨h1, h2⟩ := H ops _ ⟨rfl, rfl⟩ hown h
    unfold Mapped.expression Mapped.transformation
    rw [h1, h2]
  intro ops
  induction ops with
  | nil =>
    intro m₀ h0 _ h
    rw [Res.run_nil] at h
    cases h
    exact h0
  | cons o os ih =>
    intro m₀ h0 hown h
    rw [Res.run_cons] at h
    cases hs : m₀.step debug o with
    | ok m1 =>
      rw [hs, Res.bind_ok] at h
      exact ih m1 (mapped_inv (hown o (by simp)) h0 hs) (fun o' ho' => hown o' (by simp [ho'])) h
    | exc => rw [hs] at h; cases h
    | ub => rw [hs] at h; cases h

/-- The optimizer moves the transformation of the user: an update of both design variables leaves the composed rotation and the sum in its memory, and
reverting both restores what was there, whatever the calls before. -/
theorem C110_written (m : Mapped) (a b : Fin 3 → ℝ) :
    ∃ m₁ m₂, Res.run (Mapped.step debug) m [.onQ (.update (List.ofFn a)), .onT (.update (List.ofFn b))] = .ok m₁ ∧
      m₁.transformation = ⟨quat2r (smKin.updateQuat (vec (n := 4) m.q.val) a), vec (n := 3) m.t.val + b⟩ ∧
      Res.run (Mapped.step debug) m₁ [.onQ .revert, .onT .revert] = .ok m₂ ∧ m₂.transformation = m.transformation := by
  have hq := DesignVar.update_fits (debug := debug) m.q (List.ofFn a) (by rw [List.length_ofFn]; rfl)
  have ht := DesignVar.update_fits (debug := debug) m.t (List.ofFn b) (by rw [List.length_ofFn]; rfl)
  have ea : (fun i : Fin (Class.mappedRotationQuaternion.cls smKin).d => (List.ofFn a).getD i.val 0) = a := ofFn_get a
  have eb : (fun i : Fin (Class.mappedEuclideanPoint.cls smKin).d => (List.ofFn b).getD i.val 0) = b := ofFn_get b
  rw [ea] at hq
  rw [eb] at ht
  let q₁ : St (Class.mappedRotationQuaternion.cls smKin) := ⟨unvec (smKin.updateQuat (vec (n := 4) m.q.val) a), some m.q.val, quat2r (smKin.updateQuat (vec (n := 4) m.q.val) a)⟩
  let t₁ : St (Class.mappedEuclideanPoint.cls smKin) := ⟨unvec (vec (n := 3) m.t.val + b), some m.t.val, vec (n := 3) m.t.val + b⟩
  have hq1 : DesignVar.step debug m.q (.update (List.ofFn a)) = .ok q₁ := hq
  have ht1 : DesignVar.step debug m.t (.update (List.ofFn b)) = .ok t₁ := ht
  have hq2 : DesignVar.step debug q₁ .revert = .ok ⟨m.q.val, some m.q.val, quat2r (vec (n := 4) m.q.val)⟩ := rfl
  have ht2 : DesignVar.step debug t₁ .revert = .ok ⟨m.t.val, some m.t.val, vec (n := 3) m.t.val⟩ := rfl
  refine ⟨⟨q₁, t₁⟩, ⟨⟨m.q.val, some m.q.val, quat2r (vec (n := 4) m.q.val)⟩, ⟨m.t.val, some m.t.val, vec (n := 3) m.t.val⟩⟩, ?_, rfl, ?_, rfl⟩
  · simp only [Res.run_cons, Res.run_nil, Mapped.step, hq1, ht1, Res.bind_ok]
  · simp only [Res.run_cons, Res.run_nil, Mapped.step, hq2, ht2, Res.bind_ok]

/-- **C110, counterexample.** The owner assigns a new value to the transformation: the expression shows the new translation with the old rotation, and a
revert of an update from before the assignment brings the older rotation back into the memory of the owner. -/
theorem C110_assign_counterexample :
    (∃ m, Res.run (Mapped.step debug) (mapTransformation ![0, 0, 0, 1] 0) [.assign ![0, 0, 1, 0] ![1, 2, 3]] = .ok m ∧
      m.transformation = ⟨quat2r ![0, 0, 1, 0], ![1, 2, 3]⟩ ∧ m.expression = ⟨quat2r ![0, 0, 0, 1], ![1, 2, 3]⟩ ∧ m.expression ≠ m.transformation) ∧
    ∃ m, Res.run (Mapped.step debug) (mapTransformation ![0, 0, 0, 1] 0) [.onQ (.update [0, 0, 0]), .assign ![0, 0, 1, 0] ![1, 2, 3], .onQ .revert] = .ok m ∧
      m.transformation = ⟨quat2r ![0, 0, 0, 1], ![1, 2, 3]⟩ := by
  have hne : quat2r ![0, 0, 0, 1] ≠ quat2r ![0, 0, 1, 0] := fun h => by
    have := congrFun (congrFun h 0) 0
    simp [quat2r] at this
    norm_num at this
  constructor
  · refine ⟨⟨⟨unvec ![0, 0, 1, 0], some (unvec ![0, 0, 0, 1]), quat2r ![0, 0, 0, 1]⟩, ⟨unvec ![1, 2, 3], some (unvec 0), ![1, 2, 3]⟩⟩, rfl, rfl, rfl, fun h => ?_⟩
    exact hne (congrArg Pose.C h)
  · have hu : DesignVar.step debug (mapTransformation ![0, 0, 0, 1] 0).q (.update [0, 0, 0]) = .ok _ := DesignVar.update_fits _ [0, 0, 0] rfl
    refine ⟨⟨⟨unvec ![0, 0, 0, 1], some (unvec ![0, 0, 0, 1]), quat2r ![0, 0, 0, 1]⟩, ⟨unvec ![1, 2, 3], some (unvec 0), ![1, 2, 3]⟩⟩, ?_, rfl⟩
    simp only [Res.run_cons, Res.run_nil, Mapped.step, hu, Res.bind_ok]
    rfl

example := C110_values_partial (debug := true) ![0, 0, 3 / 5, 4 / 5] ![1, 2, 3] [.onQ (.update [1, 2, 3]), .onT (.update [1, 1, 1]), .onQ .revert]
  (by simp [MOp.Own, DesignVar.Op.Own]) _ rfl

end Verif.Motion
