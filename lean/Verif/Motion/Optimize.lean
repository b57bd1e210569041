import Verif.Motion.Descent
import Verif.Trust.BlockRun
import Verif.ExprTerm.HessianOut

/-!
C130: `Optimizer2` on a problem of expression error terms. The parts are those of C24 (the loop), C107 (the policies), C100 (normal equations of expression error terms)
and C108 (what `update` does to the design variables).

`O2` stands for aslam_backend/src/Optimizer2.cpp.
-/
namespace Verif.Motion
open Verif.Quat (Q4 dot4)
open Verif.DesignVar (Class St vec)
open Verif.Expr (Var Store Table Moves)
open Verif.ExprTerm
open Verif.Optimizer2 (Obj Options optimize)
open Verif.Trust (Quad lmSetup gnSetup LM LMOk LMSt maxAbs)
open Matrix

/-! ### Model -/

/-- A problem as `Optimizer2` sees it after `initialize`: addresses, block indices, scalings and activity of the design variables, the active ones in their order, and the terms. `mem` is what the
members of the expression nodes hold when the terms are evaluated and `sys` what the solver's matrix and right-hand side hold when they are built; simplified: both depend on the values of the
design variables only. -/
structure Prob where
  num : Var → Nat
  jenv : Jacobian.Env ℝ
  dvs : List Nat
  sq : List ETerm
  debug : Bool
  align : Nat
  mem : Expr.Env → Store
  sys : Expr.Env → Hessian.Sys ℝ

/-- Blocks of the step. -/
def Prob.layout (P : Prob) : SBM.Layout := Hessian.dvLayout P.jenv P.dvs

/-- `dxS` of the design variable at address `d`, O2:280-284. -/
def Prob.segment (P : Prob) (dx : Nat → ℝ) (d a : Nat) : ℝ := dx (P.layout.base (P.jenv.blockIndex d).toNat + a) * P.jenv.scaling d

/-- The design variable after `d->update(&dxS[0], dbd)`, O2:284; `dbd` is the size that `update` asks for, so it returns normally (`step_exists`). -/
def moved {k : DesignVar.Cls} (debug : Bool) (s : St k) (dp : List ℝ) : St k := match DesignVar.update debug s dp with
  | .ok s' => s'
  | _ => s

/-- The design variable after `revertUpdate()`, O2:299, which returns normally for these classes: their constructors write the previous value (`DesignVar.make`). -/
def reverted {k : DesignVar.Cls} (s : St k) : St k := match DesignVar.revert s with
  | .ok s' => s'
  | _ => s

/-- `applyStateUpdate`, O2:276-286. -/
noncomputable def Prob.update (P : Prob) (w : World) (dx : Nat → ℝ) : World where
  sc i := if P.jenv.active (P.num (.sc i)) then moved P.debug (w.sc i) [P.segment dx (P.num (.sc i)) 0] else w.sc i
  pt i := if P.jenv.active (P.num (.pt i)) then moved P.debug (w.pt i) (List.ofFn fun k : Fin 3 => P.segment dx (P.num (.pt i)) k) else w.pt i
  ro i := if P.jenv.active (P.num (.ro i)) then moved P.debug (w.ro i) (List.ofFn fun k : Fin 3 => P.segment dx (P.num (.ro i)) k) else w.ro i
  ho i := if P.jenv.active (P.num (.ho i)) then moved P.debug (w.ho i) (List.ofFn fun k : Fin 3 => P.segment dx (P.num (.ho i)) k) else w.ho i
  mat i l := if P.jenv.active (P.num (.mat i l)) then moved P.debug (w.mat i l) (List.ofFn fun k : Fin l.length => P.segment dx (P.num (.mat i l)) k) else w.mat i l

/-- `revertLastStateUpdate`, O2:297-302. -/
noncomputable def Prob.revert (P : Prob) (w : World) : World where
  sc i := if P.jenv.active (P.num (.sc i)) then reverted (w.sc i) else w.sc i
  pt i := if P.jenv.active (P.num (.pt i)) then reverted (w.pt i) else w.pt i
  ro i := if P.jenv.active (P.num (.ro i)) then reverted (w.ro i) else w.ro i
  ho i := if P.jenv.active (P.num (.ho i)) then reverted (w.ho i) else w.ho i
  mat i l := if P.jenv.active (P.num (.mat i l)) then reverted (w.mat i l) else w.mat i l

/-- `evaluateError` followed by `buildSystem(nThreads, true)`, GaussNewtonTrustRegionPolicy.cpp:22, LevenbergMarquardtTrustRegionPolicy.cpp:56 and 72. -/
noncomputable def Prob.build (P : Prob) (env : Expr.Env) : Res (Hessian.Sys ℝ) :=
  normalEquations invS P.num P.debug P.align P.jenv true env P.sq (P.mem env) (P.sys env)

/-- The symmetric matrix of which the solver stores the upper blocks, BlockCholeskyLinearSystemSolver.cpp:59-75. -/
def Prob.full (P : Prob) (H : MatrixStack.DMat ℝ) (i j : Nat) : ℝ := if P.layout.upperBound i ≤ P.layout.upperBound j then H.e i j else H.e j i

/-! ### Design variables -/

theorem moved_ofFn {k : DesignVar.Cls} (debug : Bool) (s : St k) (f : Fin k.d → ℝ) : moved debug s (List.ofFn f) = ⟨k.upd s.val f, some s.val, k.eval (k.upd s.val f)⟩ := by
  unfold moved
  rw [DesignVar.update_fits s _ (by rw [List.length_ofFn])]
  simp only [ofFn_get f]

theorem moved_scalar (debug : Bool) (s : St (Class.scalar.cls smKin)) (x : ℝ) :
    moved debug s [x] = ⟨(Class.scalar.cls smKin).upd s.val fun _ => x, some s.val, (Class.scalar.cls smKin).eval ((Class.scalar.cls smKin).upd s.val fun _ => x)⟩ := by
  have : List.ofFn (fun _ : Fin 1 => x) = [x] := by simp
  rw [← this]
  exact moved_ofFn debug s (fun _ : Fin 1 => x)

theorem moved_pt (debug : Bool) (s : St (Class.euclideanPoint.cls smKin)) (f : Fin 3 → ℝ) :
    moved debug s (List.ofFn f) = ⟨(Class.euclideanPoint.cls smKin).upd s.val f, some s.val, (Class.euclideanPoint.cls smKin).eval ((Class.euclideanPoint.cls smKin).upd s.val f)⟩ :=
  moved_ofFn debug s f

theorem moved_ro (debug : Bool) (s : St (Class.rotationQuaternion.cls smKin)) (f : Fin 3 → ℝ) :
    moved debug s (List.ofFn f) = ⟨(Class.rotationQuaternion.cls smKin).upd s.val f, some s.val, (Class.rotationQuaternion.cls smKin).eval ((Class.rotationQuaternion.cls smKin).upd s.val f)⟩ :=
  moved_ofFn debug s f

theorem moved_ho (debug : Bool) (s : St (Class.homogeneousPoint.cls smKin)) (f : Fin 3 → ℝ) :
    moved debug s (List.ofFn f) = ⟨(Class.homogeneousPoint.cls smKin).upd s.val f, some s.val, (Class.homogeneousPoint.cls smKin).eval ((Class.homogeneousPoint.cls smKin).upd s.val f)⟩ :=
  moved_ofFn debug s f

theorem moved_mat (debug : Bool) {l : List (Fin 3 × Fin 3)} (s : St ((Class.matrixBasic l.length (selection l)).cls smKin)) (f : Fin l.length → ℝ) :
    moved debug s (List.ofFn f) = ⟨((Class.matrixBasic l.length (selection l)).cls smKin).upd s.val f, some s.val,
      ((Class.matrixBasic l.length (selection l)).cls smKin).eval (((Class.matrixBasic l.length (selection l)).cls smKin).upd s.val f)⟩ :=
  moved_ofFn debug s f

/-- The step in the order of the columns. -/
def Prob.coords (P : Prob) (dx : Nat → ℝ) (d a : Nat) : ℝ := dx (P.layout.base (P.jenv.blockIndex d).toNat + a)

/-- The step as a direction in the coordinates of the design variables, zero for those that are not active. -/
noncomputable def Prob.dir (P : Prob) (dx : Nat → ℝ) : (v : Var) → v.Idx → ℝ
  | .sc i => fun _ => if P.jenv.active (P.num (.sc i)) then P.coords dx (P.num (.sc i)) 0 * P.jenv.scaling (P.num (.sc i)) else 0
  | .pt i => fun (k : Fin 3) => if P.jenv.active (P.num (.pt i)) then P.coords dx (P.num (.pt i)) k * P.jenv.scaling (P.num (.pt i)) else 0
  | .ro i => fun (k : Fin 3) => if P.jenv.active (P.num (.ro i)) then P.coords dx (P.num (.ro i)) k * P.jenv.scaling (P.num (.ro i)) else 0
  | .ho i => fun (k : Fin 3) => if P.jenv.active (P.num (.ho i)) then P.coords dx (P.num (.ho i)) k * P.jenv.scaling (P.num (.ho i)) else 0
  | .mat i l => fun (k : Fin l.length) => if P.jenv.active (P.num (.mat i l)) then P.coords dx (P.num (.mat i l)) k * P.jenv.scaling (P.num (.mat i l)) else 0

theorem dir_step (P : Prob) (dx : Nat → ℝ) : Step P.num P.jenv true (P.coords dx) (P.dir dx) := by
  intro v j
  cases v with
  | sc i =>
    have : j.val = 0 := by have := j.2; simp only [dimV] at this; omega
    simp only [Prob.dir, Prob.coords, if_true, this, mul_comm]
  | pt i => simp only [Prob.dir, coord, Prob.coords, if_true, mul_comm]
  | ro i => simp only [Prob.dir, coord, Prob.coords, if_true, mul_comm]
  | ho i => simp only [Prob.dir, coord, Prob.coords, if_true, mul_comm]
  | mat i l => simp only [Prob.dir, coord, Prob.coords, if_true, mul_comm]

theorem update_world_ok (P : Prob) {w : World} (hw : w.Ok) (dx : Nat → ℝ) : (P.update w dx).Ok := by
  refine ⟨fun i => ?_, fun i => ?_, fun i => ?_, fun i => ?_, fun i l => ?_, fun i => ?_⟩
  · simp only [Prob.update]
    split_ifs
    · rw [moved_scalar]
    · exact hw.sc i
  · simp only [Prob.update]
    split_ifs
    · rw [moved_pt]
    · exact hw.pt i
  · simp only [Prob.update]
    split_ifs
    · rw [moved_ro]
    · exact hw.ro i
  · simp only [Prob.update]
    split_ifs
    · rw [moved_ho]
    · exact hw.ho i
  · simp only [Prob.update]
    split_ifs
    · rw [moved_mat]
    · exact hw.mat i l
  · simp only [Prob.update]
    split_ifs
    · rw [moved_ro]
      exact updateQuat_unit (hw.unit i) _
    · exact hw.unit i

/-- **C130, undo.** After `applyStateUpdate` and `revertLastStateUpdate` the design variables show what they showed before. -/
theorem C130_undo (P : Prob) {w : World} (hw : w.Ok) (dx : Nat → ℝ) : (P.revert (P.update w dx)).env = w.env := by
  unfold World.env
  congr 1
  · funext i
    simp only [Prob.update, Prob.revert]
    split_ifs
    · rw [hw.sc i, moved_scalar]; rfl
    · rfl
  · funext i
    simp only [Prob.update, Prob.revert]
    split_ifs
    · rw [hw.pt i, moved_pt]; rfl
    · rfl
  · funext i
    simp only [Prob.update, Prob.revert]
    split_ifs
    · rw [hw.ro i, moved_ro]; rfl
    · rfl
  · funext i
    simp only [Prob.update, Prob.revert]
    split_ifs
    · rw [hw.ho i, moved_ho]; rfl
    · rfl
  · funext i l
    simp only [Prob.update, Prob.revert]
    split_ifs
    · rw [hw.mat i l, moved_mat]; rfl
    · rfl

/-- **C130, step.** `applyStateUpdate` moves the values that expressions read by the step: every active design variable by its part of the step times its scaling, the others not at all. -/
theorem C130_step (P : Prob) {w w' : World} (hw : w.Ok) (dx : Nat → ℝ) (h : w.step P.debug 1 (P.dir dx) w') : (P.update w dx).env = w'.env := by
  obtain ⟨h1, h2, h3, h4, h5⟩ := h
  unfold World.env
  congr 1
  · funext i
    have e : w'.sc i = moved P.debug (w.sc i) [1 * P.dir dx (.sc i) ()] := by unfold moved; rw [h1 i]
    rw [e, moved_scalar]
    simp only [Prob.update]
    split_ifs with h
    · rw [moved_scalar]; simp only [Prob.dir, h, if_true, one_mul, Prob.segment, Prob.coords]
    · rw [hw.sc i]
      have : 1 * P.dir dx (.sc i) () = 0 := by simp [Prob.dir, h]
      rw [this]
      show _ = vec (n := 1) (w.sc i).val 0 + 0
      rw [add_zero]; rfl
  · funext i
    have e : w'.pt i = moved P.debug (w.pt i) (List.ofFn ((1 : ℝ) • P.dir dx (.pt i))) := by unfold moved; rw [h2 i]
    rw [e, moved_pt]
    simp only [Prob.update]
    split_ifs with h
    · rw [moved_pt]; simp only [Prob.dir, h, if_true, one_smul, Prob.segment, Prob.coords]
    · rw [hw.pt i]
      have : (1 : ℝ) • P.dir dx (.pt i) = 0 := by funext k; simp [Prob.dir, h]
      rw [this]
      show _ = vec (n := 3) (w.pt i).val + 0
      rw [add_zero]; rfl
  · funext i
    have e : w'.ro i = moved P.debug (w.ro i) (List.ofFn ((1 : ℝ) • P.dir dx (.ro i))) := by unfold moved; rw [h3 i]
    rw [e, moved_ro]
    simp only [Prob.update]
    split_ifs with h
    · rw [moved_ro]; simp only [Prob.dir, h, if_true, one_smul, Prob.segment, Prob.coords]
    · rw [hw.ro i]
      have : (1 : ℝ) • P.dir dx (.ro i) = 0 := by funext k; simp [Prob.dir, h]
      rw [this]
      show _ = quat2r (smKin.updateQuat (vec (n := 4) (w.ro i).val) 0)
      rw [updateQuat_zero]; rfl
  · have : ∀ i, ((P.update w dx).ho i).shown = (w'.ho i).shown := by
      intro i
      have e : w'.ho i = moved P.debug (w.ho i) (List.ofFn ((1 : ℝ) • P.dir dx (.ho i))) := by unfold moved; rw [h4 i]
      rw [e, moved_ho]
      simp only [Prob.update]
      split_ifs with h
      · rw [moved_ho]; simp only [Prob.dir, h, if_true, one_smul, Prob.segment, Prob.coords]
      · rw [hw.ho i]
        have : (1 : ℝ) • P.dir dx (.ho i) = 0 := by funext k; simp [Prob.dir, h]
        rw [this]
        show _ = smKin.updateQuat (vec (n := 4) (w.ho i).val) 0
        rw [updateQuat_zero]; rfl
    funext i
    rw [this i]
  · funext i l
    have e : w'.mat i l = moved P.debug (w.mat i l) (List.ofFn ((1 : ℝ) • P.dir dx (.mat i l))) := by unfold moved; rw [h5 i l]
    rw [e, moved_mat]
    simp only [Prob.update]
    split_ifs with h
    · rw [moved_mat]; simp only [Prob.dir, h, if_true, one_smul, Prob.segment, Prob.coords]
    · rw [hw.mat i l]
      have : (1 : ℝ) • P.dir dx (.mat i l) = 0 := by funext k; simp [Prob.dir, h]
      rw [this]
      show (w.mat i l).val = _
      funext a b
      refine Eq.trans ?_ (mat_upd (w.mat i l).val 0 a b).symm
      simp

/-- The objects are as their calls leave them, and what they keep for `revertUpdate` is a unit quaternion for rotations. -/
structure World.Fine (w : World) : Prop where
  ok : w.Ok
  prev : ∀ i p, (w.ro i).prev = some p → dot4 (vec (n := 4) p) (vec (n := 4) p) = 1

theorem update_fine (P : Prob) {w : World} (hw : w.Fine) (dx : Nat → ℝ) : (P.update w dx).Fine := by
  refine ⟨update_world_ok P hw.ok dx, fun i p h => ?_⟩
  simp only [Prob.update] at h
  split_ifs at h
  · rw [moved_ro] at h
    cases h
    exact hw.ok.unit i
  · exact hw.prev i p h

theorem reverted_shown {k : DesignVar.Cls} {s : St k} (h : s.shown = k.eval s.val) : (reverted s).shown = k.eval (reverted s).val := by
  unfold reverted DesignVar.revert
  cases s.prev with
  | none => exact h
  | some p => rfl

theorem revert_fine (P : Prob) {w : World} (hw : w.Fine) : (P.revert w).Fine := by
  refine ⟨⟨fun i => ?_, fun i => ?_, fun i => ?_, fun i => ?_, fun i l => ?_, fun i => ?_⟩, fun i p h => ?_⟩
  · simp only [Prob.revert]
    split_ifs
    · exact reverted_shown (hw.ok.sc i)
    · exact hw.ok.sc i
  · simp only [Prob.revert]
    split_ifs
    · exact reverted_shown (hw.ok.pt i)
    · exact hw.ok.pt i
  · simp only [Prob.revert]
    split_ifs
    · exact reverted_shown (hw.ok.ro i)
    · exact hw.ok.ro i
  · simp only [Prob.revert]
    split_ifs
    · exact reverted_shown (hw.ok.ho i)
    · exact hw.ok.ho i
  · simp only [Prob.revert]
    split_ifs
    · exact reverted_shown (hw.ok.mat i l)
    · exact hw.ok.mat i l
  · simp only [Prob.revert]
    split_ifs
    · unfold reverted DesignVar.revert
      cases h : (w.ro i).prev with
      | none => exact hw.ok.unit i
      | some p => exact hw.prev i p h
    · exact hw.ok.unit i
  · simp only [Prob.revert] at h
    split_ifs at h
    · unfold reverted DesignVar.revert at h
      cases h' : (w.ro i).prev with
      | none =>
        simp [h'] at h
      | some p' =>
        simp only [h', Option.some.injEq] at h
        rw [← h]
        exact hw.prev i p' h'
    · exact hw.prev i p h

/-- A linear solver: what `buildSystem` puts into it, and `setConstantConditioner(l)` followed by `solveSystem` (LinearSystemSolver.cpp:91-94, 33-39). -/
structure Lin (Sv : Type) where
  load : Sv → Hessian.Sys ℝ → Sv
  solve : Sv → ℝ → Sv × Option (Nat → ℝ)

/-- The problem and a linear solver `lin`, for the policies. The states are those in which the objects are as their calls leave them (`World.Fine`). A term that throws ends the run, here it is a
failing solve. -/
noncomputable def Prob.quad {Sv : Type} (P : Prob) (lin : Lin Sv) :
    Quad ℝ {w : World // w.Fine} Sv where
  n := P.layout.total
  H y := match P.build y.1.env with
    | .ok q => P.full q.H.toDense
    | _ => fun _ _ => 0
  g y _ := match P.build y.1.env with
    | .ok q => q.rhs
    | _ => fun _ => 0
  f x := match cost x.1.env [] P.sq (P.mem x.1.env) with
    | .ok r => r.1
    | _ => 0
  update x dx := ⟨P.update x.1 dx, update_fine P x.2 dx⟩
  revert x := ⟨P.revert x.1, revert_fine P x.2⟩
  built s y := match P.build y.1.env with
    | .ok q => lin.load s q
    | _ => s
  solver s y _ l := match P.build y.1.env with
    | .ok _ => lin.solve s l
    | _ => (s, none)

/-- The block Cholesky solver, BlockCholeskyLinearSystemSolver.cpp:58-108, with `lib` for the factorisation of the library. The list is that of `Trust.dampedSolve`. -/
noncomputable def blockLin (debug : Bool) (lib : SBM.SBM ℝ → (Nat → ℝ) → Option (Nat → ℝ)) : Lin (Solver.Blk ℝ × List ℝ) where
  load s q := (⟨q.H, q.rhs, s.1.cond, q.H.rl.total, true⟩, [])
  solve s l := Trust.dampedSolve debug lib s l

/-! ### Specification -/

/-- The block indices are the positions in the list of active design variables, the terms are legal and the variables have the sizes that expressions give them. -/
structure Prob.Legal (P : Prob) (tbl : Table) : Prop where
  dim : ∀ v, P.jenv.dim (P.num v) = dimV v
  indexed : Hessian.Indexed P.jenv P.dvs
  nodup : P.dvs.Nodup
  active : ∀ d, P.jenv.active d = true ↔ d ∈ P.dvs
  terms : ∀ T ∈ P.sq, T.Ok ∧ T.body.Cons tbl
  align : 0 < P.align
  sys : ∀ env, Hessian.SysOk (Hessian.dvLayout P.jenv P.dvs) (P.sys env)

/-- What is asked of a linear solver. `Inv s q`: the solver state `s` belongs to the system `q`. `D s l w`: a solver in the state `s` after a solve with damping `l` has added `w` to the diagonal. The solver
solves the damped normal equations if it succeeds (C46, C103), and succeeds only if the step does not point uphill (a Cholesky factorisation of a positive definite matrix). -/
structure Prob.Solver {Sv : Type} (P : Prob) (lin : Lin Sv) (Inv : Sv → Hessian.Sys ℝ → Prop) (D : Sv → ℝ → ℝ → Prop) : Prop where
  load : ∀ s (w : World) q, w.Fine → P.build w.env = .ok q → Inv (lin.load s q) q
  kept : ∀ s q l, Inv s q → Inv (lin.solve s l).1 q
  sound : ∀ s q l d, Inv s q → (lin.solve s l).2 = some d → ∃ w, D (lin.solve s l).1 l w ∧
    (∀ r, r < P.dvs.length → ∀ a, a < P.jenv.dim (P.dvs.getD r 0) →
      (∑ k ∈ Finset.range P.dvs.length, ∑ b ∈ Finset.range (P.jenv.dim (P.dvs.getD k 0)), symm P.layout q.H.toDense r a k b * d (P.layout.base k + b)) +
        w * d (P.layout.base r + a) = q.rhs (P.layout.base r + a)) ∧
    0 ≤ ∑ r ∈ Finset.range P.dvs.length, ∑ a ∈ Finset.range (P.jenv.dim (P.dvs.getD r 0)), d (P.layout.base r + a) * q.rhs (P.layout.base r + a)

/-- The cost that the optimizer reports. -/
noncomputable def Prob.cost (P : Prob) (env : Expr.Env) : ℝ :=
  (P.sq.map fun T => weightAt T true (errorVec env T.body) *
    ∑ u ∈ Finset.range T.body.dim, (∑ v ∈ Finset.range T.body.dim, T.sqrtInvR.e u v * errorVec env T.body v) ^ 2).sum

/-- The weighted sum of squares with the weights of the state `env₀`. -/
noncomputable def Prob.weighted (P : Prob) (env₀ env : Expr.Env) : ℝ :=
  (P.sq.map fun T => weightAt T true (errorVec env₀ T.body) * squared T.sqrtInvR T.body.dim (errorVec env T.body)).sum

/-- What a small last step `dx`, computed in the state `x0` with `w` added to the diagonal, says about that state: along every direction in which the terms can be differentiated, the derivative of the weighted
cost is at most twice (row sums of the absolute values of the matrix + what was added) times the size of the step, weighted by the direction. -/
def Prob.Stationary (P : Prob) (x0 : World) (w c : ℝ) : Prop :=
  ∀ (η : Nat → Nat → ℝ) (δ : (v : Var) → v.Idx → ℝ) (w' : ℝ → World), Step P.num P.jenv true η δ → (∀ s, x0.step P.debug s δ (w' s)) →
    (∀ T ∈ P.sq, T.body.Smooth (fun s => (w' s).env) 0) →
    ∃ q D, P.build x0.env = .ok q ∧ HasDerivAt (fun s => P.weighted x0.env (w' s).env) D 0 ∧
      |D| ≤ 2 * ∑ r ∈ Finset.range P.dvs.length, ∑ a ∈ Finset.range (P.jenv.dim (P.dvs.getD r 0)),
        (∑ k ∈ Finset.range P.dvs.length, ∑ b ∈ Finset.range (P.jenv.dim (P.dvs.getD k 0)), |symm P.layout q.H.toDense r a k b| + |w|) * c * |η (P.dvs.getD r 0) a|

/-! ### Proofs -/

variable {Sv : Type} {P : Prob} {tbl : Table} {lin : Lin Sv} {Inv : Sv → Hessian.Sys ℝ → Prop} {D : Sv → ℝ → ℝ → Prop}

theorem layout_size (P : Prob) (r : Nat) : P.layout.size r = P.jenv.dim (P.dvs.getD r 0) := Hessian.dvLayout_size _ _ _

theorem layout_mono (P : Prob) : P.layout.Mono := Hessian.dvLayout_mono _ _

theorem full_symm (P : Prob) (H : MatrixStack.DMat ℝ) {r a k b : Nat} (hr : r < P.dvs.length) (ha : a < P.jenv.dim (P.dvs.getD r 0)) (hk : k < P.dvs.length)
    (hb : b < P.jenv.dim (P.dvs.getD k 0)) : P.full H (P.layout.base r + a) (P.layout.base k + b) = symm P.layout H r a k b := by
  rw [← layout_size] at ha hb
  unfold Prob.full ExprTerm.symm
  rw [SBM.Layout.upperBound_eq (layout_mono P) (r := r) hr (by omega) (by omega), SBM.Layout.upperBound_eq (layout_mono P) (r := k) hk (by omega) (by omega)]

theorem sum_columns (P : Prob) (f : Nat → ℝ) : ∑ i ∈ Finset.range P.layout.total, f i =
    ∑ r ∈ Finset.range P.dvs.length, ∑ a ∈ Finset.range (P.jenv.dim (P.dvs.getD r 0)), f (P.layout.base r + a) := by
  rw [SBM.Layout.sum_blocks (layout_mono P)]
  exact Finset.sum_congr rfl fun r _ => by rw [layout_size]

/-- A row of the matrix. -/
theorem sum_row (P : Prob) (H : MatrixStack.DMat ℝ) (f : ℝ → Nat → ℝ) {r a : Nat} (hr : r < P.dvs.length) (ha : a < P.jenv.dim (P.dvs.getD r 0)) :
    ∑ j ∈ Finset.range P.layout.total, f (P.full H (P.layout.base r + a) j) j =
    ∑ k ∈ Finset.range P.dvs.length, ∑ b ∈ Finset.range (P.jenv.dim (P.dvs.getD k 0)), f (symm P.layout H r a k b) (P.layout.base k + b) := by
  rw [sum_columns]
  exact Finset.sum_congr rfl fun k hk => Finset.sum_congr rfl fun b hb => by
    rw [full_symm P H hr ha (Finset.mem_range.1 hk) (Finset.mem_range.1 hb)]

/-- The solver belongs to the system of the state, if there is one. -/
def Prob.InvAt (P : Prob) (Inv : Sv → Hessian.Sys ℝ → Prop) (s : Sv) (y : {w : World // w.Fine}) : Prop := ∀ q, P.build y.1.env = .ok q → Inv s q

theorem expr_solves (hlin : P.Solver lin Inv D) : (P.quad lin).Solves true (P.InvAt Inv) fun s l w => ∃ a, D s l a ∧ w = fun _ => a where
  built s y q hq := by
    simp only [Prob.quad, hq]
    exact hlin.load s y.1 q y.2 hq
  kept s y z l h q hq := by
    simp only [Prob.quad, hq]
    exact hlin.kept s q l (h q hq)
  sound s y z l d hs h := by
    simp only [Prob.quad] at h
    cases hq : P.build y.1.env with
    | exc => simp [hq] at h
    | ub => simp [hq] at h
    | ok q =>
      simp only [hq] at h
      obtain ⟨w, h0, h1, h2⟩ := hlin.sound s q l d (hs q hq) h
      refine ⟨fun _ => w, ⟨w, by simpa only [Prob.quad, hq] using h0, rfl⟩, fun k hk => ?_, ?_⟩
      · obtain ⟨r, hr, a, ha, rfl⟩ := SBM.Layout.locate (layout_mono P) (show k < P.layout.total from hk)
        rw [layout_size] at ha
        have := h1 r hr a ha
        rw [← sum_row P q.H.toDense (fun x j => x * d j) hr ha] at this
        simpa only [Prob.quad, hq] using this
      · have := h2
        rw [← sum_columns P fun i => d i * q.rhs i] at this
        simpa only [Prob.quad, hq] using this

theorem expr_same {x y : {w : World // w.Fine}} (h : x.1.env = y.1.env) : (P.quad lin).Same x y := by
  refine ⟨?_, fun z => ?_, fun z => rfl, ?_⟩ <;> simp only [Prob.quad, h]

theorem expr_reverts (x : {w : World // w.Fine}) (d : Nat → ℝ) : ((P.quad lin).revert ((P.quad lin).update x d)).1.env = x.1.env :=
  C130_undo P x.2.ok d

theorem expr_cost (hP : P.Legal tbl) {w : World} (hval : ∀ T ∈ P.sq, ∃ x, T.body.value w.env = .ok x) (hw : w.Fine) : (P.quad lin).f ⟨w, hw⟩ = P.cost w.env := by
  obtain ⟨σ', e, -⟩ := cost_spec (tbl := tbl) (env := w.env) [] P.sq (by simp) (fun T hT => ⟨(hP.terms T hT).1, (hP.terms T hT).2, hval T hT⟩) (P.mem w.env)
  simp only [Prob.quad, e]
  simp [Prob.cost]

/-- A small right-hand side is a small derivative. -/
theorem stationary_of (hP : P.Legal tbl) {x0 : World} (hx0 : x0.Fine) (hval : ∀ T ∈ P.sq, ∃ x, T.body.value x0.env = .ok x) {l c : ℝ}
    (h : ∀ k, k < (P.quad lin).n → |(P.quad lin).rhs ⟨x0, hx0⟩ k| ≤ (∑ j ∈ Finset.range (P.quad lin).n, |(P.quad lin).H ⟨x0, hx0⟩ k j| + |l|) * c) : P.Stationary x0 l c := by
  intro η δ w' hη hw' hsm
  have e0 := step_zero hx0.ok (hw' 0)
  obtain ⟨q, hq, hD, -⟩ := C100_normal_equations (step_moves hx0.ok hw') P.jenv hP.dim P.dvs hP.indexed hP.nodup hP.active η hη P.sq
    (fun T hT => ⟨(hP.terms T hT).1, (hP.terms T hT).2, hsm T hT, by rw [e0]; exact hval T hT⟩) P.debug P.align hP.align true (P.mem x0.env) (P.sys x0.env) (hP.sys _)
  simp only [e0] at hq hD
  refine ⟨q, _, hq, hD, ?_⟩
  rw [abs_mul, abs_neg, abs_two]
  refine mul_le_mul_of_nonneg_left ?_ (by norm_num)
  refine le_trans (Finset.abs_sum_le_sum_abs _ _) (Finset.sum_le_sum fun r hr => le_trans (Finset.abs_sum_le_sum_abs _ _) (Finset.sum_le_sum fun a ha => ?_))
  rw [abs_mul]
  refine mul_le_mul_of_nonneg_right ?_ (abs_nonneg _)
  have hr' := Finset.mem_range.1 hr
  have ha' := Finset.mem_range.1 ha
  have hk : P.layout.base r + a < P.layout.total := by
    have := SBM.Layout.base_add_size_le_total (layout_mono P) (r := r) hr'
    rw [layout_size] at this
    omega
  have := h _ hk
  have hq' : P.build x0.env = .ok q := hq
  simp only [Prob.quad, Quad.rhs, hq'] at this
  rw [sum_row P q.H.toDense (fun x _ => |x|) hr' ha'] at this
  exact this

/-- **C130, Levenberg-Marquardt.** `optimize` of `Optimizer2` with the Levenberg-Marquardt policy and a block solver, on a problem of squared expression error terms that can be evaluated, from any values
of the design variables. The reported final cost is the cost at the values the design variables have at the end, and is not larger than the cost at the start. If the status says that the step was small, then
the design variables are one such step away from, or show, values at which the derivative of the weighted cost along every motion of the design variables is small. `w` is what the solver added to the
diagonal: the squared damping, or with block Cholesky what `C130_block` says. -/
theorem C130_levenberg_marquardt (hP : P.Legal tbl) (hval : ∀ w : World, w.Fine → ∀ T ∈ P.sq, ∃ x, T.body.value w.env = .ok x) (hlin : P.Solver lin Inv D) (init : LM ℝ) (hi : LMOk init)
    (o : Options ℝ) (hx : 0 ≤ o.convergenceDeltaX) (he : 0 ≤ o.convergenceDeltaError) (b r : Obj ℝ {w : World // w.Fine} (Nat → ℝ) (LMSt ℝ {w : World // w.Fine} Sv))
    (hb : b.initialized = false) (h : optimize (lmSetup (P.quad lin) init) o b = .ok r) :
    r.jFinal = .fin (P.cost r.x.1.env) ∧ P.cost r.x.1.env ≤ P.cost b.x.1.env ∧
    (r.conv = .dx → ∃ (x0 : World) (w : ℝ), x0.Fine ∧ (r.x.1 = P.update x0 r.dx ∨ r.x.1.env = x0.env) ∧
      (∀ j, j < P.layout.total → |r.dx j| ≤ o.convergenceDeltaX) ∧ D r.p.sv r.p.lm.lambda w ∧ P.Stationary x0 w o.convergenceDeltaX ∧
      (r.failed = 0 → (P.quad lin).Once r.p.sv r.p.lm.lambda)) := by
  have hc : ∀ x : {w : World // w.Fine}, (lmSetup (P.quad lin) init).cost x = .fin (P.cost x.1.env) := fun x => by
    show Dbl.fin ((P.quad lin).f x) = _
    rw [expr_cost hP (hval x.1 x.2) x.2]
  have h1 := Optimizer2.C24_state_has_reported_cost (lmSetup (P.quad lin) init) (fun x d => by
    rw [hc, hc]
    exact congrArg (fun e => Dbl.fin (P.cost e)) (expr_reverts (lin := lin) x d)) o b r h
  have h2 := Optimizer2.C24_never_worse_partial (lmSetup (P.quad lin) init) rfl (fun x => by rw [hc]; simp) o b r h
  rw [hc] at h1
  refine ⟨h1.symm, ?_, fun hconv => ?_⟩
  · have := h2.2
    rw [h2.1, ← h1, hc, Dbl.le_fin] at this
    exact this
  · obtain ⟨x0, _, h3, h4, ⟨w, h6, rfl⟩, h7, h5⟩ := Trust.quad_lm_converged (P.quad lin) (fun x y => x.1.env = y.1.env) (fun _ _ => expr_same) true _ _ (expr_solves hlin) expr_reverts init hi o hx he b r hb
      h hconv (.inl rfl)
    refine ⟨x0.1, w, x0.2, h3.imp (fun e => by rw [e]; rfl) id, h4, h6, ?_, h7⟩
    exact stationary_of (lin := lin) hP x0.2 (hval x0.1 x0.2) h5

/-- **C130, Gauss-Newton.** The same with the Gauss-Newton policy; steps are never undone, so the cost may rise. There is no damping in the bound. -/
theorem C130_gauss_newton (hP : P.Legal tbl) (hval : ∀ w : World, w.Fine → ∀ T ∈ P.sq, ∃ x, T.body.value w.env = .ok x) (hlin : P.Solver lin Inv D) (hD : ∀ s q w, D (lin.solve (lin.load s q) 0).1 0 w → w = 0)
    (o : Options ℝ) (b r : Obj ℝ {w : World // w.Fine} (Nat → ℝ) ({w : World // w.Fine} × Sv))
    (hb : b.initialized = false) (h : optimize (gnSetup (P.quad lin)) o b = .ok r) :
    r.jFinal = .fin (P.cost r.x.1.env) ∧
    (r.conv = .dx → ∃ x0 : World, x0.Fine ∧ r.x.1 = P.update x0 r.dx ∧
      (∀ j, j < P.layout.total → |r.dx j| ≤ o.convergenceDeltaX) ∧ P.Stationary x0 0 o.convergenceDeltaX) := by
  have hc : ∀ x : {w : World // w.Fine}, (gnSetup (P.quad lin)).cost x = .fin (P.cost x.1.env) := fun x => by
    show Dbl.fin ((P.quad lin).f x) = _
    rw [expr_cost hP (hval x.1 x.2) x.2]
  have h1 := Optimizer2.C24_state_has_reported_cost (gnSetup (P.quad lin)) (fun x d => by
    rw [hc, hc]
    exact congrArg (fun e => Dbl.fin (P.cost e)) (expr_reverts (lin := lin) x d)) o b r h
  rw [hc] at h1
  refine ⟨h1.symm, fun hconv => ?_⟩
  obtain ⟨x0, w, h3, h4, h5, h6⟩ := Trust.quad_gn (P.quad lin) true _ _ (expr_solves hlin) (fun s x d w hr ⟨a, h, e⟩ k _ => by
    rw [e]
    simp only [Prob.quad] at hr h
    cases hq : P.build x.1.env with
    | exc => simp [hq] at hr
    | ub => simp [hq] at hr
    | ok q =>
      simp only [hq] at h
      exact hD _ _ _ h) o b r hb h hconv
  refine ⟨x0.1, x0.2, by rw [h3]; rfl, h4, stationary_of (lin := lin) hP x0.2 (hval x0.1 x0.2) fun k hk => ?_⟩
  have := Trust.rhs_le h6 h4 hk
  rw [h5 k hk] at this
  exact this

/-! ### Block Cholesky -/

/-- What `buildSystem` leaves: the blocks on the diagonal are symmetric. -/
structure Prob.Built (P : Prob) (q : Hessian.Sys ℝ) : Prop where
  ok : Hessian.SysOk P.layout q
  diag : ∀ r a b, r < P.dvs.length → a < P.jenv.dim (P.dvs.getD r 0) → b < P.jenv.dim (P.dvs.getD r 0) →
    q.H.toDense.e (P.layout.base r + a) (P.layout.base r + b) = q.H.toDense.e (P.layout.base r + b) (P.layout.base r + a)

theorem build_ok (hP : P.Legal tbl) {w : World} (hw : w.Fine) (hval : ∀ T ∈ P.sq, ∃ x, T.body.value w.env = .ok x) (hsm : ∀ T ∈ P.sq, T.body.Smooth (fun _ => w.env) 0)
    : ∃ q, P.build w.env = .ok q ∧ P.Built q := by
  choose w' hw' using fun s => step_exists (debug := P.debug) w s (0 : (v : Var) → v.Idx → ℝ)
  have e0 : ∀ s, (w' s).env = w.env := fun s => by
    have h := hw' s
    have h0 : w.step P.debug 0 (0 : (v : Var) → v.Idx → ℝ) (w' s) := by
      unfold World.step at h ⊢
      simpa using h
    exact step_zero hw.ok h0
  have hm := step_moves hw.ok hw'
  simp only [e0] at hm
  have hη : Step P.num P.jenv true (fun _ _ => 0) (0 : (v : Var) → v.Idx → ℝ) := by
    intro v j
    simp
  obtain ⟨q', hq', hok, -, -, -, hdiag⟩ := normal_equations_full (tbl := tbl) hm P.jenv hP.dim P.dvs hP.indexed hP.nodup hP.active (fun _ _ => 0) hη P.sq
    (fun T hT => ⟨(hP.terms T hT).1, (hP.terms T hT).2, hsm T hT, hval T hT⟩) P.debug P.align hP.align true (P.mem w.env) (P.sys w.env) (hP.sys _)
  exact ⟨q', hq', hok, hdiag⟩

theorem built_of (hP : P.Legal tbl) {w : World} (hw : w.Fine) (hval : ∀ T ∈ P.sq, ∃ x, T.body.value w.env = .ok x) (hsm : ∀ T ∈ P.sq, T.body.Smooth (fun _ => w.env) 0)
    {q : Hessian.Sys ℝ} (hq : P.build w.env = .ok q) : P.Built q := by
  obtain ⟨q', h, h'⟩ := build_ok hP hw hval hsm
  rw [hq] at h
  cases h
  exact h'

/-- The state of the block solver: the system, apart from the drift of the diagonal. -/
structure Prob.BlockInv (P : Prob) (s : Solver.Blk ℝ × List ℝ) (q : Hessian.Sys ℝ) : Prop where
  built : P.Built q
  ok : Solver.BlkOk s.1
  cond : s.1.useCond = true
  rl : s.1.H.rl = P.layout
  rhs : s.1.rhs = q.rhs
  H : ∀ i j, i < P.layout.total → j < P.layout.total → s.1.H.toDense.e i j = q.H.toDense.e i j + if i = j then Trust.drift s.2 else 0

theorem block_solve_spec (debug : Bool) (lib : SBM.SBM ℝ → (Nat → ℝ) → Option (Nat → ℝ)) {s : Solver.Blk ℝ × List ℝ} {q : Hessian.Sys ℝ} (h : P.BlockInv s q) (l : ℝ) :
    ∃ H1, Solver.Square H1 ∧ H1.rl = P.layout ∧ P.BlockInv (Trust.dampedSolve debug lib s l).1 q ∧ (Trust.dampedSolve debug lib s l).1.2 = l :: s.2 ∧
      (Trust.dampedSolve debug lib s l).2 = lib H1 q.rhs ∧
      ∀ i j, i < P.layout.total → j < P.layout.total → H1.toDense.e i j = q.H.toDense.e i j + if i = j then l * l + Trust.drift s.2 else 0 := by
  have hk : Solver.BlkOk ({ s.1 with cond := fun _ => l } : Solver.Blk ℝ) := ⟨h.ok.sq, h.ok.len⟩
  obtain ⟨H1, s', e1, k1, u1, b1, r1, c1, q1, rH1, d1, d1'⟩ := Solver.solve_spec debug lib _ hk h.cond
  have e2 : Trust.dampedSolve debug lib s l = ((s', l :: s.2), lib H1 s.1.rhs) := by
    unfold Trust.dampedSolve
    rw [e1]
  simp only [h.rl] at r1 rH1 d1 d1'
  rw [e2]
  refine ⟨H1, q1, rH1, ⟨h.built, k1, u1, r1, b1.trans h.rhs, fun i j hi hj => ?_⟩, rfl, by simp only [h.rhs], fun i j hi hj => ?_⟩
  · simp only
    rw [d1' i j hi hj, h.H i j hi hj]
    split_ifs
    · simp only [Trust.drift, List.map_cons, List.sum_cons]; ring
    · ring
  · rw [d1 i j hi hj, h.H i j hi hj]
    split_ifs <;> ring

/-- The symmetric matrix of the whole system, whether it is read by blocks or by coefficients. -/
theorem full_upper {q : Hessian.Sys ℝ} (hq : P.Built q) {i j : Nat} (hi : i < P.layout.total) (hj : j < P.layout.total) :
    (if i ≤ j then q.H.toDense.e i j else q.H.toDense.e j i) = P.full q.H.toDense i j := by
  obtain ⟨r, hr, a, ha, rfl⟩ := SBM.Layout.locate (layout_mono P) hi
  obtain ⟨k, hk, b, hb, rfl⟩ := SBM.Layout.locate (layout_mono P) hj
  rw [layout_size] at ha hb
  rw [full_symm P _ hr ha hk hb]
  unfold ExprTerm.symm
  rcases lt_trichotomy r k with h | h | h
  · have : P.layout.base r + P.layout.size r ≤ P.layout.base k := by
      rw [SBM.Layout.base_add_size (layout_mono P) hr]
      exact SBM.Layout.base_le (layout_mono P) h (le_of_lt hk)
    rw [layout_size] at this
    rw [if_pos (by omega), if_pos h.le]
  · subst h
    rw [if_pos le_rfl]
    split_ifs
    · rfl
    · exact hq.diag r b a hr hb ha
  · have : P.layout.base k + P.layout.size k ≤ P.layout.base r := by
      rw [SBM.Layout.base_add_size (layout_mono P) hk]
      exact SBM.Layout.base_le (layout_mono P) h (le_of_lt hr)
    rw [layout_size] at this
    rw [if_neg (by omega), if_neg (by omega)]

/-- What block Cholesky has added to the diagonal: the squared damping, and what the solves since the system was built have left. -/
def BlockD (s : Solver.Blk ℝ × List ℝ) (l w : ℝ) : Prop := ∃ older, s.2 = l :: older ∧ w = l * l + Trust.drift older

/-- The block Cholesky solver is such a solver, if the library solves the systems it factorises, and refuses those for which the step would point uphill. -/
theorem block_solver (hP : P.Legal tbl) (hval : ∀ w : World, w.Fine → ∀ T ∈ P.sq, ∃ x, T.body.value w.env = .ok x)
    (hsm : ∀ w : World, w.Fine → ∀ T ∈ P.sq, T.body.Smooth (fun _ => w.env) 0) (debug : Bool) (lib : SBM.SBM ℝ → (Nat → ℝ) → Option (Nat → ℝ)) (hlib : Solver.SolvesUpper lib)
    (hpos : ∀ H b d, Solver.Square H → lib H b = some d → 0 ≤ ∑ k ∈ Finset.range H.rl.total, d k * b k) :
    P.Solver (blockLin debug lib) P.BlockInv BlockD where
  load s w q hw hq := by
    have hb := built_of hP hw (hval w hw) (hsm w hw) hq
    exact ⟨hb, ⟨⟨hb.ok.wf, hb.ok.cl.trans hb.ok.rl.symm, hb.ok.st⟩, rfl⟩, rfl, hb.ok.rl, rfl, fun i j _ _ => by simp [blockLin, Trust.drift]⟩
  kept s q l h := (block_solve_spec debug lib h l).choose_spec.2.2.1
  sound s q l d h hd := by
    obtain ⟨H1, hsq, hrl, -, h2, h3, h4⟩ := block_solve_spec debug lib h l
    have hd' : lib H1 q.rhs = some d := h3.symm.trans hd
    refine ⟨l * l + Trust.drift s.2, ⟨s.2, h2, rfl⟩, fun r hr a ha => ?_, ?_⟩
    · rw [← sum_row P q.H.toDense (fun x j => x * d j) hr ha]
      have hi : P.layout.base r + a < P.layout.total := by
        have := SBM.Layout.base_add_size_le_total (layout_mono P) (r := r) hr
        rw [layout_size] at this
        omega
      have := hlib H1 q.rhs d hsq hd' (P.layout.base r + a) (by rw [hrl]; exact hi)
      rw [hrl] at this
      rw [← this]
      have h5 : ∀ j ∈ Finset.range P.layout.total, (if P.layout.base r + a ≤ j then H1.toDense.e (P.layout.base r + a) j else H1.toDense.e j (P.layout.base r + a)) * d j =
          P.full q.H.toDense (P.layout.base r + a) j * d j + if P.layout.base r + a = j then (l * l + Trust.drift s.2) * d (P.layout.base r + a) else 0 := by
        intro j hj
        have hj := Finset.mem_range.1 hj
        rw [← full_upper h.built hi hj, h4 _ j hi hj, h4 j _ hj hi]
        by_cases e : P.layout.base r + a = j
        · subst e
          simp only [le_refl, if_true]
          ring
        · rw [if_neg e, if_neg e, if_neg (Ne.symm e)]
          simp only [add_zero]
      rw [Finset.sum_congr rfl h5, Finset.sum_add_distrib, Finset.sum_ite_eq, if_pos (Finset.mem_range.2 hi)]
    · have := hpos H1 q.rhs d hsq hd'
      rw [hrl, sum_columns] at this
      exact this

/-- Without damping nothing is added. -/
theorem block_undamped (debug : Bool) (lib : SBM.SBM ℝ → (Nat → ℝ) → Option (Nat → ℝ)) (s : Solver.Blk ℝ × List ℝ) (q : Hessian.Sys ℝ) (w : ℝ)
    (h : BlockD ((blockLin debug lib).solve ((blockLin debug lib).load s q) 0).1 0 w) : w = 0 := by
  obtain ⟨older, h1, rfl⟩ := h
  simp only [blockLin, Trust.dampedSolve] at h1
  split at h1
  · obtain rfl : older = [] := by simpa using h1.symm
    simp [Trust.drift]
  · cases h1

/-- **C130, block Cholesky** (partial: the library must refuse matrices that are not positive definite, else see `Trust.C131_uphill_counterexample`). The statement of `C130_levenberg_marquardt` for the
default linear solver: what it has added to the diagonal is `l² + Σ (lᵢ² - lᵢ)` for the current damping `l` and the dampings `lᵢ` of the rejected steps before, which is `l²` if none was rejected. -/
theorem C130_block_partial (hP : P.Legal tbl) (hval : ∀ w : World, w.Fine → ∀ T ∈ P.sq, ∃ x, T.body.value w.env = .ok x)
    (hsm : ∀ w : World, w.Fine → ∀ T ∈ P.sq, T.body.Smooth (fun _ => w.env) 0) (debug : Bool) (lib : SBM.SBM ℝ → (Nat → ℝ) → Option (Nat → ℝ)) (hlib : Solver.SolvesUpper lib)
    (hpos : ∀ H b d, Solver.Square H → lib H b = some d → 0 ≤ ∑ k ∈ Finset.range H.rl.total, d k * b k) (init : LM ℝ) (hi : LMOk init)
    (o : Options ℝ) (hx : 0 ≤ o.convergenceDeltaX) (he : 0 ≤ o.convergenceDeltaError)
    (b r : Obj ℝ {w : World // w.Fine} (Nat → ℝ) (LMSt ℝ {w : World // w.Fine} (Solver.Blk ℝ × List ℝ)))
    (hb : b.initialized = false) (h : optimize (lmSetup (P.quad (blockLin debug lib)) init) o b = .ok r) :
    r.jFinal = .fin (P.cost r.x.1.env) ∧ P.cost r.x.1.env ≤ P.cost b.x.1.env ∧
    (r.conv = .dx → ∃ (x0 : World) (older : List ℝ), x0.Fine ∧ (r.x.1 = P.update x0 r.dx ∨ r.x.1.env = x0.env) ∧
      (∀ j, j < P.layout.total → |r.dx j| ≤ o.convergenceDeltaX) ∧ r.p.sv.2 = r.p.lm.lambda :: older ∧ (r.failed = 0 → older = []) ∧
      P.Stationary x0 (r.p.lm.lambda * r.p.lm.lambda + (older.map fun l => l * l - l).sum) o.convergenceDeltaX) := by
  have hS := block_solver hP hval hsm debug lib hlib hpos
  obtain ⟨h1, h2, h3⟩ := C130_levenberg_marquardt hP hval hS init hi o hx he b r hb h
  refine ⟨h1, h2, fun hconv => ?_⟩
  obtain ⟨x0, w, h4, h5, h6, ⟨older, h7, rfl⟩, h8, h9⟩ := h3 hconv
  refine ⟨x0, older, h4, h5, h6, h7, fun h0 => ?_, h8⟩
  obtain ⟨s0, x, z, e⟩ := h9 h0
  obtain ⟨q, hq, -⟩ := build_ok hP x.2 (hval x.1 x.2) (hsm x.1 x.2)
  have e2 : r.p.sv.2 = [r.p.lm.lambda] := by
    rw [e]
    simp only [Prob.quad, hq]
    exact (block_solve_spec debug lib (hS.load s0 x.1 q x.2 hq) _).choose_spec.2.2.2.1
  rw [h7] at e2
  simpa using e2

/-! ### A concrete run -/

/-- Number 0 is active, scaled by 2. -/
noncomputable def oneEnv : Jacobian.Env ℝ where
  blockIndex d := if d = addr (.sc 0) then 0 else -1
  columnBase d := if d = addr (.sc 0) then 0 else -1
  dim := addrDim
  active d := d = addr (.sc 0)
  scaling _ := 2

/-- The difference of number 0 and 3. -/
noncomputable def oneTerm : ETerm := ⟨.scalar (.sadd (.svar 0) (.sconst 3) (-1)), ⟨1, 1, fun _ _ => 1⟩, fun _ => 1⟩

noncomputable def oneProb : Prob :=
  ⟨addr, oneEnv, [addr (.sc 0)], [oneTerm], true, 2, fun _ _ => none,
    fun _ => ⟨SBM.new (Hessian.dvLayout oneEnv [addr (.sc 0)]) (Hessian.dvLayout oneEnv [addr (.sc 0)]), fun _ => 7, (Hessian.dvLayout oneEnv [addr (.sc 0)]).total⟩⟩

theorem one_value (env : Expr.Env) : oneTerm.body.value env = .ok fun _ => env.sc 0 + -1 * 3 := rfl

theorem one_legal : oneProb.Legal Expr.exTbl where
  dim v := addr_dim v
  indexed := ⟨by simp [oneProb, oneEnv], fun d hd => ⟨0, by simp [oneProb], by simpa [oneProb, oneEnv, eq_comm] using hd⟩⟩
  nodup := by simp [oneProb]
  active d := by simp [oneProb, oneEnv]
  terms T hT := by
    simp only [oneProb, List.mem_singleton] at hT
    subst hT
    exact ⟨⟨rfl, rfl, fun _ _ => zero_le_one⟩, by simp [Body.Cons, oneTerm, Expr.Cons]⟩
  align := by simp [oneProb]
  sys _ := fresh_ok _ _ _

/-- A library for one unknown. -/
noncomputable def oneLib (H : SBM.SBM ℝ) (b : Nat → ℝ) : Option (Nat → ℝ) := if 0 < H.toDense.e 0 0 ∧ H.rl.total = 1 then some fun i => b i / H.toDense.e 0 0 else none

/-- Block Cholesky with this library. -/
noncomputable def oneLin : Lin (Solver.Blk ℝ × List ℝ) := blockLin true oneLib

theorem one_dim : oneEnv.dim (addr (.sc 0)) = 1 := addr_dim (.sc 0)

theorem oneLib_solves : Solver.SolvesUpper oneLib := by
  intro H b x _ h i hi
  unfold oneLib at h
  split_ifs at h with hc
  cases h
  rw [hc.2] at hi ⊢
  obtain rfl : i = 0 := by omega
  simp only [Finset.sum_range_one, le_refl, if_true]
  exact mul_div_cancel₀ _ hc.1.ne'

theorem oneLib_pos (H : SBM.SBM ℝ) (b d : Nat → ℝ) (_ : Solver.Square H) (h : oneLib H b = some d) : 0 ≤ ∑ k ∈ Finset.range H.rl.total, d k * b k := by
  unfold oneLib at h
  split_ifs at h with hc
  cases h
  rw [hc.2, Finset.sum_range_one, div_mul_eq_mul_div]
  exact div_nonneg (mul_self_nonneg _) hc.1.le

theorem one_values (w : World) (_ : w.Fine) (T : ETerm) (hT : T ∈ oneProb.sq) : ∃ x, T.body.value w.env = .ok x := by
  simp only [oneProb, List.mem_singleton] at hT
  subst hT
  exact ⟨_, one_value _⟩

theorem one_smooth (w : World) (_ : w.Fine) (T : ETerm) (hT : T ∈ oneProb.sq) : T.body.Smooth (fun _ => w.env) 0 := by
  simp only [oneProb, List.mem_singleton] at hT
  subst hT
  simp [oneTerm, Body.Smooth, Expr.Smooth]

theorem one_solver : oneProb.Solver oneLin oneProb.BlockInv BlockD := block_solver one_legal one_values one_smooth true oneLib oneLib_solves oneLib_pos

/-- The direction that moves number 0 only. -/
def oneDir : (v : Var) → v.Idx → ℝ
  | .sc 0 => fun _ => 2
  | _ => 0

theorem oneDir_step : Step addr oneEnv true (fun _ _ => 1) oneDir := by
  intro v j
  by_cases h : v = .sc 0
  · subst h
    simp [oneDir, oneEnv]
  · have : ¬ addr v = addr (.sc 0) := fun e => h (addr_inj e)
    have h2 : oneDir v = 0 := by
      unfold oneDir
      split
      · exact absurd rfl h
      · rfl
    simp [oneEnv, this, h2]

/-- The normal equations at the value 2: `4 x = 2`. -/
theorem one_build {w : World} (hw : w.Fine) (h2 : w.env.sc 0 = 2) : ∃ q, oneProb.build w.env = .ok q ∧ q.H.toDense.e 0 0 = 4 ∧ q.rhs 0 = 2 := by
  choose w' hw' using fun s => step_exists (debug := true) w s oneDir
  have e0 := step_zero hw.ok (hw' 0)
  have es : ∀ s, (w' s).env.sc 0 = 2 + s * 2 := fun s => by
    have h3 : (w' s).env.sc 0 = vec (n := 1) (w.sc 0).val 0 + s * 2 := by rw [step_env (hw' s)]; rfl
    rw [h3, ← h2]
    congr 1
    exact (congrFun (hw.ok.sc 0) 0).symm
  have hv : ∀ s, errorVec (w' s).env oneTerm.body = fun _ => -1 + s * 2 := fun s => by
    rw [errorVec_eq (one_value _), es]
    funext _
    ring
  have hd : ∀ i, HasDerivAt (fun s => errorVec (w' s).env oneTerm.body i) 2 0 := fun i => by
    simp only [hv]
    simpa using ((hasDerivAt_id (0 : ℝ)).mul_const 2).const_add (-1)
  obtain ⟨q, hq, hD, hH⟩ := C100_normal_equations (tbl := Expr.exTbl) (step_moves hw.ok hw') oneProb.jenv one_legal.dim oneProb.dvs one_legal.indexed one_legal.nodup one_legal.active (fun _ _ => 1)
    oneDir_step oneProb.sq (fun T hT => ⟨(one_legal.terms T hT).1, (one_legal.terms T hT).2, by
      simp only [oneProb, List.mem_singleton] at hT
      subst hT
      simp [oneTerm, Body.Smooth, Expr.Smooth], by
      simp only [oneProb, List.mem_singleton] at hT
      subst hT
      exact ⟨_, one_value _⟩⟩) oneProb.debug oneProb.align one_legal.align true (oneProb.mem w.env) (oneProb.sys w.env) (one_legal.sys _)
  rw [e0] at hq
  refine ⟨q, hq, ?_, ?_⟩
  · have hr : rate (fun s => (w' s).env) 0 oneTerm.body 0 = 2 := (hd 0).deriv
    simp only [oneProb, List.length_singleton, Finset.sum_range_one, List.getD_cons_zero, one_dim, ExprTerm.symm, le_refl, if_true, SBM.Layout.base_zero, add_zero, List.map_cons, List.map_nil,
      List.sum_cons, List.sum_nil, mul_one] at hH
    rw [hH]
    have hs : squared oneTerm.sqrtInvR oneTerm.body.dim (rate (fun s => (w' s).env) 0 oneTerm.body) = 2 ^ 2 := by
      simp [squared, oneTerm, Body.dim] at hr ⊢
      rw [hr]
    rw [hs]
    simp [weightAt, oneTerm]
    norm_num
  · have h4 : HasDerivAt (fun s : ℝ => (-1 + s * 2) ^ 2) (-4) 0 := by
      refine ((((hasDerivAt_id (0 : ℝ)).mul_const 2).const_add (-1)).pow 2).congr_deriv ?_
      norm_num
    have h5 := hD.unique (h4.congr_of_eventuallyEq (Filter.Eventually.of_forall fun s => by
      simp only [oneProb, List.map_cons, List.map_nil, List.sum_cons, List.sum_nil, add_zero, hv]
      simp [weightAt, squared, oneTerm, Body.dim]))
    simp only [oneProb, List.length_singleton, Finset.sum_range_one, List.getD_cons_zero, one_dim, SBM.Layout.base_zero, add_zero, mul_one] at h5
    linarith

theorem exWorld_fine : exWorld.Fine := ⟨exWorld_ok, fun i p h => by
  cases h
  exact exWorld_ok.unit i⟩

/-- The optimizer before its first run; number 0 is 2. -/
noncomputable def oneObj : Obj ℝ {w : World // w.Fine} (Nat → ℝ) ({w : World // w.Fine} × (Solver.Blk ℝ × List ℝ)) :=
  Optimizer2.fresh ⟨exWorld, exWorld_fine⟩ (⟨exWorld, exWorld_fine⟩, (⟨SBM.new ⟨0, fun _ => 0⟩ ⟨0, fun _ => 0⟩, fun _ => 0, fun _ => 0, 0, true⟩, [])) fun _ => 0

/-- One step with the size 1/2, which is below the threshold. -/
theorem one_run : ∃ r, optimize (gnSetup (oneProb.quad oneLin)) ⟨1, 0, 10⟩ oneObj = .ok r ∧ r.conv = .dx ∧ r.x.1.env.sc 0 = 3 := by
  obtain ⟨q, hq, h1, h2⟩ := one_build exWorld_fine rfl
  set S := gnSetup (oneProb.quad oneLin) with hS
  set o : Options ℝ := ⟨1, 0, 10⟩ with ho
  set s0 := Optimizer2.enter S o (Optimizer2.initObj oneObj) with hs0
  have hn : (oneProb.quad oneLin).n = 1 := by
    show (Hessian.dvLayout oneEnv [addr (.sc 0)]).total = 1
    simp [SBM.Layout.total, Hessian.dvLayout, one_dim]
  obtain ⟨H1, hsq, hrl, -, -, hsv, hH1⟩ := block_solve_spec true oneLib (one_solver.load s0.p.2 exWorld q exWorld_fine hq) 0
  have h11 : H1.toDense.e 0 0 = 4 := by
    rw [hH1 0 0 (by show 0 < (oneProb.quad oneLin).n; rw [hn]; exact one_pos) (by show 0 < (oneProb.quad oneLin).n; rw [hn]; exact one_pos), h1]
    simp [oneLin, blockLin, Trust.drift]
  have hd : ((oneProb.quad oneLin).solver ((oneProb.quad oneLin).built s0.p.2 ⟨exWorld, exWorld_fine⟩) ⟨exWorld, exWorld_fine⟩ ⟨exWorld, exWorld_fine⟩ 0).2 = some fun i => q.rhs i / 4 := by
    simp only [Prob.quad, hq]
    refine Eq.trans (show _ = oneLib H1 q.rhs from hsv) ?_
    unfold oneLib
    rw [h11, if_pos ⟨by norm_num, by rw [hrl]; exact hn⟩]
  have hsol : S.solve s0.p s0.x s0.dx s0.error s0.prevFailed = ((⟨exWorld, exWorld_fine⟩,
      ((oneProb.quad oneLin).solver ((oneProb.quad oneLin).built s0.p.2 ⟨exWorld, exWorld_fine⟩) ⟨exWorld, exWorld_fine⟩ ⟨exWorld, exWorld_fine⟩ 0).1), true, fun i => q.rhs i / 4) := by
    simp only [hS, gnSetup]
    have e2 : s0.x = ⟨exWorld, exWorld_fine⟩ := rfl
    rw [e2, hd]
  obtain ⟨s1, hs1⟩ : ∃ s1, Optimizer2.iter S s0 = .ok s1 := by
    unfold Optimizer2.iter
    simp only [hsol]
    exact ⟨_, rfl⟩
  have hc : s1 = Optimizer2.afterAccept S s0 := by
    rcases Optimizer2.iter_cases hs1 with ⟨h, -⟩ | ⟨-, h, -⟩ | ⟨-, -, h⟩
    · rw [hsol] at h; cases h
    · cases h
    · exact h
  have hmax : s1.deltaX = .fin (1 / 2) := by
    rw [hc]
    simp only [Optimizer2.afterAccept, hsol]
    show Dbl.fin (maxAbs (oneProb.quad oneLin).n fun i => q.rhs i / 4) = _
    rw [hn]
    simp [maxAbs, h2]
    norm_num
  have hr0 : Optimizer2.running o s0 = true := by
    simp [Optimizer2.running, hs0, Optimizer2.enter, Optimizer2.initObj, ho, Dbl.lt, Dbl.abs]
  have hr1 : Optimizer2.running o s1 = false := by
    have : s1.lsf = false := by rw [hc]; rfl
    simp only [Optimizer2.running, hmax, this, ho]
    have : Dbl.lt (Dbl.fin (1 : ℝ)) (.fin (1 / 2)) = false := by
      rw [Bool.eq_false_iff, ne_eq, Dbl.lt_fin]
      norm_num
    rw [this]
    simp
  have hloop : Optimizer2.loop S o s0 = .ok s1 := by rw [Optimizer2.loop_run hr0 hs1, Optimizer2.loop_stop hr1]
  refine ⟨Optimizer2.leave S o (Optimizer2.initObj oneObj) s1, ?_, ?_, ?_⟩
  · show Optimizer2.run S o (Optimizer2.initObj oneObj) = _
    unfold Optimizer2.run
    rw [← hs0, hloop]
    rfl
  · have hi : s1.iterations = 1 := by rw [hc]; rfl
    have hf : s1.failed = 0 := by rw [hc]; rfl
    have hl : s1.lsf = false := by rw [hc]; rfl
    have hle : Dbl.le (Dbl.fin (1 / 2 : ℝ)) (.fin 1) = true := by rw [Dbl.le_fin]; norm_num
    simp only [Optimizer2.leave, Optimizer2.classify, hi, hf, hl, hmax, ho, hle]
    simp
  · show s1.x.1.env.sc 0 = 3
    rw [hc]
    simp only [Optimizer2.afterAccept, Optimizer2.candidate, hsol]
    show (oneProb.update exWorld fun i => q.rhs i / 4).env.sc 0 = 3
    simp only [World.env, Prob.update]
    rw [if_pos (by simp [oneProb, oneEnv]), moved_scalar]
    show vec (n := 1) (exWorld.sc 0).val 0 + oneProb.segment (fun i => q.rhs i / 4) (addr (.sc 0)) 0 = 3
    have hx : vec (n := 1) (exWorld.sc 0).val 0 = 2 := rfl
    rw [hx]
    simp [Prob.segment, oneProb, oneEnv, SBM.Layout.base, h2]
    norm_num

/-- The hypotheses of the theorems hold for this run. -/
example : ∃ r : Obj ℝ {w : World // w.Fine} (Nat → ℝ) ({w : World // w.Fine} × (Solver.Blk ℝ × List ℝ)), r.jFinal = .fin (oneProb.cost r.x.1.env) ∧ r.x.1.env.sc 0 = 3 ∧
    ∃ x0 : World, x0.Fine ∧ r.x.1 = oneProb.update x0 r.dx ∧ oneProb.Stationary x0 0 1 := by
  obtain ⟨r, h1, h2, h3⟩ := one_run
  obtain ⟨h4, h5⟩ := C130_gauss_newton one_legal one_values one_solver (block_undamped true oneLib) _ _ r rfl h1
  obtain ⟨x0, h6, h7, -, h8⟩ := h5 h2
  exact ⟨r, h4, h3, x0, h6, h7, h8⟩

example (init : LM ℝ) (hi : LMOk init) (b : Obj ℝ {w : World // w.Fine} (Nat → ℝ) (LMSt ℝ {w : World // w.Fine} (Solver.Blk ℝ × List ℝ))) (hb : b.initialized = false) :
    ∃ r, optimize (lmSetup (oneProb.quad oneLin) init) ⟨1, 0, 10⟩ b = .ok r ∧ oneProb.cost r.x.1.env ≤ oneProb.cost b.x.1.env := by
  obtain ⟨s, hs⟩ := Optimizer2.loop_ok (S := lmSetup (oneProb.quad oneLin) init) (o := ⟨1, 0, 10⟩) (fun _ _ _ _ _ => rfl)
    (Optimizer2.enter (lmSetup (oneProb.quad oneLin) init) ⟨1, 0, 10⟩ (if b.initialized then b else Optimizer2.initObj b))
  have h : optimize (lmSetup (oneProb.quad oneLin) init) ⟨1, 0, 10⟩ b = .ok (Optimizer2.leave (lmSetup (oneProb.quad oneLin) init) ⟨1, 0, 10⟩ (if b.initialized then b else Optimizer2.initObj b) s) := by
    unfold Optimizer2.optimize Optimizer2.run
    rw [hs]
    rfl
  exact ⟨_, h, (C130_block_partial one_legal one_values one_smooth true oneLib oneLib_solves oneLib_pos init hi _ (by norm_num) (by norm_num) b _ hb h).2.1⟩

end Verif.Motion
