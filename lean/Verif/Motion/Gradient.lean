import Verif.Motion.Optimize
import Verif.BFGS.Props
import Verif.Rprop.Props
import Mathlib.Algebra.Order.BigOperators.Ring.Finset
import Mathlib.Data.List.GetD

/-!
C144: the optimizers without linear solver (BFGS and Rprop) on problems made of expression error terms and the design variables of the library.

`PM` stands for aslam_backend/src/util/ProblemManager.cpp, `BF` for aslam_backend/src/OptimizerBFGS.cpp, `RP` for aslam_backend/src/OptimizerRprop.cpp.
-/
namespace Verif.Motion
open Verif.DesignVar (vec)
open Verif.Expr (Var Store Table Moves)
open Verif.ExprTerm
open Verif.Jacobian.Spec (ColumnsOk)
open Verif.Geo (M3 IsRot)
open Matrix

/-! ### Model -/

/-- A problem as `ProblemManager` sees it after `initialize` (PM:40-117): the data of `Prob` (whose `sys` is not used), the non-squared terms, the number of threads and the choice of the container. -/
structure First where
  base : Prob
  ns : List NTerm
  nThreads : Nat
  dense : Bool

/-- The number of parameters, PM:95-104. -/
def First.n (Q : First) : Nat := Q.base.layout.total

/-- A vector of parameters as a step; entries outside are not read. BF:119-126, utils.hpp:119-133. -/
def First.pad (Q : First) (d : Fin Q.n → ℝ) (i : Nat) : ℝ := if h : i < Q.n then d ⟨i, h⟩ else 0

/-- The gradient after `evaluateError`, without M-estimators and without scaling, BF:53 with ProblemManager.hpp:199-200. Simplified: a term that throws gives zero. -/
noncomputable def First.grad (Q : First) (w : World) (i : Fin Q.n) : ℝ :=
  match costAndGradient invS Q.base.num Q.base.debug Q.base.align Q.base.jenv Q.base.dvs Q.n Q.nThreads false false Q.dense w.env Q.ns Q.base.sq (Q.base.mem w.env) with
  | .ok r => r.2.e 0 i
  | _ => 0

/-- The cost that is reported, PM:172-184. Simplified: a term that throws gives zero. -/
noncomputable def First.err (Q : First) (w : World) : ℝ :=
  match cost w.env Q.ns Q.base.sq (Q.base.mem w.env) with
  | .ok r => r.1
  | _ => 0

/-- `applyStateUpdate` with a step, aslam_backend/include/aslam/backend/util/utils.hpp:119-133: every design variable gets its segment times its scaling. -/
noncomputable def First.move (Q : First) (x : {w : World // w.Fine}) (d : Fin Q.n → ℝ) : {w : World // w.Fine} :=
  ⟨Q.base.update x.1 (Q.pad d), update_fine Q.base x.2 _⟩

/-- The Euclidean norm, BF:90, RP:136. -/
noncomputable def First.norm (Q : First) (g : Fin Q.n → ℝ) : ℝ := Real.sqrt (∑ i, g i ^ 2)

/-- What the BFGS optimizer sees, BF:53. `diff` is what it computes for `deltaX` (BF:139); it does not matter here. -/
noncomputable def First.bfgs (Q : First) (diff : {w : World // w.Fine} → {w : World // w.Fine} → ℝ) : BFGS.Env ℝ {w : World // w.Fine} Q.n where
  err x := Q.err x.1
  grad x := Q.grad x.1
  upd x s d := Q.move x fun i => s * d i
  norm := Q.norm
  diff := diff

/-- `computeGradient` alone, PM:120-133, as RP:122 calls it. -/
noncomputable def gradientOnly (num : Var → Nat) (debug : Bool) (align : Nat) (jenv : Jacobian.Env ℝ) (dvs : List Nat) (nCols nThreads : Nat)
    (useM applyDvScaling useDense : Bool) (env : Expr.Env) (ns : List NTerm) (sq : List ETerm) (σ : Store) : Res (MatrixStack.DMat ℝ) :=
  each (NTerm.view invS num env) ns σ >>= fun n => each (ETerm.view invS num env useM) sq n.2 >>= fun q =>
    Gradient.computeGradient debug align jenv dvs nCols n.1 q.1 nThreads applyDvScaling useDense

/-- The gradient of Rprop, RP:122, without a regularizer. Simplified as `First.grad`. -/
noncomputable def First.rgrad (Q : First) (w : World) (i : Fin Q.n) : ℝ :=
  match gradientOnly Q.base.num Q.base.debug Q.base.align Q.base.jenv Q.base.dvs Q.n Q.nThreads false false Q.dense w.env Q.ns Q.base.sq (Q.base.mem w.env) with
  | .ok g => g.e 0 i
  | _ => 0

/-- What Rprop sees, RP:119-251. -/
noncomputable def First.rprop (Q : First) : Rprop.Env ℝ {w : World // w.Fine} Q.n where
  gradient x := Q.rgrad x.1
  cost x := Q.err x.1
  update x d := Q.move x d
  norm := Q.norm

/-! ### Statement -/

/-- Legal problems: what `initialize` establishes (C09, C22), terms of the right sizes, and at least one thread. -/
structure First.Legal (Q : First) (tbl : Table) : Prop where
  base : Q.base.Legal tbl
  align : Q.base.align < 2 ^ 16
  threads : 0 < Q.nThreads
  ns : ∀ T ∈ Q.ns, (Body.scalar T.e).Cons tbl
  columns : ColumnsOk Q.base.jenv Q.n
  column : ∀ r, r < Q.base.dvs.length → (Q.base.jenv.columnBase (Q.base.dvs.getD r 0)).toNat = Q.base.layout.base r

/-- All terms have a value. -/
def First.Defined (Q : First) (env : Expr.Env) : Prop :=
  (∀ T ∈ Q.ns, ∃ x, (Body.scalar T.e).value env = .ok x) ∧ ∀ T ∈ Q.base.sq, ∃ x, T.body.value env = .ok x

/-- The cost that is reported: `Σ w e + Σ ω |S e|²` with the M-estimator weights `ω` at the same values. -/
noncomputable def First.reported (Q : First) (env : Expr.Env) : ℝ :=
  (Q.ns.map fun T => T.w * scalarOf env T.e).sum + Q.base.cost env

/-- The cost without M-estimators: `Σ w e + Σ eᵀ S Sᵀ e`. -/
noncomputable def First.plain (Q : First) (env : Expr.Env) : ℝ :=
  (Q.ns.map fun T => T.w * scalarOf env T.e).sum + (Q.base.sq.map fun T => squared T.sqrtInvR T.body.dim (errorVec env T.body)).sum

/-- Where all terms can be differentiated along a curve. -/
def First.Smooth (Q : First) (c : ℝ → Expr.Env) : Prop :=
  (∀ T ∈ Q.ns, (Body.scalar T.e).Smooth c 0) ∧ ∀ T ∈ Q.base.sq, T.body.Smooth c 0

/-- Along every direction in the parameters of the active design variables along which the terms can be differentiated, the derivative of the cost without M-estimators is at most `c` times the length of the
direction. Scalings play no role. -/
def First.Flat (Q : First) (x : World) (c : ℝ) : Prop :=
  ∀ (η : Nat → Nat → ℝ) (δ : (v : Var) → v.Idx → ℝ) (w' : ℝ → World), Step Q.base.num Q.base.jenv false η δ → (∀ s, x.step Q.base.debug s δ (w' s)) →
    Q.Smooth (fun s => (w' s).env) →
    ∃ D, HasDerivAt (fun s => Q.plain (w' s).env) D 0 ∧
      |D| ≤ c * Real.sqrt (∑ r ∈ Finset.range Q.base.dvs.length, ∑ a ∈ Finset.range (Q.base.jenv.dim (Q.base.dvs.getD r 0)), η (Q.base.dvs.getD r 0) a ^ 2)

/-! ### Proofs -/

noncomputable local instance : FloatLike.Sq ℝ := ⟨Real.sqrt⟩

variable {Q : First} {tbl : Table}

theorem First.Flat.mono {x : World} {c c' : ℝ} (h : Q.Flat x c) (hc : c ≤ c') : Q.Flat x c' := fun η δ w' h1 h2 h3 => by
  obtain ⟨D, hD, hb⟩ := h η δ w' h1 h2 h3
  exact ⟨D, hD, hb.trans (mul_le_mul_of_nonneg_right hc (Real.sqrt_nonneg _))⟩

/-- **C144, cost.** The reported cost is `Σ w e + Σ ω |S e|²`. -/
theorem C144_cost (hQ : Q.Legal tbl) (w : World) (hv : Q.Defined w.env) : Q.err w = Q.reported w.env := by
  obtain ⟨σ', h, -⟩ := cost_spec (tbl := tbl) (env := w.env) Q.ns Q.base.sq (fun T hT => ⟨hQ.ns T hT, hv.1 T hT⟩)
    (fun T hT => ⟨(hQ.base.terms T hT).1, (hQ.base.terms T hT).2, hv.2 T hT⟩) (Q.base.mem w.env)
  simp only [First.err, h]
  rfl

/-- **C144, which cost.** Without M-estimators and with symmetric square roots of the inverse covariances the reported cost is the cost whose gradient is used, so that `C144_bfgs`, `C144_slope_partial` and
`C144_rprop_partial` speak of the reported cost. -/
theorem C144_reported (hone : ∀ T ∈ Q.base.sq, ∀ x, T.policy x = 1)
    (hsym : ∀ T ∈ Q.base.sq, ∀ i j, i < T.body.dim → j < T.body.dim → T.sqrtInvR.e i j = T.sqrtInvR.e j i) (env : Expr.Env) : Q.reported env = Q.plain env := by
  unfold First.reported First.plain Prob.cost
  congr 2
  refine List.map_congr_left fun T hT => ?_
  simp only [weightAt, hone T hT, ite_true, one_mul, squared]
  refine Finset.sum_congr rfl fun u hu => ?_
  congr 1
  exact Finset.sum_congr rfl fun v hv => by rw [hsym T hT u v (Finset.mem_range.1 hu) (Finset.mem_range.1 hv)]

theorem sum_list_range (as : List Nat) (f : Nat → ℝ) : (as.map f).sum = ∑ r ∈ Finset.range as.length, f (as.getD r 0) := by
  induction as with
  | nil => simp
  | cons a as ih => rw [List.map_cons, List.sum_cons, List.length_cons, Finset.sum_range_succ', ih, add_comm]; simp

theorem sum_fin_pad (g : Fin Q.n → ℝ) (f : ℝ → Nat → ℝ) : ∑ i : Fin Q.n, f (g i) i =
    ∑ r ∈ Finset.range Q.base.dvs.length, ∑ a ∈ Finset.range (Q.base.jenv.dim (Q.base.dvs.getD r 0)), f (Q.pad g (Q.base.layout.base r + a)) (Q.base.layout.base r + a) := by
  rw [← sum_columns Q.base fun i => f (Q.pad g i) i]
  rw [← Fin.sum_univ_eq_sum_range (fun i => f (Q.pad g i) i)]
  refine Finset.sum_congr rfl fun i _ => ?_
  rw [First.pad, dif_pos i.2]

/-- The columns of the design variables are the entries of the gradient. -/
theorem sum_pad (hQ : Q.Legal tbl) (g : MatrixStack.DMat ℝ) (η : Nat → Nat → ℝ) :
    (Q.base.dvs.map fun d => ∑ j ∈ Finset.range (Q.base.jenv.dim d), g.e 0 ((Q.base.jenv.columnBase d).toNat + j) * η d j).sum =
    ∑ r ∈ Finset.range Q.base.dvs.length, ∑ a ∈ Finset.range (Q.base.jenv.dim (Q.base.dvs.getD r 0)),
      Q.pad (fun i => g.e 0 i) (Q.base.layout.base r + a) * η (Q.base.dvs.getD r 0) a := by
  rw [sum_list_range]
  refine Finset.sum_congr rfl fun r hr => Finset.sum_congr rfl fun a ha => ?_
  have hr' := Finset.mem_range.1 hr
  have ha' := Finset.mem_range.1 ha
  have hlt : Q.base.layout.base r + a < Q.n := by
    have hact : Q.base.jenv.active (Q.base.dvs.getD r 0) = true := (hQ.base.active _).2 (by rw [List.getD_eq_getElem _ _ hr']; exact List.getElem_mem hr')
    have h1 := hQ.columns.fits _ hact
    have h2 := hQ.columns.nonneg _ hact
    have h3 := hQ.column r hr'
    omega
  rw [hQ.column r hr', First.pad, dif_pos hlt]

/-- The derivative of the cost along every direction is the product of `G` with the direction. -/
def First.Along (Q : First) (x : World) (G : Fin Q.n → ℝ) : Prop :=
  ∀ (η : Nat → Nat → ℝ) (δ : (v : Var) → v.Idx → ℝ) (w' : ℝ → World), Step Q.base.num Q.base.jenv false η δ → (∀ s, x.step Q.base.debug s δ (w' s)) →
    Q.Smooth (fun s => (w' s).env) →
    HasDerivAt (fun s => Q.plain (w' s).env)
      (∑ r ∈ Finset.range Q.base.dvs.length, ∑ a ∈ Finset.range (Q.base.jenv.dim (Q.base.dvs.getD r 0)), Q.pad G (Q.base.layout.base r + a) * η (Q.base.dvs.getD r 0) a) 0

theorem grad_along (hQ : Q.Legal tbl) {x : World} (hx : x.Ok) (hv : Q.Defined x.env) : Q.Along x (Q.grad x) := by
  intro η δ w' hη hw hsm
  have e0 := step_zero hx (hw 0)
  obtain ⟨k, g, e, -, hD⟩ := C100_gradient (tbl := tbl) (step_moves hx hw) Q.base.jenv hQ.base.dim hQ.base.indexed.envOk Q.n hQ.columns Q.base.dvs hQ.base.nodup hQ.base.active false η hη
    Q.ns (fun T hT => ⟨hQ.ns T hT, hsm.1 T hT, by rw [e0]; exact hv.1 T hT⟩)
    Q.base.sq (fun T hT => ⟨(hQ.base.terms T hT).1, hQ.base.terms T hT |>.2, hsm.2 T hT, by rw [e0]; exact hv.2 T hT⟩)
    Q.base.debug Q.base.align ⟨hQ.align, hQ.base.align⟩ Q.nThreads hQ.threads false Q.dense (Q.base.mem x.env)
  rw [e0] at e
  have eg : Q.grad x = fun i : Fin Q.n => g.e 0 i := by funext i; simp only [First.grad, e]
  rw [eg, ← sum_pad hQ]
  refine hD.congr_of_eventuallyEq (Filter.Eventually.of_forall fun s => ?_)
  simp only [First.plain, weightAt, Bool.false_eq_true, if_false, one_mul]

theorem flat_of_along {x : World} {G : Fin Q.n → ℝ} (h : Q.Along x G) : Q.Flat x (Q.norm G) := by
  intro η δ w' hη hw hsm
  refine ⟨_, h η δ w' hη hw hsm, ?_⟩
  have hn : Q.norm G = Real.sqrt (∑ r ∈ Finset.range Q.base.dvs.length, ∑ a ∈ Finset.range (Q.base.jenv.dim (Q.base.dvs.getD r 0)), Q.pad G (Q.base.layout.base r + a) ^ 2) := by
    unfold First.norm
    rw [sum_fin_pad G fun y _ => y ^ 2]
  rw [hn, ← Real.sqrt_mul (Finset.sum_nonneg fun _ _ => Finset.sum_nonneg fun _ _ => sq_nonneg _)]
  refine Real.abs_le_sqrt ?_
  simp only [Finset.sum_sigma']
  exact Finset.sum_mul_sq_le_sq_mul_sq _ _ _

/-- **C144, gradient.** At every state the gradient norm that BFGS computes bounds the slope of the cost without M-estimators along every direction. -/
theorem C144_gradient (hQ : Q.Legal tbl) {x : World} (hx : x.Ok) (hv : Q.Defined x.env) : Q.Flat x (Q.norm (Q.grad x)) := flat_of_along (grad_along hQ hx hv)

/-- **C144, BFGS.** A run of the BFGS optimizer on a problem made of expressions reports the cost of the values it leaves. Unless it ends with FAILURE that cost is not above the initial one and the reported
gradient norm bounds the slope of the cost without M-estimators along every direction; if it ends because of the gradient norm, the threshold does. This holds for all scalings. -/
theorem C144_bfgs (hQ : Q.Legal tbl) (diff : {w : World // w.Fine} → {w : World // w.Fine} → ℝ) (o : BFGS.Opts ℝ) (ho : o.ls.check = true) (eo : ℝ)
    (l : LineSearch.LS ℝ {w : World // w.Fine} (Fin Q.n → ℝ)) (passes : Nat) (s' : BFGS.State ℝ {w : World // w.Fine} Q.n)
    (h : BFGS.optimize (Q.bfgs diff) o passes (BFGS.reset (Q.bfgs diff) eo l) = .ok s') (hl : Q.Defined l.x.1.env) (hv : Q.Defined s'.ls.x.1.env) :
    s'.error = Q.reported s'.ls.x.1.env ∧ s'.iters ≤ passes ∧
    (s'.conv ≠ .failure → Q.reported s'.ls.x.1.env ≤ Q.reported l.x.1.env ∧ Q.Flat s'.ls.x.1 s'.gNorm ∧ (s'.conv = .gradientNorm → Q.Flat s'.ls.x.1 o.cGrad)) := by
  obtain ⟨h1, h2, h3⟩ := BFGS.C78_optimize_partial LineSearch.root_real (Q.bfgs diff) o ho eo l passes s' h
  obtain ⟨-, -, h4, -⟩ := BFGS.C78_status LineSearch.root_real (Q.bfgs diff) o ho eo l passes s' h
  have e1 : (Q.bfgs diff).err s'.ls.x = Q.reported s'.ls.x.1.env := C144_cost hQ _ hv
  have e2 : (Q.bfgs diff).err l.x = Q.reported l.x.1.env := C144_cost hQ _ hl
  rw [e1, e2] at h3
  have hf := C144_gradient hQ s'.ls.x.2.ok hv
  refine ⟨h1.trans e1, h2, fun hc => ⟨(h3 hc).1, ?_, fun hg => ?_⟩⟩
  · rw [(h3 hc).2]; exact hf
  · exact hf.mono ((h4 hc).1 hg).le

/-- The step `s d` as a step of the design variables. -/
theorem dir_smul (P : Prob) (s : ℝ) (d : Nat → ℝ) (v : Var) : P.dir (fun i => s * d i) v = s • P.dir d v := by
  cases v <;> (funext k; simp only [Prob.dir, Prob.coords, Pi.smul_apply, smul_eq_mul]; split_ifs <;> ring)

theorem move_step (x : {w : World // w.Fine}) (d : Fin Q.n → ℝ) (s : ℝ) {w' : World} (h : x.1.step Q.base.debug s (Q.base.dir (Q.pad d)) w') :
    (Q.move x fun i => s * d i).1.env = w'.env := by
  have hp : Q.pad (fun i => s * d i) = fun i => s * Q.pad d i := by
    funext i
    simp only [First.pad]
    split_ifs <;> simp
  refine C130_step Q.base x.2.ok _ ?_
  rw [hp]
  obtain ⟨h1, h2, h3, h4, h5⟩ := h
  refine ⟨fun i => ?_, fun i => ?_, fun i => ?_, fun i => ?_, fun i l => ?_⟩
  · rw [dir_smul, one_mul]; exact h1 i
  · rw [dir_smul, one_smul]; exact h2 i
  · rw [dir_smul, one_smul]; exact h3 i
  · rw [dir_smul, one_smul]; exact h4 i
  · rw [dir_smul, one_smul]; exact h5 i l

theorem move_slope (hQ : Q.Legal tbl) (hone : ∀ d, Q.base.jenv.active d = true → Q.base.jenv.scaling d = 1) (x : {w : World // w.Fine}) (hv : Q.Defined x.1.env) (d : Fin Q.n → ℝ)
    (hsm : Q.Smooth fun s => (Q.move x fun i => s * d i).1.env) :
    HasDerivAt (fun s => Q.plain (Q.move x fun i => s * d i).1.env) (Q.grad x.1 ⬝ᵥ d) 0 := by
  choose w' hw' using fun s => step_exists (debug := Q.base.debug) x.1 s (Q.base.dir (Q.pad d))
  have em := fun s => move_step x d s (hw' s)
  simp only [em] at hsm ⊢
  have hη : Step Q.base.num Q.base.jenv false (Q.base.coords (Q.pad d)) (Q.base.dir (Q.pad d)) := fun v j => by
    rw [dir_step Q.base (Q.pad d) v j]
    split_ifs with h1 <;> simp_all
  refine (grad_along hQ x.2.ok hv _ _ w' hη hw' hsm).congr_deriv ?_
  have := sum_fin_pad (Q := Q) (Q.grad x.1) fun y i => y * Q.pad d i
  have e : Q.grad x.1 ⬝ᵥ d = ∑ i : Fin Q.n, Q.grad x.1 i * Q.pad d i := by
    refine Finset.sum_congr rfl fun i _ => ?_
    rw [First.pad, dif_pos i.2]
  rw [e, this]
  refine Finset.sum_congr rfl fun r hr => Finset.sum_congr rfl fun a _ => ?_
  unfold Prob.coords
  rw [hQ.base.indexed.block r (Finset.mem_range.1 hr), Int.toNat_natCast]

/-- **C144, line search** (partial: all scalings must be 1, see `C144_scaling_counterexample`; and the M-estimators off, see `C144_robust_counterexample`). The derivative the line search uses, the product of
gradient and direction, is the derivative of the cost without M-estimators with respect to the step length. -/
theorem C144_slope_partial (hQ : Q.Legal tbl) (diff : {w : World // w.Fine} → {w : World // w.Fine} → ℝ) (hone : ∀ d, Q.base.jenv.active d = true → Q.base.jenv.scaling d = 1)
    (x : {w : World // w.Fine}) (hv : Q.Defined x.1.env) (d : Fin Q.n → ℝ) (hsm : Q.Smooth fun s => ((Q.bfgs diff).upd x s d).1.env) :
    HasDerivAt (fun s => Q.plain ((Q.bfgs diff).upd x s d).1.env) ((Q.bfgs diff).ls.dot ((Q.bfgs diff).grad x) d) 0 := move_slope hQ hone x hv d hsm

/-! ### Rprop -/

/-- The members of the nodes of the non-squared terms hold the current values. -/
def First.Fresh (Q : First) (tbl : Table) (env : Expr.Env) : Prop := ∀ T ∈ Q.ns, ∀ i ∈ (Body.scalar T.e).ids env, Expr.FreshId env tbl (Q.base.mem env) i

theorem rgrad_along (hQ : Q.Legal tbl) {x : World} (hx : x.Ok) (hv : Q.Defined x.env) (hf : Q.Fresh tbl x.env) : Q.Along x (Q.rgrad x) := by
  intro η δ w' hη hw hsm
  have e0 := step_zero hx (hw 0)
  have hm := step_moves hx hw
  have hal : Q.base.align < 2 ^ 16 ∧ 0 < Q.base.align := ⟨hQ.align, hQ.base.align⟩
  obtain ⟨nb, σ2, e2, p2, -, -⟩ := each_spec (f := NTerm.view invS Q.base.num (w' 0).env) (w' 0).env tbl (fun T => (Body.scalar T.e).ids (w' 0).env) (fun _ => [])
    _ Q.ns (fun T hT σ hσ => view_ns hm hQ.base.dim hQ.base.nodup hQ.base.active hη hal ⟨hQ.ns T hT, hsm.1 T hT, by rw [e0]; exact hv.1 T hT⟩ σ hσ) (Q.base.mem x.env) (by rw [e0]; exact hf)
  obtain ⟨qb, σ3, e3, p3, -, -⟩ := each_spec (f := ETerm.view invS Q.base.num (w' 0).env false) (w' 0).env tbl (fun _ => []) (fun _ => [])
    _ Q.base.sq (fun T hT σ _ => view_sq hm hQ.base.dim hQ.base.nodup hQ.base.active hη hal false (hQ.base.terms T hT).1
      ⟨(hQ.base.terms T hT).2, hsm.2 T hT, by rw [e0]; exact hv.2 T hT⟩ σ) σ2 (by simp)
  obtain ⟨nt, hn1, hn2⟩ := choose_events p2
  obtain ⟨qt, hq1, hq2⟩ := choose_events p3
  obtain ⟨g, eg, -, -, hg, -⟩ := Gradient.C70_gradient Q.base.debug Q.base.align Q.base.jenv hQ.base.indexed.envOk Q.n hQ.columns hal.2 Q.base.dvs hQ.base.nodup hQ.base.active nt qt
    (fun p hp => by obtain ⟨T, -, h⟩ := forall₂_mem hn2 p hp; exact h.1)
    (fun p hp => by obtain ⟨T, -, h⟩ := forall₂_mem hq2 p hp; exact h.1) Q.nThreads hQ.threads false Q.dense
  rw [hn1, hq1] at eg
  rw [e0] at e2 e3
  have er : Q.rgrad x = fun i : Fin Q.n => g.e 0 i := by funext i; simp [First.rgrad, gradientOnly, e2, e3, eg]
  rw [er, ← sum_pad hQ]
  have h1 := hasDerivAt_forall₂ (hn2.imp fun _ _ h => h.2)
  have h2 := hasDerivAt_forall₂ (hq2.imp fun _ _ h => h.2)
  refine ((h1.add h2).congr_deriv ?_).congr_of_eventuallyEq (Filter.Eventually.of_forall fun s => ?_)
  · rw [← along_list, ← along_list, ← along_add]
    show _ = along Q.base.jenv Q.base.dvs η fun d j => g.e 0 ((Q.base.jenv.columnBase d).toNat + j)
    refine along_congr fun d hdm j hj => ?_
    rw [hg d ((hQ.base.active d).2 hdm) j hj, add_mul, List.sum_map_mul_right, List.sum_map_mul_right]
  · simp only [First.plain, Pi.add_apply, weightAt, Bool.false_eq_true, if_false, one_mul]

theorem rprop_loop {n : Nat} [NeZero n] {X : Type} (E : Rprop.Env ℝ X n) (o : Rprop.Opt ℝ) (k : Nat) (s : Rprop.St ℝ X n) (hs : s.conv = .inProgress)
    (h : (Rprop.loop E o k s).conv = .gradientNorm) : E.norm (E.gradient (Rprop.loop E o k s).x) < o.gradientNorm := by
  induction k generalizing s with
  | zero => simp only [Rprop.loop] at h; rw [hs] at h; cases h
  | succ k ih =>
    obtain ⟨c1, -, -, c4, -⟩ := Rprop.C35_criteria_partial E o s (Rprop.iter E o s).1 (Rprop.iter E o s).2 rfl
    simp only [Rprop.loop] at h ⊢
    split_ifs at h ⊢ with hb
    · exact ih _ (c4.1 hb) h
    · exact (c1 h).2

/-- **C144, Rprop** (partial: the members of the nodes of the non-squared terms must hold the values of the final state, as they do if there are no such terms; see `C144_rprop_unevaluated` and
`C144_rprop_stale_counterexample`). If a run of Rprop, with any method and budget, ends because of the gradient norm, the threshold bounds the slope of the cost without M-estimators along every direction. -/
theorem C144_rprop_partial [NeZero Q.n] (hQ : Q.Legal tbl) (o : Rprop.Opt ℝ) (x : {w : World // w.Fine})
    (h : (Rprop.optimize Q.rprop o (Rprop.start o x)).conv = .gradientNorm) (hv : Q.Defined (Rprop.optimize Q.rprop o (Rprop.start o x)).x.1.env)
    (hf : Q.Fresh tbl (Rprop.optimize Q.rprop o (Rprop.start o x)).x.1.env) :
    Q.Flat (Rprop.optimize Q.rprop o (Rprop.start o x)).x.1 o.gradientNorm :=
  (flat_of_along (rgrad_along hQ (Rprop.optimize Q.rprop o (Rprop.start o x)).x.2.ok hv hf)).mono (rprop_loop Q.rprop o _ _ rfl h).le

/-! ### Concrete problems -/

/-- Number 0 is active, scaled by `c`. -/
noncomputable def soloEnv (c : ℝ) : Jacobian.Env ℝ := { oneEnv with scaling := fun _ => c }

/-- The difference of number 0 and `b`, with an M-estimator. -/
noncomputable def soloTerm (b : ℝ) (pol : ℝ → ℝ) : ETerm := ⟨.scalar (.sadd (.svar 0) (.sconst b) (-1)), ⟨1, 1, fun _ _ => 1⟩, pol⟩

/-- One number and one squared term. -/
noncomputable def solo (c b : ℝ) (pol : ℝ → ℝ) : First :=
  ⟨⟨addr, soloEnv c, [addr (.sc 0)], [soloTerm b pol], true, 2, fun _ _ => none,
    fun _ => ⟨SBM.new (Hessian.dvLayout (soloEnv c) [addr (.sc 0)]) (Hessian.dvLayout (soloEnv c) [addr (.sc 0)]), fun _ => 7, (Hessian.dvLayout (soloEnv c) [addr (.sc 0)]).total⟩⟩,
    [], 2, false⟩

theorem solo_n (c b : ℝ) (pol : ℝ → ℝ) : (solo c b pol).n = 1 := by
  show (Hessian.dvLayout (soloEnv c) [addr (.sc 0)]).total = 1
  simp [SBM.Layout.total, Hessian.dvLayout, soloEnv, one_dim]

theorem solo_legal (c b : ℝ) (pol : ℝ → ℝ) (hp : ∀ x, 0 ≤ x → 0 ≤ pol x) : (solo c b pol).Legal Expr.exTbl where
  base := {
    dim := fun v => addr_dim v
    indexed := ⟨by simp [solo, soloEnv, oneEnv], fun d hd => ⟨0, by simp [solo], by simpa [solo, soloEnv, oneEnv, eq_comm] using hd⟩⟩
    nodup := by simp [solo]
    active := fun d => by simp [solo, soloEnv, oneEnv]
    terms := fun T hT => by
      simp only [solo, List.mem_singleton] at hT
      subst hT
      exact ⟨⟨rfl, rfl, hp⟩, by simp [Body.Cons, soloTerm, Expr.Cons]⟩
    align := by simp [solo]
    sys := fun _ => fresh_ok _ _ _ }
  align := by simp [solo]
  threads := by simp [solo]
  ns := by simp [solo]
  columns := by
    rw [solo_n]
    refine ⟨fun d hd => ?_, fun d hd => ?_, fun d d' hd hd' hne => ?_⟩
    · have : d = addr (.sc 0) := by simpa [solo, soloEnv, oneEnv] using hd
      subst this; simp [solo, soloEnv, oneEnv]
    · have : d = addr (.sc 0) := by simpa [solo, soloEnv, oneEnv] using hd
      subst this
      have := one_dim
      simp [solo, soloEnv, oneEnv] at this ⊢
      omega
    · have h1 : d = addr (.sc 0) := by simpa [solo, soloEnv, oneEnv] using hd
      have h2 : d' = addr (.sc 0) := by simpa [solo, soloEnv, oneEnv] using hd'
      exact absurd (h1.trans h2.symm) hne
  column r hr := by
    obtain rfl : r = 0 := by simpa [solo] using hr
    rw [SBM.Layout.base_zero]
    simp [solo, soloEnv, oneEnv]

theorem solo_value (b : ℝ) (pol : ℝ → ℝ) (env : Expr.Env) : (soloTerm b pol).body.value env = .ok fun _ => env.sc 0 + -1 * b := rfl

theorem solo_defined (c b : ℝ) (pol : ℝ → ℝ) (env : Expr.Env) : (solo c b pol).Defined env := by
  refine ⟨by simp [solo], fun T hT => ?_⟩
  simp only [solo, List.mem_singleton] at hT
  subst hT
  exact ⟨_, solo_value _ _ _⟩

theorem solo_smooth (c b : ℝ) (pol : ℝ → ℝ) (k : ℝ → Expr.Env) : (solo c b pol).Smooth k := by
  refine ⟨by simp [solo], fun T hT => ?_⟩
  simp only [solo, List.mem_singleton] at hT
  subst hT
  simp [soloTerm, Body.Smooth, Expr.Smooth]

theorem solo_plain (c b : ℝ) (pol : ℝ → ℝ) (env : Expr.Env) : (solo c b pol).plain env = (env.sc 0 - b) ^ 2 := by
  simp only [First.plain, solo, List.map_nil, List.sum_nil, List.map_cons, List.sum_cons, add_zero, zero_add, errorVec_eq (solo_value b pol env)]
  simp [squared, soloTerm, Body.dim]
  ring

theorem solo_reported (c b : ℝ) (pol : ℝ → ℝ) (env : Expr.Env) : (solo c b pol).reported env = pol ((env.sc 0 - b) ^ 2) * (env.sc 0 - b) ^ 2 := by
  simp only [First.reported, Prob.cost, solo, List.map_nil, List.sum_nil, List.map_cons, List.sum_cons, add_zero, zero_add, errorVec_eq (solo_value b pol env)]
  simp [weightAt, soloTerm, Body.dim, sub_eq_add_neg]

/-- A direction that moves number 0 only. -/
def soloDir (a : ℝ) : (v : Var) → v.Idx → ℝ
  | .sc 0 => fun _ => a
  | _ => 0

theorem soloDir_step (c b a : ℝ) (pol : ℝ → ℝ) : Step (solo c b pol).base.num (solo c b pol).base.jenv false (fun _ _ => a) (soloDir a) := by
  intro v j
  by_cases h : v = .sc 0
  · subst h
    simp [soloDir, solo, soloEnv, oneEnv]
  · have : ¬ addr v = addr (.sc 0) := fun e => h (addr_inj e)
    have h2 : soloDir a v = 0 := by
      unfold soloDir
      split
      · exact absurd rfl h
      · rfl
    simp [solo, soloEnv, oneEnv, this, h2]

theorem square_deriv (e k : ℝ) : HasDerivAt (fun s : ℝ => (e + s * k) ^ 2) (2 * e * k) 0 := by
  refine ((((hasDerivAt_id (0 : ℝ)).mul_const k).const_add e).pow 2).congr_deriv ?_
  simp

theorem solo_dot (c b a : ℝ) (pol : ℝ → ℝ) (g : Fin (solo c b pol).n → ℝ) : (g ⬝ᵥ fun _ => a) = (solo c b pol).pad g 0 * a := by
  have := sum_fin_pad (Q := solo c b pol) g fun y _ => y * a
  rw [show (g ⬝ᵥ fun _ => a) = ∑ i, g i * a from rfl, this]
  have hd : (solo c b pol).base.jenv.dim ((solo c b pol).base.dvs.getD 0 0) = 1 := one_dim
  have hl : (solo c b pol).base.dvs.length = 1 := rfl
  rw [hl, Finset.sum_range_one, hd, Finset.sum_range_one, SBM.Layout.base_zero]

/-- Every vector that gives the derivatives of the cost is its gradient. -/
theorem solo_along (c b a : ℝ) (pol : ℝ → ℝ) {x : World} (hx : x.Ok) {G : Fin (solo c b pol).n → ℝ} (hG : (solo c b pol).Along x G) : (G ⬝ᵥ fun _ => a) = 2 * (x.env.sc 0 - b) * a := by
  choose w' hw' using fun s => step_exists (debug := (solo c b pol).base.debug) x s (soloDir a)
  have h := hG _ _ w' (soloDir_step c b a pol) hw' (solo_smooth c b pol _)
  have hd : (solo c b pol).base.jenv.dim ((solo c b pol).base.dvs.getD 0 0) = 1 := one_dim
  have hl : (solo c b pol).base.dvs.length = 1 := rfl
  rw [hl, Finset.sum_range_one, hd, Finset.sum_range_one, SBM.Layout.base_zero] at h
  rw [solo_dot]
  refine h.unique ((square_deriv (x.env.sc 0 - b) a).congr_of_eventuallyEq (Filter.Eventually.of_forall fun s => ?_))
  have es : (w' s).env.sc 0 = x.env.sc 0 + s * a := by
    have h3 : (w' s).env.sc 0 = vec (n := 1) (x.sc 0).val 0 + s * a := by rw [step_env (hw' s)]; rfl
    rw [h3]
    congr 1
    exact (congrFun (hx.sc 0) 0).symm
  simp only [solo_plain, es]
  ring

theorem solo_entry (c b : ℝ) (pol : ℝ → ℝ) {x : World} (hx : x.Ok) {G : Fin (solo c b pol).n → ℝ} (hG : (solo c b pol).Along x G) : G = fun _ => 2 * (x.env.sc 0 - b) := by
  have h := solo_along c b 1 pol hx hG
  rw [solo_dot, mul_one, mul_one] at h
  funext i
  have hi : i.val = 0 := by have h3 := i.2; have h4 := solo_n c b pol; omega
  rw [← h, First.pad, dif_pos (by rw [solo_n]; norm_num)]
  congr 1
  exact Fin.ext hi

theorem solo_norm (c b : ℝ) (pol : ℝ → ℝ) {x : World} (hx : x.Ok) {G : Fin (solo c b pol).n → ℝ} (hG : (solo c b pol).Along x G) : (solo c b pol).norm G = |2 * (x.env.sc 0 - b)| := by
  rw [solo_entry c b pol hx hG]
  unfold First.norm
  rw [Finset.sum_const, Finset.card_univ, Fintype.card_fin, solo_n, one_smul, Real.sqrt_sq_eq_abs]

/-- The gradient of the problem, whatever the scaling and the M-estimator. -/
theorem solo_grad (c b a : ℝ) (pol : ℝ → ℝ) (hp : ∀ x, 0 ≤ x → 0 ≤ pol x) {x : World} (hx : x.Ok) :
    ((solo c b pol).grad x ⬝ᵥ fun _ => a) = 2 * (x.env.sc 0 - b) * a :=
  solo_along c b a pol hx (grad_along (solo_legal c b pol hp) hx (solo_defined c b pol _))

/-- What a step of the line search does to the number. -/
theorem solo_move (c b a : ℝ) (pol : ℝ → ℝ) (x : {w : World // w.Fine}) (s : ℝ) : ((solo c b pol).move x fun _ => s * a).1.env.sc 0 = x.1.env.sc 0 + s * (a * c) := by
  obtain ⟨w', hw'⟩ := step_exists (debug := (solo c b pol).base.debug) x.1 s ((solo c b pol).base.dir ((solo c b pol).pad fun _ => a))
  rw [move_step x (fun _ => a) s hw', step_env hw']
  have hd : (solo c b pol).base.dir ((solo c b pol).pad fun _ => a) (.sc 0) () = a * c := by
    have hb : (solo c b pol).base.layout.base ((solo c b pol).base.jenv.blockIndex ((solo c b pol).base.num (.sc 0))).toNat = 0 := by
      simp [solo, soloEnv, oneEnv, SBM.Layout.base_zero]
    have ha : (solo c b pol).base.jenv.active ((solo c b pol).base.num (.sc 0)) = true := by simp [solo, soloEnv, oneEnv]
    simp only [Prob.dir, ha, if_true, Prob.coords, hb, First.pad]
    rw [dif_pos (by rw [solo_n]; norm_num)]
    rfl
  show vec (n := 1) (x.1.sc 0).val 0 + s * _ = _
  rw [hd]
  congr 1
  exact (congrFun (x.2.ok.sc 0) 0).symm

/-- Default line-search options; the threshold for the gradient norm is 3. -/
noncomputable def soloOpts : BFGS.Opts ℝ := { BFGS.optsR with cGrad := 3 }

/-- The line search before the run. -/
noncomputable def soloLs : LineSearch.LS ℝ {w : World // w.Fine} (Fin (solo 2 3 fun _ => 1).n → ℝ) := ⟨⟨exWorld, exWorld_fine⟩, none, 0, 0, 0, 0, 0, true, true⟩

/-- A run from `x = 2` for the cost `(x - 3)²`, whose gradient has the norm 2: the hypotheses of `C144_bfgs`. -/
example (diff : {w : World // w.Fine} → {w : World // w.Fine} → ℝ) : (solo 2 3 fun _ => 1).Legal Expr.exTbl ∧ soloOpts.ls.check = true ∧ ∃ s',
    BFGS.optimize ((solo 2 3 fun _ => 1).bfgs diff) soloOpts 5 (BFGS.reset ((solo 2 3 fun _ => 1).bfgs diff) 0 soloLs) = .ok s' ∧ s'.conv = .gradientNorm ∧
    (solo 2 3 fun _ => 1).Defined soloLs.x.1.env ∧ (solo 2 3 fun _ => 1).Defined s'.ls.x.1.env := by
  have hQ := solo_legal 2 3 (fun _ => 1) fun _ _ => zero_le_one
  have hn : (solo 2 3 fun _ => 1).norm ((solo 2 3 fun _ => 1).grad exWorld) < 3 := by
    rw [solo_norm 2 3 _ exWorld_fine.ok (grad_along hQ exWorld_fine.ok (solo_defined _ _ _ _))]
    show |2 * ((2 : ℝ) - 3)| < 3
    rw [abs_lt]
    norm_num
  have hc : (BFGS.start ((solo 2 3 fun _ => 1).bfgs diff) soloOpts (BFGS.reset ((solo 2 3 fun _ => 1).bfgs diff) 0 soloLs)).conv = .gradientNorm := by
    show (if true = true then BFGS.convergence soloOpts ((solo 2 3 fun _ => 1).norm ((solo 2 3 fun _ => 1).grad exWorld)) none none else BFGS.Conv.failure) = _
    rw [if_pos rfl]
    exact if_pos hn
  refine ⟨hQ, ?_, _, ?_, hc, solo_defined _ _ _ _, solo_defined _ _ _ _⟩
  · simp only [LineSearch.Opt.check, LineSearch.zero_exact, FloatLike.le, FloatLike.lt, Bool.and_eq_true, decide_eq_true_eq, soloOpts, BFGS.optsR]
    norm_num
  · unfold BFGS.optimize
    rw [hc]
    rfl

/-- The hypotheses of `C144_slope_partial`. -/
example := C144_slope_partial (solo_legal 1 3 (fun _ => 1) fun _ _ => zero_le_one) (fun _ _ => 0) (fun _ _ => rfl) ⟨exWorld, exWorld_fine⟩ (solo_defined _ _ _ _) (fun _ => 1) (solo_smooth _ _ _ _)

/-- A run of Rprop on the same cost: the hypotheses of `C144_rprop_partial`. -/
example (o : Rprop.Opt ℝ) (ho : o.gradientNorm = 3) (hm : o.maxIterations = 5) [NeZero (solo 2 3 fun _ => 1).n] :
    (Rprop.optimize (solo 2 3 fun _ => 1).rprop o (Rprop.start o ⟨exWorld, exWorld_fine⟩)).conv = .gradientNorm ∧ (solo 2 3 fun _ => 1).Fresh Expr.exTbl exWorld.env := by
  have hQ := solo_legal 2 3 (fun _ => 1) fun _ _ => zero_le_one
  have hf : (solo 2 3 fun _ => 1).Fresh Expr.exTbl exWorld.env := by simp [First.Fresh, solo]
  have hn : (solo 2 3 fun _ => 1).norm ((solo 2 3 fun _ => 1).rgrad exWorld) < o.gradientNorm := by
    rw [solo_norm 2 3 _ exWorld_fine.ok (rgrad_along hQ exWorld_fine.ok (solo_defined _ _ _ _) hf), ho]
    show |2 * ((2 : ℝ) - 3)| < 3
    rw [abs_lt]
    norm_num
  refine ⟨?_, hf⟩
  have hk : o.maxIterations.toNat - (Rprop.start (n := (solo 2 3 fun _ => 1).n) o (⟨exWorld, exWorld_fine⟩ : {w : World // w.Fine})).iterations = 4 + 1 := by rw [hm]; rfl
  have hi : Rprop.iter (solo 2 3 fun _ => 1).rprop o (Rprop.start o ⟨exWorld, exWorld_fine⟩) = ({ Rprop.start o ⟨exWorld, exWorld_fine⟩ with conv := .gradientNorm }, false) := by
    unfold Rprop.iter
    exact if_pos hn
  unfold Rprop.optimize
  rw [hk, Rprop.loop]
  simp only [hi]
  rfl

/-- **C144 fails with scalings.** The cost is `(x - 3)²` with `x = 2` and the scaling is 2: the step moves `x` twice as far as the direction says, and the derivative of the cost along it is twice the product of
gradient and direction, which the line search uses. -/
theorem C144_scaling_counterexample : ∃ (Q : First) (x : {w : World // w.Fine}) (d : Fin Q.n → ℝ), Q.Legal Expr.exTbl ∧ Q.Defined x.1.env ∧
    (Q.Smooth fun s => (Q.move x fun i => s * d i).1.env) ∧ (∀ env, Q.reported env = Q.plain env) ∧
    HasDerivAt (fun s => Q.plain (Q.move x fun i => s * d i).1.env) (-4) 0 ∧ Q.grad x.1 ⬝ᵥ d = -2 := by
  refine ⟨solo 2 3 fun _ => 1, ⟨exWorld, exWorld_fine⟩, fun _ => 1, solo_legal _ _ _ fun _ _ => zero_le_one, solo_defined _ _ _ _, solo_smooth _ _ _ _, fun env => ?_, ?_, ?_⟩
  · rw [solo_reported, solo_plain, one_mul]
  · simp only [solo_plain, solo_move]
    refine ((square_deriv (-1) 2).congr_deriv (by norm_num)).congr_of_eventuallyEq (Filter.Eventually.of_forall fun s => ?_)
    show (2 + s * (1 * 2) - 3) ^ 2 = _
    ring
  · rw [solo_grad 2 3 1 _ (fun _ _ => zero_le_one) exWorld_fine.ok]
    show 2 * ((2 : ℝ) - 3) * 1 = -2
    norm_num

/-- **C144 fails with M-estimators.** The error is 2 and has a Geman-McClure weight, so the reported cost is `e²/(1+e²)²`: it rises along the negative gradient, although the line search takes that for a
direction of descent. -/
theorem C144_robust_counterexample : ∃ (Q : First) (x : {w : World // w.Fine}) (d : Fin Q.n → ℝ) (D : ℝ), Q.Legal Expr.exTbl ∧ Q.Defined x.1.env ∧
    (Q.Smooth fun s => (Q.move x fun i => s * d i).1.env) ∧ (∀ v, Q.base.jenv.scaling v = 1) ∧ d = -Q.grad x.1 ∧
    Q.grad x.1 ⬝ᵥ d < 0 ∧ HasDerivAt (fun s => Q.reported (Q.move x fun i => s * d i).1.env) D 0 ∧ 0 < D := by
  have hp : ∀ x : ℝ, 0 ≤ x → 0 ≤ 1 / (1 + x) ^ 2 := fun x _ => by positivity
  have hg : (solo 1 0 fun x => 1 / (1 + x) ^ 2).grad exWorld = fun _ => 4 := by
    rw [solo_entry 1 0 _ exWorld_fine.ok (grad_along (solo_legal 1 0 _ hp) exWorld_fine.ok (solo_defined _ _ _ _))]
    funext i
    show 2 * ((2 : ℝ) - 0) = 4
    norm_num
  refine ⟨solo 1 0 fun x => 1 / (1 + x) ^ 2, ⟨exWorld, exWorld_fine⟩, fun _ => -4, 48 / 125, solo_legal _ _ _ hp, solo_defined _ _ _ _, solo_smooth _ _ _ _, fun _ => rfl, ?_, ?_, ?_, by norm_num⟩
  · show _ = -(solo 1 0 fun x => 1 / (1 + x) ^ 2).grad exWorld
    rw [hg]; rfl
  · show ((solo 1 0 fun x => 1 / (1 + x) ^ 2).grad exWorld ⬝ᵥ fun _ => (-4 : ℝ)) < 0
    rw [solo_grad 1 0 (-4) _ hp exWorld_fine.ok]
    show 2 * ((2 : ℝ) - 0) * -4 < 0
    norm_num
  · simp only [solo_reported, solo_move]
    have h1 := square_deriv 2 (-4)
    have h2 : HasDerivAt (fun u : ℝ => 1 / (1 + u) ^ 2 * u) (-3 / 125) ((2 + 0 * -4 : ℝ) ^ 2) := by
      have h3 : HasDerivAt (fun u : ℝ => (1 + u) ^ 2) (2 * 5) ((2 + 0 * -4 : ℝ) ^ 2) := by
        refine (((hasDerivAt_id ((2 + 0 * -4 : ℝ) ^ 2)).const_add 1).pow 2).congr_deriv ?_
        norm_num
      have h4 := ((hasDerivAt_const ((2 + 0 * -4 : ℝ) ^ 2) (1 : ℝ)).div h3 (by norm_num)).mul (hasDerivAt_id _)
      refine h4.congr_deriv ?_
      norm_num
    refine ((h2.comp (0 : ℝ) h1).congr_deriv (by norm_num)).congr_of_eventuallyEq (Filter.Eventually.of_forall fun s => ?_)
    show 1 / (1 + (2 + s * (-4 * 1) - 0) ^ 2) ^ 2 * (2 + s * (-4 * 1) - 0) ^ 2 = 1 / (1 + (2 + s * -4) ^ 2) ^ 2 * (2 + s * -4) ^ 2
    ring

/-- A coordinate of a rotated constant point. -/
def turned (k : Fin 3) (p : Fin 3 → ℝ) : NTerm := ⟨.scomp k (.erot 0 (.rvar 0) (.econst p)), 1⟩

/-- **C144, Rprop without evaluation.** The gradient of a non-squared term whose expression rotates a point is taken from members that nothing has written if the cost has not been evaluated before: RPROP_PLUS,
RPROP_MINUS and IRPROP_MINUS never evaluate it. -/
theorem C144_rprop_unevaluated (num : Var → Nat) (debug : Bool) (align : Nat) (jenv : Jacobian.Env ℝ) (dvs : List Nat) (nCols nThreads : Nat) (useM scaled dense : Bool) (env : Expr.Env) (k : Fin 3)
    (p : Fin 3 → ℝ) (ns : List NTerm) (sq : List ETerm) :
    gradientOnly num debug align jenv dvs nCols nThreads useM scaled dense env (turned k p :: ns) sq (fun _ => none) = .ub := by
  simp [gradientOnly, each, NTerm.view, Body.jacobians, turned, Expr.jac]

/-- **C144, Rprop after evaluation.** With the same members the gradient is the same, however the rotation has changed since the cost was evaluated. -/
theorem C144_rprop_stale (num : Var → Nat) (debug : Bool) (align : Nat) (jenv : Jacobian.Env ℝ) (dvs : List Nat) (nCols nThreads : Nat) (useM scaled dense : Bool) (env env' : Expr.Env) (k : Fin 3)
    (p : Fin 3 → ℝ) (σ : Store) :
    gradientOnly num debug align jenv dvs nCols nThreads useM scaled dense env' [turned k p] [] σ =
      gradientOnly num debug align jenv dvs nCols nThreads useM scaled dense env [turned k p] [] σ := by
  simp [gradientOnly, each, NTerm.view, Body.jacobians, turned, Expr.jac]

/-- Half a turn about the first axis. -/
def halfTurn : M3 := diagonal ![1, -1, -1]

theorem turned_jac (env : Expr.Env) (p : Fin 3 → ℝ) (σ : Store) {C : M3} {J : Matrix (Fin 1) (Fin 3) ℝ} (h : σ 0 = some (.rp C p))
    (hJ : ∀ i j, Geo.crossMx (C *ᵥ p) 2 j = J i j) :
    Expr.jac invS env (turned 2 p).e (fun (_ : Fin 1) _ => 1) σ = .ok ([⟨.ro 0, J⟩], σ) := by
  have e : (show Matrix (Fin 1) Unit ℝ from fun _ _ => 1) * Expr.rowUnit 2 * Geo.crossMx (C *ᵥ p) = J := by
    funext i j
    have hA : ∀ k, ((show Matrix (Fin 1) Unit ℝ from fun _ _ => 1) * Expr.rowUnit 2) i k = if k = 2 then 1 else 0 := fun k => by
      rw [mul_apply, Finset.univ_unique, Finset.sum_singleton]
      simp [Expr.rowUnit]
    rw [← hJ i j, mul_apply, Finset.sum_eq_single 2]
    · rw [hA, if_pos rfl, one_mul]
    · intro k _ hk
      rw [hA, if_neg hk, zero_mul]
    · simp
  rw [← e]
  simp [turned, Expr.jac, h, Expr.seq]

/-- **C144 fails for Rprop with non-squared terms.** The cost is evaluated, then the rotation is changed by half a turn: the Jacobian taken from the members has the opposite sign of the one after another evaluation. -/
theorem C144_rprop_stale_counterexample : ∃ (env env' : Expr.Env) (J : Matrix (Fin 1) (Fin 3) ℝ), IsRot (env.ro 0) ∧ IsRot (env'.ro 0) ∧ J ≠ 0 ∧ ∀ σ, ∃ c c' σ1 σ2,
    cost env [turned 2 ![0, 1, 0]] [] σ = .ok (c, σ1) ∧ cost env' [turned 2 ![0, 1, 0]] [] σ1 = .ok (c', σ2) ∧
    Expr.jac invS env' (turned 2 ![0, 1, 0]).e (fun (_ : Fin 1) _ => 1) σ1 = .ok ([⟨.ro 0, J⟩], σ1) ∧
    Expr.jac invS env' (turned 2 ![0, 1, 0]).e (fun (_ : Fin 1) _ => 1) σ2 = .ok ([⟨.ro 0, -J⟩], σ2) := by
  have h1 : IsRot (1 : M3) := ⟨by simp, by simp⟩
  have h2 : IsRot halfTurn := by
    constructor
    · unfold halfTurn
      rw [diagonal_transpose, diagonal_mul_diagonal, ← diagonal_one]
      congr 1
      funext i
      fin_cases i <;> simp
    · simp [halfTurn, det_diagonal, Fin.prod_univ_three]
  refine ⟨⟨fun _ => 0, fun _ => 0, fun _ => 1, fun _ => (0, 1), fun _ _ => 0⟩, ⟨fun _ => 0, fun _ => 0, fun _ => halfTurn, fun _ => (0, 1), fun _ _ => 0⟩, fun _ j => if j = 0 then -1 else 0, h1, h2, ?_, ?_⟩
  · intro h
    have := congrFun (congrFun h 0) 0
    simp at this
  · intro σ
    refine ⟨_, _, _, _, rfl, rfl, ?_, ?_⟩
    · exact turned_jac _ _ _ rfl (fun i j => by fin_cases j <;> simp [Geo.crossMx])
    · exact turned_jac _ _ _ rfl (fun i j => by show _ = -(if j = 0 then (-1 : ℝ) else 0); fin_cases j <;> simp [Geo.crossMx, halfTurn, mulVec_diagonal])

end Verif.Motion
