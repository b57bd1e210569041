import Verif.GenExpr.Main
import Verif.GenExpr.Exp
import Verif.Quat.Props

/-!
Properties of generic matrix expressions.
-/
namespace Verif.GenExpr
open Verif.Geo (VDeriv MDeriv)
open Verif.Quat (Mode Geometry Q4)
open Matrix

theorem moved_zero (env : Env) (δ : Delta) : moved env δ 0 = env := by
  have hu : ∀ m g i, Quat.update m g (env.quat m g i) (fun k => 0 * δ (.quat m g i) k) = env.quat m g i := by
    intro m g i
    have e : (fun k => 0 * δ (.quat m g i) k) = (0 : Fin 3 → ℝ) := funext fun k => zero_mul _
    rw [e]
    cases g
    · rw [Quat.update, Quat.exp_zero, (Quat.C64_identity m _).2]
    · rw [Quat.update, Quat.exp_zero, (Quat.C64_identity m _).1]
  have hq : (moved env δ 0).quat = env.quat := by
    funext m g i
    exact hu m g i
  have hs : (moved env δ 0).sc = env.sc := by funext i; simp [moved]
  have hv : (moved env δ 0).vec = env.vec := by funext n i k; simp [moved]
  have hg : (moved env δ 0).gvec = env.gvec := by funext n i k; simp [moved]
  cases env
  generalize he : moved _ δ 0 = e at *
  cases e
  simp only at hq hs hv hg
  subst hq hs hv hg
  rfl

theorem isMove_moved (env : Env) (δ : Delta) : IsMove (moved env δ) δ 0 where
  sc i := by
    have := ((hasDerivAt_id (0 : ℝ)).mul_const (δ (.sc i) (0 : Fin 1))).const_add (env.sc i)
    simpa [moved] using this
  vec n i := fun k => by
    have := ((hasDerivAt_id (0 : ℝ)).mul_const (δ (.vec n i) k)).const_add (env.vec n i k)
    simpa [moved] using this
  gvec n i := fun k => by
    have := ((hasDerivAt_id (0 : ℝ)).mul_const (δ (.gvec n i) k)).const_add (env.gvec n i k)
    simpa [moved] using this
  quat m g i := by
    rw [moved_zero]
    exact Quat.C64_update_derivative m g (env.quat m g i) (δ (.quat m g i))

/-- Jacobians of a column vector expression, evaluated into a container with as many rows: their prediction for every
step is the derivative of the value when all design variables are updated along the step.  Partial: the expression has
to be `Safe` (see the counterexamples below) and the external Jacobians of `exp` and `log` have to be right. -/
theorem C58_vector_partial {n : Nat} (x : Ext) (env : Env) (δ : Delta) (e : Node (.G n 1)) (hs : Smooth x env e)
    (hsafe : Safe n e ⟨n, .free, true⟩) :
    ∃ L, jac x env e ⟨n, .id⟩ (none : Chain n) = .ok L ∧ VDeriv (fun ε => col (val x (moved env δ ε) e)) (total δ L) 0 := by
  have h := good (x := x) (isMove_moved env δ) e (by rw [moved_zero]; exact hs)
  obtain ⟨D, hD, hA⟩ := h
  obtain ⟨L, h1, h2⟩ := hA n none n .id 1 trivial Chain.get_none hsafe
  rw [moved_zero] at h1
  refine ⟨L, h1, ?_⟩
  rw [h2, Matrix.one_mulVec]
  exact mderiv_col hD

/-- The same with a chain rule `A` in the container and an outer differential `d` on top of the expression: the Jacobians
predict `A d(value')`.  Partial for the same reasons. -/
theorem C58_chain_partial {R r q m : Nat} (x : Ext) (env : Env) (δ : Delta) (e : Node (.G r q)) (hs : Smooth x env e)
    (A : Mat R m) (d : Diff r q m) (hd : d.Lin) (hsafe : Safe R e d.place) :
    ∃ L D, jac x env e ⟨m, d⟩ (some ⟨m, A⟩) = .ok L ∧ MDeriv (fun ε => val x (moved env δ ε) e) D 0 ∧ total δ L = A *ᵥ d.apply D := by
  have h := good (x := x) (isMove_moved env δ) e (by rw [moved_zero]; exact hs)
  obtain ⟨D, hD, hA⟩ := h
  obtain ⟨L, h1, h2⟩ := hA R (some ⟨m, A⟩) m d A hd (Chain.get_some A) hsafe
  rw [moved_zero] at h1
  exact ⟨L, D, h1, hD, h2⟩

/-- Vector expressions with stacked scalars, sums and scalar factors. -/
theorem C58_stacked_partial {n : Nat} (x : Ext) (env : Env) (δ : Delta) (e : Node (.V n)) (hs : Smooth x env e)
    (hsafe : Safe n e ()) :
    ∃ L, jac x env e () (none : Chain n) = .ok L ∧ VDeriv (fun ε => val x (moved env δ ε) e) (total δ L) 0 := by
  have h := good (x := x) (isMove_moved env δ) e (by rw [moved_zero]; exact hs)
  obtain ⟨D, hD, hA⟩ := h
  obtain ⟨L, h1, h2⟩ := hA n none 1 Chain.get_none hsafe
  rw [moved_zero] at h1
  refine ⟨L, h1, ?_⟩
  rw [h2, Matrix.one_mulVec]
  exact hD

/-- Scalars taken from matrix expressions: components, squared norms, and sums and products of them. -/
theorem C58_scalar_partial (x : Ext) (env : Env) (δ : Delta) (e : Node .S) (hs : Smooth x env e) (hsafe : Safe 1 e ()) :
    ∃ L, jac x env e () (none : Chain 1) = .ok L ∧ HasDerivAt (fun ε => val x (moved env δ ε) e) (total δ L 0) 0 := by
  have h := good (x := x) (isMove_moved env δ) e (by rw [moved_zero]; exact hs)
  obtain ⟨D, hD, hA⟩ := h
  obtain ⟨L, h1, h2⟩ := hA 1 none 1 Chain.get_none hsafe
  rw [moved_zero] at h1
  refine ⟨L, h1, ?_⟩
  rw [h2, Matrix.one_mulVec]
  exact hD

/-- `A v + 2 w` and a rotated vector `q v q⁻¹ × (v + w)` meet the hypotheses. -/
example (x : Ext) (env : Env) (A : Mat 3 3) :
    let e : Node (.G 3 1) := .add (.mul (.gconst A) (.gvar 3 0)) (.scale (.gvar 3 1) 2)
    Smooth x env e ∧ Safe 3 e ⟨3, .free, true⟩ := by simp [Smooth, Safe]
example (x : Ext) (env : Env) (m : Mode) :
    let e : Node (.G 3 1) := .crossL (.qrot m (.gquat m .right 0) (.gvar 3 0)) (.add (.gvar 3 0) (.ofV (.vvar 3 1)))
    Smooth x env e ∧ Safe 3 e ⟨3, .free, true⟩ := by simp [Smooth, Safe]
/-- `exp(v) q` with a generic vector `v` of value 0. -/
example (env : Env) (m : Mode) (h : env.gvec 3 0 = 0) :
    let e : Node (.G 4 1) := .qmul m (.qexp m (.gvar 3 0)) (.gquat m .right 0)
    Smooth ext0 env e ∧ Safe 4 e ⟨4, .free, true⟩ := by
  refine ⟨⟨⟨trivial, ?_⟩, trivial⟩, by simp [Safe]⟩
  simp only [val, col_ofCol, h]
  exact expOk_zero ext0 m rfl
/-- `|B (v · s)|²` with a vector expression `v` and a scalar `s`; the inverse of an invertible matrix times `v`. -/
example (x : Ext) (env : Env) (B : Mat 2 3) : let e : Node .S := .sqn (.mul (.gconst B) (.ofV (.vscale (.vvar 3 0) (.svar 0))))
    Smooth x env e ∧ Safe 1 e () := by simp [Smooth, Safe]
example (x : Ext) (env : Env) : let e : Node (.G 2 1) := .mul (.inverse (.gconst !![2, 1; 0, 1])) (.gvar 2 0)
    Smooth x env e ∧ Safe 2 e ⟨2, .free, true⟩ := by
  simp [Smooth, Safe, val, Matrix.det_fin_two]

/-- The product `v * v[0]` of a generic vector with one of its components: evaluating the Jacobians writes a vector of
length one into one of length three (`calcJacobianByApplication` is called with the rows of the container). -/
theorem C58_rows_counterexample (x : Ext) (env : Env) :
    let e : Node (.G 3 1) := .scaleS (.gvar 3 0) (.sofG (.gvar 3 0) 0 0)
    Smooth x env e ∧ jac x env e ⟨3, .id⟩ (none : Chain 3) = .ub := by
  refine ⟨⟨trivial, trivial⟩, ?_⟩
  simp only [jac, Diff.addTo, addByApplication, if_pos, Diff.applyTo, Chain.get_none, Res.bind_ok]
  simp [addJ, Chain.get_none, cat, Var.dim]

/-- A chain-rule matrix with another number of columns: without a chain the rows of the container are checked, with one nothing is. -/
theorem C58_mismatch_counterexample {m q k R : Nat} (M : Mat m q) (A : Mat R k) (h1 : R ≠ m) (h2 : k ≠ m) :
    Chain.push (none : Chain R) M = .exc ∧ Chain.push (some ⟨k, A⟩ : Chain R) M = .ub := by
  simp [Chain.push, Chain.get, h1, h2, Chain.bad]

example : (3 : Nat) ≠ 1 ∧ (2 : Nat) ≠ 1 := by decide

/-- A vector expression inside a generic one, evaluated into a container with a wrong number of rows: not checked either, whatever differentials were composed before. -/
theorem C58_container_counterexample (x : Ext) (env : Env) {R n m p : Nat} (v : Node (.V n)) (h : R ≠ m) (hp : R ≠ p) (hn : R ≠ n) (M : Mat m n) (M' : Mat p n)
    (f : Mat n 1 → Mat p 1) (f' : Diff p 1 m) :
    jac x env (.ofV v) ⟨n, .id⟩ (none : Chain R) = .ub ∧ jac x env (.ofV v) ⟨m, .mat M⟩ (none : Chain R) = .ub ∧ jac x env (.ofV v) ⟨m, .comp f f'⟩ (none : Chain R) = .ub ∧
      jac x env (.ofV v) ⟨m, .compMat M' f'⟩ (none : Chain R) = .ub := by
  simp [jac, Diff.applyTo, Chain.get, h, hp, hn]

example : (2 : Nat) ≠ 3 ∧ (2 : Nat) ≠ 4 := by decide

/-- The same for the squared norm of a scaled vector, `(2 v).squaredNorm()`. -/
theorem C58_norm_counterexample (x : Ext) (env : Env) :
    let e : Node .S := .sqn (.scale (.gvar 3 0) 2)
    Smooth x env e ∧ jac x env e () (none : Chain 1) = .ub := by
  refine ⟨trivial, ?_⟩
  simp [jac, Chain.push_ok Chain.get_none, Diff.addTo, addByApplication]

/-- The derivative of a quaternion variable along its update. -/
theorem quat_deriv (env : Env) (δ : Delta) (x : Ext) (m : Mode) (g : Geometry) (i : Nat) :
    VDeriv (fun ε => col (val x (moved env δ ε) (.gquat m g i))) (Quat.dUpdate m g (env.quat m g i) *ᵥ δ (.quat m g i)) 0 := by
  have := (isMove_moved env δ).quat m g i
  rw [moved_zero] at this
  exact this

/-- A quaternion variable with the left-translated geometry reports no Jacobian at all, although its value moves. -/
theorem C58_left_geometry_counterexample (x : Ext) (env : Env) (m : Mode) (h : env.quat m .left 0 = Quat.identity m) :
    let e : Node (.G 4 1) := .gquat m .left 0
    jac x env e ⟨4, .id⟩ (none : Chain 4) = .ok [] ∧
      ∃ δ : Delta, ¬ VDeriv (fun ε => col (val x (moved env δ ε) e)) (total δ ([] : List (Contr 4))) 0 := by
  refine ⟨rfl, fun _ _ => 1, fun hd => ?_⟩
  have hu := (quat_deriv env (fun _ _ => 1) x m .left 0).unique hd
  rw [Quat.dUpdate_mulVec, h] at hu
  simp only [(Quat.C64_identity m _).2] at hu
  have h1 := congrFun hu m.ii
  cases hm : m.realFirst <;> simp [Quat.mk, hm, Mode.ii, total, (Quat.C64_identity m _).1] at h1

/-- Left multiplication of the exponential of a vector expression with a constant quaternion: the reported Jacobian misses
the multiplication (`ComposedMatrixDifferential::convertIntoMatrix` ignores the next differential). -/
theorem C58_composed_matrix_counterexample (x : Ext) (env : Env) (m : Mode) (hm : m = ⟨true, true⟩) (hx : x.dexp m 0 = dexp0 m)
    (h : env.vec 3 0 = 0) :
    let e : Node (.G 4 1) := .qmul m (.gconst (ofCol ![0, 1, 0, 0])) (.qexp m (.ofV (.vvar 3 0)))
    Smooth x env e ∧ ∃ L, jac x env e ⟨4, .id⟩ (none : Chain 4) = .ok L ∧
      ∃ δ : Delta, ¬ VDeriv (fun ε => col (val x (moved env δ ε) e)) (total δ L) 0 := by
  have hex := expOk_zero x m hx
  have hv : ∀ env : Env, col (val x env (.ofV (.vvar 3 0))) = env.vec 3 0 := fun _ => rfl
  refine ⟨⟨trivial, trivial, by rw [hv, h]; exact hex⟩, [⟨.vec 3 0, dexp0 m⟩], ?_, fun _ _ => 1, fun hd => ?_⟩
  · simp only [jac, cat, Diff.applyTo, Chain.get_none, Res.bind_ok, Matrix.one_mul, hv, h, hx, addId]
    simp [Var.dim, Chain.get_some]
  · have hc : VDeriv (fun ε => (moved env (fun _ _ => 1) ε).vec 3 0) (fun _ => 1) 0 := (isMove_moved env fun _ _ => 1).vec 3 0
    have h1 := hex _ _ 0 (by rw [moved_zero, h]) hc
    have h2 := Quat.deriv_mult m (Geo.VDeriv.const ![0, (1 : ℝ), 0, 0]) h1
    have hu := congrFun (h2.unique hd) 0
    rw [hx, dexp0_mulVec] at hu
    subst hm
    have ht : total (fun _ _ => 1) [(⟨.vec 3 0, dexp0 ⟨true, true⟩⟩ : Contr 4)] = Quat.mk ⟨true, true⟩ 1 1 1 0 := by
      rw [total, total, add_zero]
      exact dexp0_mulVec ⟨true, true⟩ fun _ => 1
    rw [ht] at hu
    simp [Quat.mk, Quat.mult, Quat.multTrad, Mode.ri, Mode.ii, Mode.ji, Mode.ki] at hu

/-- The hypotheses can be met. -/
example : ∃ (x : Ext) (env : Env), x.dexp ⟨true, true⟩ 0 = dexp0 ⟨true, true⟩ ∧ env.vec 3 0 = 0 :=
  ⟨ext0, ⟨fun _ => 0, fun _ _ => 0, fun _ _ => 0, fun m _ _ => Quat.identity m⟩, rfl, rfl⟩

/-! ### Reported design variables -/

/-- Two assignments agree on the variables of a list. -/
structure Agree (env env' : Env) (l : List Var) : Prop where
  sc : ∀ i, .sc i ∈ l → env.sc i = env'.sc i
  vec : ∀ n i, .vec n i ∈ l → env.vec n i = env'.vec n i
  gvec : ∀ n i, .gvec n i ∈ l → env.gvec n i = env'.gvec n i
  quat : ∀ m g i, .quat m g i ∈ l → env.quat m g i = env'.quat m g i

theorem Agree.mono {env env' : Env} {l l' : List Var} (h : Agree env env' l) (hl : ∀ v ∈ l', v ∈ l) : Agree env env' l' :=
  ⟨fun i hi => h.sc i (hl _ hi), fun n i hi => h.vec n i (hl _ hi), fun n i hi => h.gvec n i (hl _ hi), fun m g i hi => h.quat m g i (hl _ hi)⟩
theorem Agree.left {env env' : Env} {l l' : List Var} (h : Agree env env' (l ++ l')) : Agree env env' l :=
  h.mono fun v hv => List.mem_append_left _ hv
theorem Agree.right {env env' : Env} {l l' : List Var} (h : Agree env env' (l ++ l')) : Agree env env' l' :=
  h.mono fun v hv => List.mem_append_right _ hv

/-- The value of an expression is determined by the design variables it reports. -/
theorem C62_generic_depends (x : Ext) (env env' : Env) : ∀ {k : Kind} (e : Node k), Agree env env' (dvs e) → val x env e = val x env' e
  | _, .sconst _, _ => rfl
  | _, .svar i, h => h.sc i (by simp [dvs])
  | _, .sadd a b, h => by simp only [val, C62_generic_depends x env env' a h.left, C62_generic_depends x env env' b h.right]
  | _, .smul a b, h => by simp only [val, C62_generic_depends x env env' a h.left, C62_generic_depends x env env' b h.right]
  | _, .sofV v k, h => by simp only [val, C62_generic_depends x env env' v h]
  | _, .sofG g i j, h => by simp only [val, C62_generic_depends x env env' g h]
  | _, .sqn g, h => by simp only [val, C62_generic_depends x env env' g h]
  | _, .vconst _, _ => rfl
  | _, .vvar n i, h => h.vec n i (by simp [dvs])
  | _, .vstack (n := n) cs, h => by
    funext i
    exact C62_generic_depends x env env' (cs i) (h.mono fun v hv => by
      simp only [dvs, List.mem_flatMap]
      exact ⟨i, List.mem_finRange i, hv⟩)
  | _, .vadd a b, h => by simp only [val, C62_generic_depends x env env' a h.left, C62_generic_depends x env env' b h.right]
  | _, .vscale a b, h => by simp only [val, C62_generic_depends x env env' a h.left, C62_generic_depends x env env' b h.right]
  | _, .gconst _, _ => rfl
  | _, .gvar n i, h => by simp only [val, h.gvec n i (by simp [dvs])]
  | _, .gquat m g i, h => by simp only [val, h.quat m g i (by simp [dvs])]
  | _, .ofV a, h => by simp only [val, C62_generic_depends x env env' a h]
  | _, .ofS a, h => by simp only [val, C62_generic_depends x env env' a h]; rfl
  | _, .copy a, h => by simp only [val, C62_generic_depends x env env' a h]
  | _, .transpose a, h => by simp only [val, C62_generic_depends x env env' a h]
  | _, .inverse a, h => by simp only [val, C62_generic_depends x env env' a h]
  | _, .mul a b, h => by simp only [val, C62_generic_depends x env env' a h.left, C62_generic_depends x env env' b h.right]
  | _, .add a b, h => by simp only [val, C62_generic_depends x env env' a h.left, C62_generic_depends x env env' b h.right]
  | _, .sub a b, h => by simp only [val, C62_generic_depends x env env' a h.left, C62_generic_depends x env env' b h.right]
  | _, .neg a, h => by simp only [val, C62_generic_depends x env env' a h]
  | _, .scaleS a b, h => by simp only [val, C62_generic_depends x env env' a h.left, C62_generic_depends x env env' b h.right]
  | _, .scale a _, h => by simp only [val, C62_generic_depends x env env' a h]
  | _, .crossL a b, h => by simp only [val, C62_generic_depends x env env' a h.left, C62_generic_depends x env env' b h.right]
  | _, .crossR a b, h => by simp only [val, C62_generic_depends x env env' a h.left, C62_generic_depends x env env' b h.right]
  | _, .qmul _ a b, h => by simp only [val, C62_generic_depends x env env' a h.left, C62_generic_depends x env env' b h.right]
  | _, .qinv _ a, h => by simp only [val, C62_generic_depends x env env' a h]
  | _, .qconj _ a, h => by simp only [val, C62_generic_depends x env env' a h]
  | _, .qimag _ a, h => by simp only [val, C62_generic_depends x env env' a h]
  | _, .qrot _ a b, h => by simp only [val, C62_generic_depends x env env' a h.left, C62_generic_depends x env env' b h.right]
  | _, .qlog _ a, h => by simp only [val, C62_generic_depends x env env' a h]
  | _, .qexp _ a, h => by simp only [val, C62_generic_depends x env env' a h]

/-- All Jacobians of a result belong to variables of a list. -/
def Within {R : Nat} (r : Res (List (Contr R))) (l : List Var) : Prop := ∀ L, r = .ok L → ∀ c ∈ L, c.v ∈ l

theorem Within.nil {R : Nat} (l : List Var) : Within (.ok [] : Res (List (Contr R))) l := by
  intro L h; cases h; simp
theorem Within.addId {R : Nat} (ch : Chain R) (v : Var) : Within (addId ch v) [v] := by
  intro L h
  unfold GenExpr.addId at h
  split at h
  · cases h; simp
  · cases h
theorem Within.addJ {R k : Nat} (ch : Chain R) (v : Var) (J : Mat k v.dim) : Within (addJ ch v J) [v] := by
  intro L h
  unfold GenExpr.addJ at h
  split at h
  · cases h; simp
  · cases h
theorem Within.addByApplication {R m : Nat} (ch : Chain R) (v : Var) (d : Diff v.dim 1 m) : Within (addByApplication ch v d) [v] := by
  unfold GenExpr.addByApplication
  split
  · exact Within.addJ ch v _
  · intro L h; cases h
theorem Within.cat {R : Nat} {a b : Res (List (Contr R))} {l l' : List Var} (ha : Within a l) (hb : Within b l') :
    Within (cat a b) (l ++ l') := by
  intro L h c hc
  cases a with
  | ok A => cases b with
    | ok B =>
      simp only [GenExpr.cat, Res.bind_ok, Res.ok.injEq] at h
      subst h
      rcases List.mem_append.mp hc with h | h
      · exact List.mem_append_left _ (ha A rfl c h)
      · exact List.mem_append_right _ (hb B rfl c h)
    | exc => cases h
    | ub => cases h
  | exc => cases h
  | ub => cases h
theorem Within.bind {R : Nat} {α : Type} {a : Res α} {f : α → Res (List (Contr R))} {l : List Var} (h : ∀ y, Within (f y) l) :
    Within (a >>= f) l := by
  cases a with
  | ok y => exact h y
  | exc => intro L h; cases h
  | ub => intro L h; cases h
theorem Within.catAll {R : Nat} {ι : Type} (is : List ι) (f : ι → Res (List (Contr R))) (l : ι → List Var) (h : ∀ i, Within (f i) (l i)) :
    Within (catAll (is.map f)) (is.flatMap l) := by
  induction is with
  | nil => exact Within.nil _
  | cons i is ih => exact (h i).cat ih

/-- Every variable which receives a Jacobian is reported, whatever the container, chain rule and differential. -/
theorem C62_generic_reported (x : Ext) (env : Env) {R : Nat} : ∀ {k : Kind} (e : Node k) (a : Arg k) (ch : Chain R),
    Within (jac x env e a ch) (dvs e)
  | _, .sconst _, _, _ => by rw [jac]; exact Within.nil _
  | _, .svar i, _, ch => by rw [jac]; exact Within.addId ch _
  | _, .sadd a b, _, ch => by rw [jac]; exact (C62_generic_reported x env a _ _).cat (C62_generic_reported x env b _ _)
  | _, .smul a b, _, ch => by rw [jac]; exact (C62_generic_reported x env a _ _).cat (C62_generic_reported x env b _ _)
  | _, .sofV v k, _, ch => by rw [jac]; exact Within.bind fun _ => C62_generic_reported x env v _ _
  | _, .sofG g i j, _, ch => by rw [jac]; exact C62_generic_reported x env g _ _
  | _, .sqn g, _, ch => by rw [jac]; exact Within.bind fun _ => C62_generic_reported x env g _ _
  | _, .vconst _, _, _ => by rw [jac]; exact Within.nil _
  | _, .vvar n i, _, ch => by rw [jac]; exact Within.addId ch _
  | _, .vstack (n := n) cs, _, ch => by
    rw [jac]; exact Within.catAll _ _ _ fun i => Within.bind fun _ => C62_generic_reported x env (cs i) _ _
  | _, .vadd a b, _, ch => by rw [jac]; exact (C62_generic_reported x env a _ _).cat (C62_generic_reported x env b _ _)
  | _, .vscale a b, _, ch => by
    rw [jac]; exact (C62_generic_reported x env a _ _).cat (Within.bind fun _ => C62_generic_reported x env b _ _)
  | _, .gconst _, _, _ => by rw [jac]; exact Within.nil _
  | _, .gvar n i, ⟨m, d⟩, ch => by
    rw [jac]
    unfold Diff.addTo
    split
    · exact Within.addId ch _
    · exact Within.addJ ch _ _
    · exact Within.addByApplication ch _ _
    · exact Within.addByApplication ch _ _
  | _, .gquat md .right i, ⟨m, d⟩, ch => by
    rw [jac]
    unfold Diff.addToJ
    split
    · exact Within.addJ ch _ _
    · exact Within.addJ ch _ _
    · exact Within.addByApplication ch _ _
    · exact Within.addByApplication ch _ _
  | _, .gquat _ .left _, _, _ => by rw [jac]; exact Within.nil _
  | _, .ofV a, ⟨m, d⟩, ch => by rw [jac]; exact Within.bind fun _ => C62_generic_reported x env a _ _
  | _, .ofS a, ⟨m, d⟩, ch => by rw [jac]; exact Within.bind fun _ => C62_generic_reported x env a _ _
  | _, .copy a, ⟨m, d⟩, ch => by rw [jac]; exact C62_generic_reported x env a _ _
  | _, .transpose a, ⟨m, d⟩, ch => by rw [jac]; exact C62_generic_reported x env a _ _
  | _, .inverse a, ⟨m, d⟩, ch => by rw [jac]; exact C62_generic_reported x env a _ _
  | _, .mul a b, ⟨m, d⟩, ch => by rw [jac]; exact (C62_generic_reported x env a _ _).cat (C62_generic_reported x env b _ _)
  | _, .add a b, ⟨m, d⟩, ch => by rw [jac]; exact (C62_generic_reported x env a _ _).cat (C62_generic_reported x env b _ _)
  | _, .sub a b, ⟨m, d⟩, ch => by rw [jac]; exact (C62_generic_reported x env a _ _).cat (C62_generic_reported x env b _ _)
  | _, .neg a, ⟨m, d⟩, ch => by rw [jac]; exact C62_generic_reported x env a _ _
  | _, .scaleS a b, ⟨m, d⟩, ch => by
    rw [jac]; exact (C62_generic_reported x env a _ _).cat (Within.bind fun _ => C62_generic_reported x env b _ _)
  | _, .scale a _, ⟨m, d⟩, ch => by rw [jac]; exact C62_generic_reported x env a _ _
  | _, .crossL a b, ⟨m, d⟩, ch => by rw [jac]; exact (C62_generic_reported x env a _ _).cat (C62_generic_reported x env b _ _)
  | _, .crossR a b, ⟨m, d⟩, ch => by rw [jac]; exact (C62_generic_reported x env a _ _).cat (C62_generic_reported x env b _ _)
  | _, .qmul _ a b, ⟨m, d⟩, ch => by rw [jac]; exact (C62_generic_reported x env a _ _).cat (C62_generic_reported x env b _ _)
  | _, .qinv _ a, ⟨m, d⟩, ch => by rw [jac]; exact C62_generic_reported x env a _ _
  | _, .qconj _ a, ⟨m, d⟩, ch => by rw [jac]; exact C62_generic_reported x env a _ _
  | _, .qimag _ a, ⟨m, d⟩, ch => by rw [jac]; exact C62_generic_reported x env a _ _
  | _, .qrot _ a b, ⟨m, d⟩, ch => by rw [jac]; exact (C62_generic_reported x env a _ _).cat (C62_generic_reported x env b _ _)
  | _, .qlog _ a, ⟨m, d⟩, ch => by rw [jac]; exact C62_generic_reported x env a _ _
  | _, .qexp _ a, ⟨m, d⟩, ch => by rw [jac]; exact C62_generic_reported x env a _ _

/-- A variable which is not reported may take any value. -/
example (x : Ext) (env : Env) (A : Mat 3 3) : val x env (.mul (.gconst A) (.gvar 3 0)) =
    val x { env with gvec := fun n i => if n = 3 ∧ i = 0 then env.gvec n i else 0 } (.mul (.gconst A) (.gvar 3 0)) :=
  C62_generic_depends x _ _ _ ⟨by simp [dvs], by simp [dvs], by simp [dvs], by simp [dvs]⟩

end Verif.GenExpr
