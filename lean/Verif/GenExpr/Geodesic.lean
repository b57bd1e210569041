import Verif.GenExpr.Props
import Verif.GenExpr.LogExp

/-!
Geodesics of unit quaternions: `geoLog` and `geoExp`. Q = aslam_backend_expressions/include/aslam/backend/implementation/QuaternionExpression.hpp.
-/
namespace Verif.GenExpr
open Verif.Geo (VDeriv MDeriv)
open Verif.Quat (Mode Geometry Q4)
open Matrix

/-- `geoLog<EGeometry>(other)` of a unit quaternion expression, Q:355-364; `inverse()` of such an expression is its conjugate (QuaternionExpression.hpp:143-148).
The debug assertions on unit norms (QuaternionExpression.hpp:166-169) are hypotheses of the theorems. -/
def geoLog (m : Mode) (g : Geometry) (p q : Node (.G 4 1)) : Node (.G 3 1) :=
  match g with
  | .left => .qlog m (.qmul m (.qconj m p) q)
  | .right => .qlog m (.qmul m q (.qconj m p))

/-- `geoExp<EGeometry>(tangentVector)`, Q:366-375. -/
def geoExp (m : Mode) (g : Geometry) (p : Node (.G 4 1)) (v : Node (.G 3 1)) : Node (.G 4 1) :=
  match g with
  | .left => .qmul m p (.qexp m v)
  | .right => .qmul m (.qexp m v) p

/-- What is asked of the external logarithm: it inverts the exponential up to the sign of the quaternion, which is the same rotation, it undoes the
exponential of vectors shorter than a right angle, and the logarithm of the conjugate is the negative. -/
structure LogSpec (x : Ext) : Prop where
  exp_log : ∀ m q, Quat.dot4 q q = 1 → Quat.exp m (x.log m q) = q ∨ Quat.exp m (x.log m q) = -q
  log_exp : ∀ m v, v 0 ^ 2 + v 1 ^ 2 + v 2 ^ 2 < (Real.pi / 2) ^ 2 → x.log m (Quat.exp m v) = v
  log_conj : ∀ m q, Quat.dot4 q q = 1 → x.log m (Quat.conjugate m q) = -x.log m q

theorem convert_back (m m' : Mode) (q : Q4 ℝ) : Quat.convert m' m (Quat.convert m m' q) = q :=
  Quat.toH_injective m (by rw [Quat.toH_convert, Quat.toH_convert])

theorem smExt_logSpec : LogSpec smExt where
  exp_log m q h := by
    have h' : Quat.dot4 (Quat.convert m ⟨false, true⟩ q) (Quat.convert m ⟨false, true⟩ q) = 1 := by
      rw [Quat.dot4_eq ⟨false, true⟩, Quat.toH_convert, ← Quat.dot4_eq, h]
    have neg : ∀ r : Q4 ℝ, Quat.convert ⟨false, true⟩ m (-r) = -Quat.convert ⟨false, true⟩ m r := fun r =>
      Quat.toH_injective m (by rw [Quat.toH_neg, Quat.toH_convert, Quat.toH_convert, Quat.toH_neg])
    show Quat.convert ⟨false, true⟩ m _ = _ ∨ Quat.convert ⟨false, true⟩ m _ = _
    rcases exp_logLast _ h' with e | e
    · left
      exact (congrArg _ e).trans (convert_back m _ q)
    · right
      exact (congrArg _ e).trans (by rw [neg, convert_back])
  log_exp m v h := by
    show logLast (Quat.convert m ⟨false, true⟩ (Quat.convert ⟨false, true⟩ m _)) = v
    rw [convert_back]
    refine logLast_exp v ?_
    have := len3_sq (v 0) (v 1) (v 2)
    have h0 := len3_nonneg (v 0) (v 1) (v 2)
    nlinarith [Real.pi_pos]
  log_conj m q _ := by
    show logLast (Quat.convert m ⟨false, true⟩ (Quat.conjugate m q)) = -logLast (Quat.convert m ⟨false, true⟩ q)
    rw [← logLast_conj]
    congr 1
    funext k
    cases hm : m.realFirst <;> fin_cases k <;> simp [Quat.convert, Quat.conjugate, Quat.mk, hm, Mode.ri, Mode.ii, Mode.ji, Mode.ki]

variable {x : Ext} {env : Env} {m : Mode} {p q r : Node (.G 4 1)} {v : Node (.G 3 1)}

/-- The value of a column expression as a vector. -/
noncomputable abbrev vec (x : Ext) (env : Env) {n : Nat} (e : Node (.G n 1)) : Fin n → ℝ := col (val x env e)

theorem vec_geoLog (g : Geometry) : vec x env (geoLog m g p q) =
    match g with
    | .left => x.log m (Quat.mult m (Quat.conjugate m (vec x env p)) (vec x env q))
    | .right => x.log m (Quat.mult m (vec x env q) (Quat.conjugate m (vec x env p))) := by
  cases g <;> simp only [vec, geoLog, val, col_ofCol]

theorem vec_geoExp (g : Geometry) : vec x env (geoExp m g p v) = Quat.update m g (vec x env p) (vec x env v) := by
  cases g <;> simp only [vec, geoExp, val, col_ofCol, Quat.update]

/-- `geoExp` is what `update` of a unit quaternion design variable of the same geometry does, and gives a unit quaternion. -/
theorem C127_update (g : Geometry) (i : Nat) (hp : Quat.dot4 (env.quat m g i) (env.quat m g i) = 1) :
    vec x env (geoExp m g (.gquat m g i) v) = Quat.update m g (env.quat m g i) (vec x env v) ∧
    Quat.dot4 (vec x env (geoExp m g (.gquat m g i) v)) (vec x env (geoExp m g (.gquat m g i) v)) = 1 := by
  have e : vec x env (geoExp m g (.gquat m g i) v) = Quat.update m g (env.quat m g i) (vec x env v) := by
    rw [vec_geoExp]
    simp only [vec, val, col_ofCol]
  exact ⟨e, by rw [e]; exact (Quat.C64_update m g _ _ hp).1⟩

theorem mult_conj_self (a b : Q4 ℝ) (h : Quat.dot4 a a = 1) : Quat.mult m a (Quat.mult m (Quat.conjugate m a) b) = b := by
  rw [← Quat.C64_associative, (Quat.C64_conjugate m a).1, h, one_smul, (Quat.C64_identity m b).1]

theorem conj_mult_self (a b : Q4 ℝ) (h : Quat.dot4 a a = 1) : Quat.mult m (Quat.conjugate m a) (Quat.mult m a b) = b := by
  rw [← Quat.C64_associative, (Quat.C64_conjugate m a).2, h, one_smul, (Quat.C64_identity m b).1]

theorem mult_self_conj (a b : Q4 ℝ) (h : Quat.dot4 a a = 1) : Quat.mult m (Quat.mult m b a) (Quat.conjugate m a) = b := by
  rw [Quat.C64_associative, (Quat.C64_conjugate m a).1, h, one_smul, (Quat.C64_identity m b).2]

theorem mult_conj_mult (a b : Q4 ℝ) (h : Quat.dot4 a a = 1) : Quat.mult m (Quat.mult m b (Quat.conjugate m a)) a = b := by
  rw [Quat.C64_associative, (Quat.C64_conjugate m a).2, h, one_smul, (Quat.C64_identity m b).2]

theorem mult_neg' (a b : Q4 ℝ) : Quat.mult m a (-b) = -Quat.mult m a b :=
  Quat.toH_injective m (by rw [Quat.toH_neg, Quat.toH_mult, Quat.toH_mult, Quat.toH_neg, Quat.prod_neg])

theorem neg_mult' (a b : Q4 ℝ) : Quat.mult m (-a) b = -Quat.mult m a b :=
  Quat.toH_injective m (by rw [Quat.toH_neg, Quat.toH_mult, Quat.toH_mult, Quat.toH_neg, Quat.neg_prod])

theorem dot_conj (a : Q4 ℝ) : Quat.dot4 (Quat.conjugate m a) (Quat.conjugate m a) = Quat.dot4 a a := Quat.dot4_conjugate m a

theorem rotate_neg (a : Q4 ℝ) (u : Fin 3 → ℝ) : Quat.rotate m (-a) u = Quat.rotate m a u := by
  refine Quat.pure_injective ?_
  rw [Quat.toH_rotate, Quat.toH_rotate, Quat.toH_neg, star_neg, Quat.prod_neg, Quat.neg_prod, Quat.neg_prod, neg_neg]

/-- Moving from `p` along `geoLog(p, q)` reaches `q` or `-q`, which rotate every vector alike. -/
theorem C127_reaches (hx : LogSpec x) (g : Geometry) (hp : Quat.dot4 (vec x env p) (vec x env p) = 1) (hq : Quat.dot4 (vec x env q) (vec x env q) = 1) :
    (vec x env (geoExp m g p (geoLog m g p q)) = vec x env q ∨ vec x env (geoExp m g p (geoLog m g p q)) = -vec x env q) ∧
    ∀ u, Quat.rotate m (vec x env (geoExp m g p (geoLog m g p q))) u = Quat.rotate m (vec x env q) u := by
  have h : vec x env (geoExp m g p (geoLog m g p q)) = vec x env q ∨ vec x env (geoExp m g p (geoLog m g p q)) = -vec x env q := by
    rw [vec_geoExp, vec_geoLog]
    cases g
    · have hu : Quat.dot4 (Quat.mult m (Quat.conjugate m (vec x env p)) (vec x env q)) (Quat.mult m (Quat.conjugate m (vec x env p)) (vec x env q)) = 1 := by
        rw [Quat.C64_norm, dot_conj, hp, hq, one_mul]
      simp only [Quat.update]
      rcases hx.exp_log m _ hu with e | e
      · left; rw [e, mult_conj_self _ _ hp]
      · right; rw [e, mult_neg', mult_conj_self _ _ hp]
    · have hu : Quat.dot4 (Quat.mult m (vec x env q) (Quat.conjugate m (vec x env p))) (Quat.mult m (vec x env q) (Quat.conjugate m (vec x env p))) = 1 := by
        rw [Quat.C64_norm, dot_conj, hp, hq, one_mul]
      simp only [Quat.update]
      rcases hx.exp_log m _ hu with e | e
      · left; rw [e, mult_conj_mult _ _ hp]
      · right; rw [e, neg_mult', mult_conj_mult _ _ hp]
  refine ⟨h, fun u => ?_⟩
  rcases h with e | e
  · rw [e]
  · rw [e, rotate_neg]

/-- `geoLog` recovers the tangent vector of `geoExp` when it is shorter than a right angle; in particular a quaternion is at distance zero from itself. -/
theorem C127_recovers (hx : LogSpec x) (g : Geometry) (hp : Quat.dot4 (vec x env p) (vec x env p) = 1)
    (hv : vec x env v 0 ^ 2 + vec x env v 1 ^ 2 + vec x env v 2 ^ 2 < (Real.pi / 2) ^ 2) :
    vec x env (geoLog m g p (geoExp m g p v)) = vec x env v ∧ vec x env (geoLog m g p p) = 0 := by
  have h0 : ∀ m, x.log m (Quat.identity m) = 0 := fun m => by
    rw [← Quat.exp_zero m]
    exact hx.log_exp m 0 (by have := Real.pi_pos; simp only [Pi.zero_apply]; nlinarith)
  cases g
  · rw [vec_geoLog, vec_geoLog, vec_geoExp]
    simp only [Quat.update]
    rw [conj_mult_self _ _ hp, (Quat.C64_conjugate m (vec x env p)).2, hp, one_smul]
    exact ⟨hx.log_exp m _ hv, h0 m⟩
  · rw [vec_geoLog, vec_geoLog, vec_geoExp]
    simp only [Quat.update]
    rw [mult_self_conj _ _ hp, (Quat.C64_conjugate m (vec x env p)).1, hp, one_smul]
    exact ⟨hx.log_exp m _ hv, h0 m⟩

theorem conj_mult (a b : Q4 ℝ) : Quat.conjugate m (Quat.mult m a b) = Quat.mult m (Quat.conjugate m b) (Quat.conjugate m a) :=
  Quat.toH_injective m (by rw [Quat.toH_conjugate, Quat.toH_mult, Quat.star_prod, Quat.toH_mult, Quat.toH_conjugate, Quat.toH_conjugate])

theorem conj_conj (a : Q4 ℝ) : Quat.conjugate m (Quat.conjugate m a) = a :=
  Quat.toH_injective m (by rw [Quat.toH_conjugate, Quat.toH_conjugate, star_star])

/-- The way back is the negative of the way there. -/
theorem C127_reverse (hx : LogSpec x) (g : Geometry) (hp : Quat.dot4 (vec x env p) (vec x env p) = 1) (hq : Quat.dot4 (vec x env q) (vec x env q) = 1) :
    vec x env (geoLog m g q p) = -vec x env (geoLog m g p q) := by
  cases g
  · rw [vec_geoLog, vec_geoLog]
    simp only
    rw [← hx.log_conj m _ (by rw [Quat.C64_norm, dot_conj, hp, hq, one_mul]), conj_mult, conj_conj]
  · rw [vec_geoLog, vec_geoLog]
    simp only
    rw [← hx.log_conj m _ (by rw [Quat.C64_norm, dot_conj, hp, hq, one_mul]), conj_mult, conj_conj]

/-- The left-translated geometry does not change when both quaternions are multiplied from the left, the right-translated one when they are multiplied
from the right. -/
theorem C127_invariant (hr : Quat.dot4 (vec x env r) (vec x env r) = 1) :
    vec x env (geoLog m .left (.qmul m r p) (.qmul m r q)) = vec x env (geoLog m .left p q) ∧
    vec x env (geoLog m .right (.qmul m p r) (.qmul m q r)) = vec x env (geoLog m .right p q) := by
  have e : ∀ a b, vec x env (.qmul m a b) = Quat.mult m (vec x env a) (vec x env b) := fun a b => by simp only [vec, val, col_ofCol]
  constructor
  · rw [vec_geoLog, vec_geoLog]
    simp only
    rw [e, e, conj_mult, Quat.C64_associative, conj_mult_self _ _ hr]
  · rw [vec_geoLog, vec_geoLog]
    simp only
    rw [e, e, conj_mult, ← Quat.C64_associative, mult_self_conj _ _ hr]

theorem exp_add (w : Fin 3 → ℝ) (s t : ℝ) : Quat.mult m (Quat.exp m fun k => s * w k) (Quat.exp m fun k => t * w k) = Quat.exp m fun k => (s + t) * w k := by
  set ν := Real.sqrt (w 0 * w 0 + w 1 * w 1 + w 2 * w 2) with hν
  have hsq : ν * ν = w 0 * w 0 + w 1 * w 1 + w 2 * w 2 := Real.mul_self_sqrt (sq_nonneg3 _ _ _)
  have H : ∀ ε, Quat.toH m (Quat.exp m fun k => ε * w k) =
      Quat.h4 (Real.cos (ε * ν)) (w 0 * (Real.sin (ε * ν) / ν)) (w 1 * (Real.sin (ε * ν) / ν)) (w 2 * (Real.sin (ε * ν) / ν)) := by
    intro ε
    rw [Quat.exp, Quat.toH_convert, Quat.axisAngle_line]
    rfl
  refine Quat.toH_injective m ?_
  have hs : Real.sin ((s + t) * ν) = Real.sin (s * ν) * Real.cos (t * ν) + Real.cos (s * ν) * Real.sin (t * ν) := by rw [add_mul, Real.sin_add]
  have hc : Real.cos ((s + t) * ν) = Real.cos (s * ν) * Real.cos (t * ν) - Real.sin (s * ν) * Real.sin (t * ν) := by rw [add_mul, Real.cos_add]
  rw [Quat.toH_mult, H, H, H, hs, hc]
  have hcos : Real.sin (s * ν) * Real.sin (t * ν) =
      (w 0 * w 0 + w 1 * w 1 + w 2 * w 2) * (Real.sin (s * ν) / ν) * (Real.sin (t * ν) / ν) := by
    rw [← hsq]
    by_cases h0 : ν = 0
    · simp [h0]
    · field_simp
  rw [hcos]
  unfold Quat.prod
  split <;> ext <;> simp <;> ring

/-- Two pieces of a geodesic make one: moving by `s w` and from there by `t w` is moving by `(s + t) w`. -/
theorem C127_line (g : Geometry) (w : Fin 3 → ℝ) (s t : ℝ) :
    vec x env (geoExp m g (geoExp m g p (.gconst (ofCol fun k => s * w k))) (.gconst (ofCol fun k => t * w k))) =
      vec x env (geoExp m g p (.gconst (ofCol fun k => (s + t) * w k))) := by
  have e : ∀ c : ℝ, vec x env (.gconst (ofCol fun k => c * w k)) = fun k => c * w k := fun c => by simp only [vec, val, col_ofCol]
  rw [vec_geoExp, vec_geoExp, vec_geoExp, e, e, e]
  cases g
  · simp only [Quat.update]
    rw [Quat.C64_associative, exp_add]
  · simp only [Quat.update]
    rw [← Quat.C64_associative, exp_add, add_comm]

/-- The Jacobians of `geoLog` between two unit quaternion design variables and of `geoExp` from one of them along a generic vector are the derivatives of
the values under `update` of the variables, if the external Jacobians of `exp` and `log` are right at the values in question.  Partial: the design variables
are right-translated; Jacobians of left-translated ones are wrong, see `C58_left_geometry_counterexample`. -/
theorem C127_jacobians_partial (g : Geometry) (i j : Nat) (δ : Delta)
    (hl : LogOk x m (match g with
      | .left => Quat.mult m (Quat.conjugate m (env.quat m .right i)) (env.quat m .right j)
      | .right => Quat.mult m (env.quat m .right j) (Quat.conjugate m (env.quat m .right i))))
    (he : ExpOk x m (env.gvec 3 j)) :
    (∃ L, jac x env (geoLog m g (.gquat m .right i) (.gquat m .right j)) ⟨3, .id⟩ (none : Chain 3) = .ok L ∧
      VDeriv (fun ε => vec x (moved env δ ε) (geoLog m g (.gquat m .right i) (.gquat m .right j))) (total δ L) 0) ∧
    ∃ L, jac x env (geoExp m g (.gquat m .right i) (.gvar 3 j)) ⟨4, .id⟩ (none : Chain 4) = .ok L ∧
      VDeriv (fun ε => vec x (moved env δ ε) (geoExp m g (.gquat m .right i) (.gvar 3 j))) (total δ L) 0 := by
  constructor
  · refine C58_vector_partial x env δ _ ?_ ?_
    · cases g
      · refine ⟨⟨trivial, trivial⟩, ?_⟩
        simpa only [val, col_ofCol] using hl
      · refine ⟨⟨trivial, trivial⟩, ?_⟩
        simpa only [val, col_ofCol] using hl
    · cases g <;> simp [geoLog, Safe]
  · refine C58_vector_partial x env δ _ ?_ ?_
    · cases g
      · refine ⟨trivial, trivial, ?_⟩
        simpa only [val, col_ofCol] using he
      · refine ⟨⟨trivial, ?_⟩, trivial⟩
        simpa only [val, col_ofCol] using he
    · cases g <;> simp [geoExp, Safe]

/-- The hypotheses can be met: the functions `smExt`, two unit quaternions, and a tangent vector. -/
example : ∃ (x : Ext) (env : Env), LogSpec x ∧ (∀ p, ExpOk x ⟨false, true⟩ p) ∧
    let p : Node (.G 4 1) := .gquat ⟨false, true⟩ .right 0
    let q : Node (.G 4 1) := .gquat ⟨false, true⟩ .right 1
    let v : Node (.G 3 1) := .gvar 3 0
    Quat.dot4 (vec x env p) (vec x env p) = 1 ∧ Quat.dot4 (vec x env q) (vec x env q) = 1 ∧ vec x env p ≠ vec x env q ∧ vec x env v ≠ 0 ∧
    vec x env v 0 ^ 2 + vec x env v 1 ^ 2 + vec x env v 2 ^ 2 < (Real.pi / 2) ^ 2 ∧
    LogOk x ⟨false, true⟩ (Quat.mult ⟨false, true⟩ (vec x env q) (Quat.conjugate ⟨false, true⟩ (vec x env p))) := by
  refine ⟨smExt, ⟨fun _ => 0, fun _ _ _ => 0, fun _ _ _ => 1 / 2, fun _ _ i => if i = 0 then ![0, 0, 0, 1] else ![3 / 5, 0, 0, 4 / 5]⟩, smExt_logSpec,
    smExt_expOk _, ?_, ?_, ?_, ?_, ?_, ?_⟩
  · simp [vec, val, col_ofCol, Quat.dot4]
  · simp [vec, val, col_ofCol, Quat.dot4]; norm_num
  · intro h
    have := congrFun h 0
    simp [vec, val, col_ofCol] at this
    norm_num at this
  · intro h
    have := congrFun h 0
    simp [vec, val, col_ofCol] at this
  · simp [vec, val, col_ofCol]
    nlinarith [Real.two_le_pi]
  · have e : ∀ a : Q4 ℝ, Quat.mult ⟨false, true⟩ a (Quat.conjugate ⟨false, true⟩ ![0, 0, 0, 1]) = a := by
      intro a
      funext k
      fin_cases k <;> simp [Quat.mult, Quat.multTrad, Quat.mk, Quat.conjugate, Mode.ri, Mode.ii, Mode.ji, Mode.ki]
    simp only [vec, val, col_ofCol]
    rw [if_pos trivial, if_neg (by decide), e]
    refine smExt_logOk _ _ (by simp [Quat.dot4]; norm_num) ?_
    have : len3 (3 / 5) 0 0 = 3 / 5 := by
      rw [len3, show (3 / 5 * (3 / 5) + 0 * 0 + 0 * 0 : ℝ) = (3 / 5) ^ 2 by norm_num, Real.sqrt_sq (by norm_num)]
    simp [Mode.ri, Mode.ii, Mode.ji, Mode.ki, this]
    rw [abs_of_pos (by norm_num)]
    norm_num

end Verif.GenExpr
