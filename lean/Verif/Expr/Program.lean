import Verif.Expr.Operators

/-!
C133: programs which assign expressions to variables with the public operators and constructors of scalar, Euclidean, rotation, transformation, homogeneous and matrix expressions
(lines as in `Handle.lean`). A variable used twice is a shared subexpression.
-/
namespace Verif.Expr
open Matrix Verif.Geo Filter Topology

/-! ### Model -/

/-- Functions of one scalar expression, overloads with a number included (S':71-106, 151-207). -/
inductive Fn1
  | neg | addc (x : ℝ) | subc (x : ℝ) | mulc (x : ℝ) | divc (x : ℝ) | cdiv (x : ℝ)
  | sqrt | log | exp | atan | tanh | sin | cos | acos | acosSquared | inverseSigmoid (height scale shift : ℝ) | power (k : ℤ)

/-- Functions of two scalar expressions (S':61-111, 176-179, 209-212). -/
inductive Fn2
  | add | sub | mul | div | atan2 | piecewise (cond : Env → Bool)

/-- Right-hand sides of assignments: the operators, functions and constructors of E', R', T', H', M' and S' (lines at `Rhs.build`). Operands are variables of their type. -/
inductive Rhs : Ty → Type
  | svar (i : Nat) : Rhs .S
  | sconst (x : ℝ) : Rhs .S
  | fn1 (f : Fn1) (a : Nat) : Rhs .S
  | fn2 (f : Fn2) (a b : Nat) : Rhs .S
  | component (k : Fin 3) (p : Nat) : Rhs .S
  | evar (i : Nat) : Rhs .E
  | econst (v : V3) : Rhs .E
  | stack (a b c : Nat) : Rhs .E
  | add (a b : Nat) : Rhs .E
  | sub (a b : Nat) : Rhs .E
  | subVec (a : Nat) (v : V3) : Rhs .E
  | neg (a : Nat) : Rhs .E
  | scale (p s : Nat) : Rhs .E
  | cross (a b : Nat) : Rhs .E
  | elementwise (a b : Nat) : Rhs .E
  | rotate (r p : Nat) : Rhs .E
  | matMul (m p : Nat) : Rhs .E
  | transform (T p : Nat) : Rhs .E
  | translation (T : Nat) : Rhs .E
  | toEuc (h : Nat) : Rhs .E
  | rvar (i : Nat) : Rhs .R
  | rconst (C : M3) : Rhs .R
  | axis (k : Fin 3) (s : Nat) : Rhs .R
  | rmul (a b : Nat) : Rhs .R
  | rinv (a : Nat) : Rhs .R
  | rotation (T : Nat) : Rhs .R
  | tconst (P : Pose) : Rhs .T
  | transformation (r p : Nat) : Rhs .T
  | tmul (a b : Nat) : Rhs .T
  | tinv (a : Nat) : Rhs .T
  | hvar (i : Nat) : Rhs .H
  | hconst (v : V3 × ℝ) : Rhs .H
  | toHom (p : Nat) : Rhs .H
  | tmulH (T h : Nat) : Rhs .H
  | mvar (i : Nat) (free : List (Fin 3 × Fin 3)) : Rhs .M
  | copy {ty : Ty} (a : Nat) : Rhs ty

/-- An assignment to the variable `dst` of an expression class. Copies share the pointer `_root` (`include/aslam/backend/EuclideanExpression.hpp`, `RotationExpression.hpp`, ...: implicit copy assignment). -/
structure Assign where
  ty : Ty
  dst : Nat
  rhs : Rhs ty

/-- The variables of the caller, each an object with the member `_root` (`include/aslam/backend/VectorExpression.hpp:55`, `RotationExpression.hpp:66`, `TransformationExpression.hpp:58`), and how many assignments were made; simplification: the node a right-hand side makes is identified by this number, in the code by its address. -/
structure Vars where
  reg : (ty : Ty) → Nat → Handle ty
  made : Nat

/-- All variables are default-constructed: an empty `_root` (`include/aslam/backend/VectorExpression.hpp:23`). -/
def Vars.start : Vars := ⟨fun _ _ => none, 0⟩

/-- S':71-106, 151-207. -/
def Fn1.build : Fn1 → Handle .S → Res (Handle .S)
  | .neg, a => Handle.sneg a
  | .addc x, a => Handle.saddc a x
  | .subc x, a => Handle.ssubc a x
  | .mulc x, a => Handle.smulc a x
  | .divc x, a => Handle.sdivc a x
  | .cdiv x, a => Handle.scdiv x a
  | .sqrt, a => Handle.sqrt a
  | .log, a => Handle.log a
  | .exp, a => Handle.exp a
  | .atan, a => Handle.atan a
  | .tanh, a => Handle.tanh a
  | .sin, a => Handle.sin a
  | .cos, a => Handle.cos a
  | .acos, a => Handle.acos a
  | .acosSquared, a => Handle.acosSquared a
  | .inverseSigmoid h s c, a => Handle.inverseSigmoid h s c a
  | .power k, a => Handle.power k a

/-- S':61-111, 176-179, 209-212. -/
def Fn2.build : Fn2 → Handle .S → Handle .S → Res (Handle .S)
  | .add, a, b => Handle.sadd a b
  | .sub, a, b => Handle.ssub a b
  | .mul, a, b => Handle.smul a b
  | .div, a, b => Handle.sdiv a b
  | .atan2, a, b => Handle.atan2 a b
  | .piecewise cond, a, b => Handle.piecewise cond a b

/-- The value of the right-hand side; a new node with members gets the number `s.made` (E', R', T', H', M', S' as in `Handle.lean`; constants and stacked scalars: V':17-26, R':27-30, T':27-30; `axis`: `include/aslam/backend/RotationScalarExpressionNode.hpp:20-22`). -/
def Rhs.build (s : Vars) : {ty : Ty} → Rhs ty → Res (Handle ty)
  | _, .svar i => .ok (some (.svar i))
  | _, .sconst x => .ok (some (.sconst x))
  | _, .fn1 f a => f.build (s.reg .S a)
  | _, .fn2 f a b => f.build (s.reg .S a) (s.reg .S b)
  | _, .component k p => Handle.component k (s.reg .E p)
  | _, .evar i => .ok (some (.evar i))
  | _, .econst v => .ok (some (.econst v))
  | _, .stack a b c => match s.reg .S a, s.reg .S b, s.reg .S c with
    | some x, some y, some z => .ok (some (.estack x y z))
    | _, _, _ => .ub
  | _, .add a b => Handle.add (s.reg .E a) (s.reg .E b)
  | _, .sub a b => Handle.sub (s.reg .E a) (s.reg .E b)
  | _, .subVec a v => Handle.subVec (s.reg .E a) v
  | _, .neg a => Handle.neg (s.reg .E a)
  | _, .scale p k => Handle.scale (s.reg .E p) (s.reg .S k)
  | _, .cross a b => Handle.cross (s.reg .E a) (s.reg .E b)
  | _, .elementwise a b => Handle.elementwise (s.reg .E a) (s.reg .E b)
  | _, .rotate r p => Handle.rotate s.made (s.reg .R r) (s.reg .E p)
  | _, .matMul m p => Handle.matMul s.made (s.reg .M m) (s.reg .E p)
  | _, .transform T p => Handle.tmulE s.made (s.reg .T T) (s.reg .E p)
  | _, .translation T => Handle.translation (s.reg .T T)
  | _, .toEuc h => Handle.toEuc (s.reg .H h)
  | _, .rvar i => .ok (some (.rvar i))
  | _, .rconst C => .ok (some (.rconst C))
  | _, .axis k a => Handle.one (.raxis k) (s.reg .S a)
  | _, .rmul a b => Handle.rmul s.made (s.reg .R a) (s.reg .R b)
  | _, .rinv a => Handle.rinv s.made (s.reg .R a)
  | _, .rotation T => Handle.rotation (s.reg .T T)
  | _, .tconst P => .ok (some (.tconst P))
  | _, .transformation r p => Handle.transformation (s.reg .R r) (s.reg .E p)
  | _, .tmul a b => Handle.tmul s.made (s.reg .T a) (s.reg .T b)
  | _, .tinv a => Handle.tinv s.made (s.reg .T a)
  | _, .hvar i => .ok (some (.hvar i))
  | _, .hconst v => .ok (some (.hconst v))
  | _, .toHom p => Handle.toHom (s.reg .E p)
  | _, .tmulH T h => Handle.tmulH s.made (s.reg .T T) (s.reg .H h)
  | _, .mvar i free => .ok (some (.mvar i free))
  | ty, .copy a => .ok (s.reg ty a)

/-- Assignment to one variable (implicit copy assignment of the expression classes). -/
def setReg {F : Ty → Type} (reg : (ty : Ty) → Nat → F ty) (ty : Ty) (r : Nat) (v : F ty) : (t : Ty) → Nat → F t :=
  fun t i => if h : t = ty ∧ i = r then h.1 ▸ v else reg t i

/-- The assignments of the calling function, one after the other (as the tests in `aslam_backend_expressions/test/` do; not code of the library itself). -/
def run : List Assign → Vars → Res Vars
  | [], s => .ok s
  | a :: l, s => a.rhs.build s >>= fun h => run l ⟨setReg s.reg a.ty a.dst h, s.made + 1⟩

/-! ### Specification -/

/-- What a variable stands for: a value in every state of the design variables in which it is defined, and when its derivative is meant to be exact. -/
structure Mean (ty : Ty) where
  val : Env → Option (Val ty)
  reg : (ℝ → Env) → ℝ → Prop

/-- Default-constructed variables: zero and identity. -/
def Mean.default : (ty : Ty) → Mean ty
  | .E => ⟨fun _ => some 0, fun _ _ => True⟩
  | .R => ⟨fun _ => some 1, fun _ _ => True⟩
  | .T => ⟨fun _ => some ⟨1, 0⟩, fun _ _ => True⟩
  | .S => ⟨fun _ => none, fun _ _ => True⟩
  | .H => ⟨fun _ => none, fun _ _ => True⟩
  | .M => ⟨fun _ => none, fun _ _ => True⟩

/-- What every operand stands for. -/
abbrev Means := (ty : Ty) → Nat → Mean ty

open Classical in
/-- The function on numbers. -/
noncomputable def Fn1.val : Fn1 → ℝ → Option ℝ
  | .neg, x => some (-x)
  | .addc y, x => some (x + y)
  | .subc y, x => some (x - y)
  | .mulc y, x => some (x * y)
  | .divc y, x => if y = 0 then none else some (x / y)
  | .cdiv y, x => if x = 0 then none else some (y / x)
  | .sqrt, x => if 0 < x then some (Real.sqrt x) else none
  | .log, x => if 0 < x then some (Real.log x) else none
  | .exp, x => some (Real.exp x)
  | .atan, x => some (Real.arctan x)
  | .tanh, x => some (Real.tanh x)
  | .sin, x => some (Real.sin x)
  | .cos, x => some (Real.cos x)
  | .acos, x => if -1 ≤ x ∧ x ≤ 1 then some (Real.arccos x) else none
  | .acosSquared, x => if -1 ≤ x ∧ x ≤ 1 then some (Real.arccos x ^ 2) else none
  | .inverseSigmoid h s c, x => some (h / (1 + Real.exp (s * (x - c))))
  | .power k, x => if x = 0 ∧ k < 0 then none else some (x ^ k)

/-- Where its derivative is meant to be exact. -/
def Fn1.reg : Fn1 → ℝ → Prop
  | .acos, x => -1 < x ∧ x < 1
  | .acosSquared, x => -1 < x ∧ x < 1 - 1 / 2 ^ 26
  | .power k, x => x ≠ 0 ∨ 1 ≤ k
  | _, _ => True

open Classical in
/-- The function on numbers. -/
noncomputable def Fn2.val : Fn2 → Option ℝ → Option ℝ → Env → Option ℝ
  | .add, x, y, _ => x.bind fun x => y.bind fun y => some (x + y)
  | .sub, x, y, _ => x.bind fun x => y.bind fun y => some (x - y)
  | .mul, x, y, _ => x.bind fun x => y.bind fun y => some (x * y)
  | .div, x, y, _ => x.bind fun x => y.bind fun y => if y = 0 then none else some (x / y)
  | .atan2, x, y, _ => x.bind fun x => y.bind fun y => some (Complex.arg ⟨y, x⟩)
  | .piecewise cond, x, y, env => if cond env then x else y

/-- Where its derivative is meant to be exact. -/
def Fn2.reg (c : ℝ → Env) (t : ℝ) : Fn2 → Mean .S → Mean .S → Prop
  | .atan2, a, b => a.reg c t ∧ b.reg c t ∧ ∃ y x, a.val (c t) = some y ∧ b.val (c t) = some x ∧ ¬ (y = 0 ∧ x ≤ 0)
  | .piecewise cond, a, b => (∀ᶠ s in 𝓝 t, cond (c s) = cond (c t)) ∧ (cond (c t) = true → a.reg c t) ∧ (cond (c t) = false → b.reg c t)
  | _, a, b => a.reg c t ∧ b.reg c t

/-- Turn about a coordinate axis. -/
noncomputable def turn (k : Fin 3) (x : ℝ) : M3 := match k with
  | 0 => !![1, 0, 0; 0, Real.cos x, -Real.sin x; 0, Real.sin x, Real.cos x]
  | 1 => !![Real.cos x, 0, Real.sin x; 0, 1, 0; -Real.sin x, 0, Real.cos x]
  | 2 => !![Real.cos x, -Real.sin x, 0; Real.sin x, Real.cos x, 0; 0, 0, 1]

open Classical in
/-- What the right-hand side stands for. -/
noncomputable def Rhs.mean (m : Means) : {ty : Ty} → Rhs ty → Mean ty
  | _, .svar i => ⟨fun env => some (env.sc i), fun _ _ => True⟩
  | _, .sconst x => ⟨fun _ => some x, fun _ _ => True⟩
  | _, .fn1 f a => ⟨fun env => ((m .S a).val env).bind f.val, fun c t => (m .S a).reg c t ∧ ∃ x, (m .S a).val (c t) = some x ∧ f.reg x⟩
  | _, .fn2 f a b => ⟨fun env => f.val ((m .S a).val env) ((m .S b).val env) env, fun c t => f.reg c t (m .S a) (m .S b)⟩
  | _, .component k p => ⟨fun env => ((m .E p).val env).bind fun x => some (x k), fun c t => (m .E p).reg c t⟩
  | _, .evar i => ⟨fun env => some (env.pt i), fun _ _ => True⟩
  | _, .econst v => ⟨fun _ => some v, fun _ _ => True⟩
  | _, .stack a b c => ⟨fun env => ((m .S a).val env).bind fun x => ((m .S b).val env).bind fun y => ((m .S c).val env).bind fun z => some ![x, y, z],
      fun q t => (m .S a).reg q t ∧ (m .S b).reg q t ∧ (m .S c).reg q t⟩
  | _, .add a b => ⟨fun env => ((m .E a).val env).bind fun x => ((m .E b).val env).bind fun y => some (x + y), fun c t => (m .E a).reg c t ∧ (m .E b).reg c t⟩
  | _, .sub a b => ⟨fun env => ((m .E a).val env).bind fun x => ((m .E b).val env).bind fun y => some (x - y), fun c t => (m .E a).reg c t ∧ (m .E b).reg c t⟩
  | _, .subVec a v => ⟨fun env => ((m .E a).val env).bind fun x => some (x - v), fun c t => (m .E a).reg c t⟩
  | _, .neg a => ⟨fun env => ((m .E a).val env).bind fun x => some (-x), fun c t => (m .E a).reg c t⟩
  | _, .scale p k => ⟨fun env => ((m .E p).val env).bind fun x => ((m .S k).val env).bind fun s => some (s • x), fun c t => (m .E p).reg c t ∧ (m .S k).reg c t⟩
  | _, .cross a b => ⟨fun env => ((m .E a).val env).bind fun x => ((m .E b).val env).bind fun y => some (x ⨯₃ y), fun c t => (m .E a).reg c t ∧ (m .E b).reg c t⟩
  | _, .elementwise a b => ⟨fun env => ((m .E a).val env).bind fun x => ((m .E b).val env).bind fun y => some (fun k => x k * y k), fun c t => (m .E a).reg c t ∧ (m .E b).reg c t⟩
  | _, .rotate r p => ⟨fun env => ((m .R r).val env).bind fun C => ((m .E p).val env).bind fun x => some (C *ᵥ x), fun c t => (m .R r).reg c t ∧ (m .E p).reg c t⟩
  | _, .matMul a p => ⟨fun env => ((m .M a).val env).bind fun A => ((m .E p).val env).bind fun x => some (A *ᵥ x), fun c t => (m .M a).reg c t ∧ (m .E p).reg c t⟩
  | _, .transform T p => ⟨fun env => ((m .T T).val env).bind fun P => ((m .E p).val env).bind fun x => some (P.C *ᵥ x + P.t), fun c t => (m .T T).reg c t ∧ (m .E p).reg c t⟩
  | _, .translation T => ⟨fun env => ((m .T T).val env).bind fun P => some P.t, fun c t => (m .T T).reg c t⟩
  | _, .toEuc h => ⟨fun env => ((m .H h).val env).bind fun v => if v.2 = 0 then none else some (fun k => v.1 k / v.2), fun c t => (m .H h).reg c t⟩
  | _, .rvar i => ⟨fun env => some (env.ro i), fun _ _ => True⟩
  | _, .rconst C => ⟨fun _ => some C, fun _ _ => IsRot C⟩
  | _, .axis k a => ⟨fun env => ((m .S a).val env).bind fun x => some (turn k x), fun c t => (m .S a).reg c t⟩
  | _, .rmul a b => ⟨fun env => ((m .R a).val env).bind fun x => ((m .R b).val env).bind fun y => some (x * y), fun c t => (m .R a).reg c t ∧ (m .R b).reg c t⟩
  | _, .rinv a => ⟨fun env => ((m .R a).val env).bind fun x => some xᵀ, fun c t => (m .R a).reg c t⟩
  | _, .rotation T => ⟨fun env => ((m .T T).val env).bind fun P => some P.C, fun c t => (m .T T).reg c t⟩
  | _, .tconst P => ⟨fun _ => some P, fun _ _ => IsRot P.C⟩
  | _, .transformation r p => ⟨fun env => ((m .R r).val env).bind fun C => ((m .E p).val env).bind fun x => some ⟨C, x⟩, fun c t => (m .R r).reg c t ∧ (m .E p).reg c t⟩
  | _, .tmul a b => ⟨fun env => ((m .T a).val env).bind fun P => ((m .T b).val env).bind fun Q => some ⟨P.C * Q.C, P.C *ᵥ Q.t + P.t⟩, fun c t => (m .T a).reg c t ∧ (m .T b).reg c t⟩
  | _, .tinv a => ⟨fun env => ((m .T a).val env).bind fun P => if P.C.det = 0 then none else some ⟨P.C⁻¹, -(P.C⁻¹ *ᵥ P.t)⟩, fun c t => (m .T a).reg c t⟩
  | _, .hvar i => ⟨fun env => some (env.ho i), fun _ _ => True⟩
  | _, .hconst v => ⟨fun _ => some v, fun _ _ => True⟩
  | _, .toHom p => ⟨fun env => ((m .E p).val env).bind fun x => some (x, 1), fun c t => (m .E p).reg c t⟩
  | _, .tmulH T h => ⟨fun env => ((m .T T).val env).bind fun P => ((m .H h).val env).bind fun v => some (P.C *ᵥ v.1 + v.2 • P.t, v.2), fun c t => (m .T T).reg c t ∧ (m .H h).reg c t⟩
  | _, .mvar i free => ⟨fun env => some (env.mat i free), fun _ _ => True⟩
  | ty, .copy a => m ty a

/-- What the variables stand for after the program. -/
noncomputable def meaning : List Assign → Means → Means
  | [], m => m
  | a :: l, m => meaning l (setReg m a.ty a.dst (a.rhs.mean m))

/-- Nothing is subtracted from an empty point (`C61_sub_counterexample`). -/
def Rhs.Clean (s : Vars) : {ty : Ty} → Rhs ty → Prop
  | _, .sub x y => s.reg .E x ≠ none ∨ s.reg .E y = none
  | _, .subVec x _ => s.reg .E x ≠ none
  | _, _ => True

/-- All along the program. -/
def Clean : List Assign → Vars → Prop
  | [], _ => True
  | a :: l, s => a.rhs.Clean s ∧ ∀ h, a.rhs.build s = .ok h → Clean l ⟨setReg s.reg a.ty a.dst h, s.made + 1⟩

/-! ### Proofs -/

theorem turn_eq (k : Fin 3) (x : ℝ) : turn k x = axisRot k x := by
  ext i j
  fin_cases k <;> fin_cases i <;> fin_cases j <;> simp [turn, axisRot]

/-- A handle and what it stands for. -/
structure Fits {ty : Ty} (tbl : Table) (h : Handle ty) (m : Mean ty) : Prop where
  val : ∀ env v, m.val env = some v → h.val env = .ok v
  cons : ∀ e, h = some e → Cons tbl e
  smooth : ∀ e, h = some e → ∀ c t, m.reg c t → Smooth c t e

/-- All variables. -/
def Inv (s : Vars) (m : Means) : Prop := ∃ tbl₀ : Table, ∀ tbl : Table, (∀ i, i < s.made → tbl i = tbl₀ i) → ∀ ty r, Fits tbl (s.reg ty r) (m ty r)

theorem Fits.val_eq {ty : Ty} {tbl : Table} {e : Node ty} {m : Mean ty} (h : Fits tbl (some e) m) {env : Env} {v : Val ty} (hv : m.val env = some v) :
    Expr.val env e = .ok v := h.val env v hv

theorem Fits.sun {tbl : Table} {e : Node .S} {m : Mean .S} (h : Fits tbl (some e) m) (op : UnOp) (f : Fn1) (hv : ∀ x y, f.val x = some y → op.ap x = .ok y)
    (hs : ∀ x, f.reg x → op.Smooth x) :
    Fits tbl (some (.sun op e)) ⟨fun env => (m.val env).bind f.val, fun c t => m.reg c t ∧ ∃ x, m.val (c t) = some x ∧ f.reg x⟩ := by
  refine ⟨fun env v hv' => ?_, fun e' he => ?_, fun e' he c t hr => ?_⟩
  · simp only [Option.bind_eq_some_iff] at hv'
    obtain ⟨x, hx, hy⟩ := hv'
    show Expr.val env (.sun op e) = _
    rw [Expr.val, h.val_eq hx]
    exact hv x v hy
  · cases he
    exact h.cons e rfl
  · cases he
    obtain ⟨h1, x, hx, hf⟩ := hr
    refine ⟨h.smooth e rfl c t h1, fun y hy => ?_⟩
    rw [h.val_eq hx] at hy
    cases hy
    exact hs x hf

/-- With a constant as the other operand. -/
theorem Fits.withConst {tbl : Table} {e e' : Node .S} {m : Mean .S} (h : Fits tbl (some e) m) (f : Fn1) (hv : ∀ env x y, Expr.val env e = .ok x → f.val x = some y → Expr.val env e' = .ok y)
    (hc : Cons tbl e → Cons tbl e') (hs : ∀ c t, Smooth c t e → Smooth c t e') :
    Fits tbl (some e') ⟨fun env => (m.val env).bind f.val, fun c t => m.reg c t ∧ ∃ x, m.val (c t) = some x ∧ f.reg x⟩ := by
  refine ⟨fun env v hv' => ?_, fun e' he => ?_, fun e' he c t hr => ?_⟩
  · simp only [Option.bind_eq_some_iff] at hv'
    obtain ⟨x, hx, hy⟩ := hv'
    exact hv env x v (h.val_eq hx) hy
  · cases he
    exact hc (h.cons e rfl)
  · cases he
    exact hs c t (h.smooth e rfl c t hr.1)

theorem fn1_fits {tbl : Table} (f : Fn1) {a h : Handle .S} {m : Mean .S} (ha : Fits tbl a m) (hb : f.build a = .ok h) :
    Fits tbl h ⟨fun env => (m.val env).bind f.val, fun c t => m.reg c t ∧ ∃ x, m.val (c t) = some x ∧ f.reg x⟩ := by
  rcases a with _ | e
  · cases f <;> cases hb
  cases f with
  | neg => cases hb; exact ha.sun .neg .neg (fun x y h => by cases h; rfl) (fun x _ => trivial)
  | addc k => cases hb; exact ha.withConst (.addc k) (fun env x y hx h => by cases h; simp [Expr.val, hx]) (fun h => ⟨h, trivial⟩) (fun _ _ h => ⟨h, trivial⟩)
  | subc k => cases hb; exact ha.withConst (.subc k) (fun env x y hx h => by cases h; simp [Expr.val, hx]; ring) (fun h => ⟨h, trivial⟩) (fun _ _ h => ⟨h, trivial⟩)
  | mulc k => cases hb; exact ha.withConst (.mulc k) (fun env x y hx h => by cases h; simp [Expr.val, hx]) (fun h => ⟨h, trivial⟩) (fun _ _ h => ⟨h, trivial⟩)
  | divc k =>
    cases hb
    refine ha.withConst (.divc k) (fun env x y hx h => ?_) (fun h => ⟨h, trivial⟩) (fun _ _ h => ⟨h, trivial⟩)
    by_cases hk : k = 0
    · simp [Fn1.val, hk] at h
    · simp [Fn1.val, hk] at h; simp [Expr.val, hx, hk, h]
  | cdiv k =>
    cases hb
    refine ha.withConst (.cdiv k) (fun env x y hx h => ?_) (fun h => ⟨trivial, h⟩) (fun _ _ h => ⟨trivial, h⟩)
    by_cases hk : x = 0
    · simp [Fn1.val, hk] at h
    · simp [Fn1.val, hk] at h; simp [Expr.val, hx, hk, h]
  | sqrt => cases hb; exact ha.sun .sqrt .sqrt (fun x y h => by by_cases hx : 0 < x <;> simp [Fn1.val, hx] at h; simp [UnOp.ap, hx, h]) (fun x _ => trivial)
  | log => cases hb; exact ha.sun .log .log (fun x y h => by by_cases hx : 0 < x <;> simp [Fn1.val, hx] at h; simp [UnOp.ap, hx, h]) (fun x _ => trivial)
  | exp => cases hb; exact ha.sun .exp .exp (fun x y h => by cases h; rfl) (fun x _ => trivial)
  | atan => cases hb; exact ha.sun .atan .atan (fun x y h => by cases h; rfl) (fun x _ => trivial)
  | tanh => cases hb; exact ha.sun .tanh .tanh (fun x y h => by cases h; rfl) (fun x _ => trivial)
  | sin => cases hb; exact ha.sun .sin .sin (fun x y h => by cases h; rfl) (fun x _ => trivial)
  | cos => cases hb; exact ha.sun .cos .cos (fun x y h => by cases h; rfl) (fun x _ => trivial)
  | acos => cases hb; exact ha.sun .acos .acos (fun x y h => by by_cases hx : -1 ≤ x ∧ x ≤ 1 <;> simp [Fn1.val, hx] at h; simp [UnOp.ap, hx, h]) (fun x h => h)
  | acosSquared =>
    cases hb
    refine ha.sun .acosSquared .acosSquared (fun x y h => by by_cases hx : -1 ≤ x ∧ x ≤ 1 <;> simp [Fn1.val, hx] at h; simp [UnOp.ap, hx, ← h, sq]) (fun x h => ?_)
    have h2 : (1 : ℝ) / 2 ^ 26 ≤ 1 - x := by linarith [h.2]
    have h3 : (0 : ℝ) < 1 / 2 ^ 26 := by positivity
    refine ⟨h.1, by linarith, ?_⟩
    have : eps = (1 / 2 ^ 26 : ℝ) * (1 / 2 ^ 26) := by norm_num [eps]
    rw [this]
    nlinarith
  | inverseSigmoid p q r =>
    cases hb
    exact ha.sun (.inverseSigmoid p q r) (.inverseSigmoid p q r) (fun x y h => by cases h; exact congrArg Res.ok (Formula.sigmoid_eq p q r x)) (fun x _ => trivial)
  | power k =>
    cases hb
    refine ha.sun (.power k) (.power k) (fun x y h => ?_) (fun x h => h)
    by_cases hx : x = 0 ∧ k < 0
    · simp [Fn1.val, hx] at h
    · rw [Fn1.val, if_neg hx] at h
      rw [UnOp.ap, if_neg hx]
      exact congrArg Res.ok (Option.some.inj h)

/-- Two operands that are there. -/
theorem Fits.two {ta tb ty : Ty} {tbl : Table} {a : Node ta} {b : Node tb} {e : Node ty} {ma : Mean ta} {mb : Mean tb} (ha : Fits tbl (some a) ma) (hb : Fits tbl (some b) mb)
    (g : Val ta → Val tb → Option (Val ty)) (hv : ∀ env x y z, Expr.val env a = .ok x → Expr.val env b = .ok y → g x y = some z → Expr.val env e = .ok z)
    (hc : Cons tbl a → Cons tbl b → Cons tbl e) (hs : ∀ c t, Smooth c t a → Smooth c t b → Smooth c t e) :
    Fits tbl (some e) ⟨fun env => (ma.val env).bind fun x => (mb.val env).bind fun y => g x y, fun c t => ma.reg c t ∧ mb.reg c t⟩ := by
  refine ⟨fun env v hv' => ?_, fun e' he => ?_, fun e' he c t hr => ?_⟩
  · simp only [Option.bind_eq_some_iff] at hv'
    obtain ⟨x, hx, y, hy, hz⟩ := hv'
    exact hv env x y v (ha.val_eq hx) (hb.val_eq hy) hz
  · cases he
    exact hc (ha.cons a rfl) (hb.cons b rfl)
  · cases he
    exact hs c t (ha.smooth a rfl c t hr.1) (hb.smooth b rfl c t hr.2)

/-- One operand that is there. -/
theorem Fits.one {ta ty : Ty} {tbl : Table} {a : Node ta} {e : Node ty} {ma : Mean ta} (ha : Fits tbl (some a) ma)
    (g : Val ta → Option (Val ty)) (hv : ∀ env x z, Expr.val env a = .ok x → g x = some z → Expr.val env e = .ok z)
    (hc : Cons tbl a → Cons tbl e) (hs : ∀ c t, Smooth c t a → Smooth c t e) :
    Fits tbl (some e) ⟨fun env => (ma.val env).bind g, fun c t => ma.reg c t⟩ := by
  refine ⟨fun env v hv' => ?_, fun e' he => ?_, fun e' he c t hr => ?_⟩
  · simp only [Option.bind_eq_some_iff] at hv'
    obtain ⟨x, hx, hz⟩ := hv'
    exact hv env x v (ha.val_eq hx) hz
  · cases he
    exact hc (ha.cons a rfl)
  · cases he
    exact hs c t (ha.smooth a rfl c t hr)

theorem fn2_fits {tbl : Table} (f : Fn2) {a b h : Handle .S} {ma mb : Mean .S} (ha : Fits tbl a ma) (hb : Fits tbl b mb) (hh : f.build a b = .ok h) :
    Fits tbl h ⟨fun env => f.val (ma.val env) (mb.val env) env, fun c t => f.reg c t ma mb⟩ := by
  rcases a with _ | a
  · cases f <;> cases hh
  rcases b with _ | b
  · cases f <;> cases hh
  cases f with
  | add => cases hh; exact ha.two hb (fun x y => some (x + y)) (fun env x y z hx hy h => by cases h; simp [Expr.val, hx, hy]) (fun h1 h2 => ⟨h1, h2⟩) (fun _ _ h1 h2 => ⟨h1, h2⟩)
  | sub => cases hh; exact ha.two hb (fun x y => some (x - y)) (fun env x y z hx hy h => by cases h; simp [Expr.val, hx, hy]; ring) (fun h1 h2 => ⟨h1, h2⟩) (fun _ _ h1 h2 => ⟨h1, h2⟩)
  | mul => cases hh; exact ha.two hb (fun x y => some (x * y)) (fun env x y z hx hy h => by cases h; simp [Expr.val, hx, hy]) (fun h1 h2 => ⟨h1, h2⟩) (fun _ _ h1 h2 => ⟨h1, h2⟩)
  | div =>
    cases hh
    exact ha.two hb (fun x y => if y = 0 then none else some (x / y)) (fun env x y z hx hy h => by by_cases h0 : y = 0 <;> simp [h0] at h; simp [Expr.val, hx, hy, h0, h]) (fun h1 h2 => ⟨h1, h2⟩) (fun _ _ h1 h2 => ⟨h1, h2⟩)
  | atan2 =>
    cases hh
    refine ⟨fun env v hv => ?_, fun e he => by cases he; exact ⟨ha.cons a rfl, hb.cons b rfl⟩, fun e he c t hr => ?_⟩
    · simp only [Fn2.val, Option.bind_eq_some_iff] at hv
      obtain ⟨x, hx, y, hy, hz⟩ := hv
      cases hz
      show Expr.val env (.satan2 a b) = _
      simp [Expr.val, ha.val_eq hx, hb.val_eq hy, Expr.atan2]
    · cases he
      obtain ⟨h1, h2, y, x, hy, hx, hn⟩ := hr
      refine ⟨ha.smooth a rfl c t h1, hb.smooth b rfl c t h2, fun y' x' hy' hx' => ?_⟩
      rw [ha.val_eq hy] at hy'
      rw [hb.val_eq hx] at hx'
      cases hy'
      cases hx'
      exact hn
  | piecewise cond =>
    cases hh
    refine ⟨fun env v hv => ?_, fun e he => by cases he; exact ⟨ha.cons a rfl, hb.cons b rfl⟩, fun e he c t hr => ?_⟩
    · show Expr.val env (.spiece cond a b) = _
      by_cases hc : cond env = true
      · simp only [Fn2.val, hc, if_true] at hv
        simp only [Expr.val, hc, if_true]
        exact ha.val_eq hv
      · simp only [Fn2.val, hc] at hv
        simp only [Expr.val, hc]
        exact hb.val_eq hv
    · cases he
      exact ⟨hr.1, fun h => ha.smooth a rfl c t (hr.2.1 h), fun h => hb.smooth b rfl c t (hr.2.2 h)⟩

/-- Values of operations with a theorem about empty operands, and what their results are made of. -/
theorem Fits.two' {ta tb ty : Ty} {tbl : Table} {a : Handle ta} {b : Handle tb} {h : Handle ty} {ma : Mean ta} {mb : Mean tb} (ha : Fits tbl a ma) (hb : Fits tbl b mb)
    (g : Val ta → Val tb → Val ty) (hv : ∀ env x y, a.val env = .ok x → b.val env = .ok y → h.val env = .ok (g x y))
    (hc : ∀ e, h = some e → (∀ x, a = some x → Cons tbl x) → (∀ x, b = some x → Cons tbl x) → Cons tbl e)
    (hs : ∀ e, h = some e → ∀ c t, (∀ x, a = some x → Smooth c t x) → (∀ x, b = some x → Smooth c t x) → Smooth c t e) :
    Fits tbl h ⟨fun env => (ma.val env).bind fun x => (mb.val env).bind fun y => some (g x y), fun c t => ma.reg c t ∧ mb.reg c t⟩ := by
  refine ⟨fun env v hv' => ?_, fun e he => hc e he ha.cons hb.cons, fun e he c t hr => hs e he c t (fun x hx => ha.smooth x hx c t hr.1) (fun x hx => hb.smooth x hx c t hr.2)⟩
  simp only [Option.bind_eq_some_iff] at hv'
  obtain ⟨x, hx, y, hy, hz⟩ := hv'
  cases hz
  exact hv env x y (ha.val env x hx) (hb.val env y hy)

theorem Fits.one' {ta ty : Ty} {tbl : Table} {a : Handle ta} {h : Handle ty} {ma : Mean ta} (ha : Fits tbl a ma)
    (g : Val ta → Option (Val ty)) (hv : ∀ env x z, a.val env = .ok x → g x = some z → h.val env = .ok z)
    (hc : ∀ e, h = some e → (∀ x, a = some x → Cons tbl x) → Cons tbl e)
    (hs : ∀ e, h = some e → ∀ c t, (∀ x, a = some x → Smooth c t x) → Smooth c t e) :
    Fits tbl h ⟨fun env => (ma.val env).bind g, fun c t => ma.reg c t⟩ := by
  refine ⟨fun env v hv' => ?_, fun e he => hc e he ha.cons, fun e he c t hr => hs e he c t (fun x hx => ha.smooth x hx c t hr)⟩
  simp only [Option.bind_eq_some_iff] at hv'
  obtain ⟨x, hx, hz⟩ := hv'
  exact hv env x v (ha.val env x hx) hz

/-- A leaf. -/
theorem Fits.leaf {ty : Ty} {tbl : Table} {e : Node ty} {m : Mean ty} (hv : ∀ env v, m.val env = some v → Expr.val env e = .ok v) (hc : Cons tbl e)
    (hs : ∀ c t, m.reg c t → Smooth c t e) : Fits tbl (some e) m :=
  ⟨hv, fun e' he => by cases he; exact hc, fun e' he c t hr => by cases he; exact hs c t hr⟩

theorem Handle.got {ty : Ty} {h : Handle ty} {r : Res (Handle ty)} {env : Env} {v : Val ty} (hb : r = .ok h) (k : ∃ h', r = .ok h' ∧ h'.val env = .ok v) : h.val env = .ok v := by
  obtain ⟨h', e1, e2⟩ := k
  rw [hb] at e1
  cases e1
  exact e2

/-- The node with members an assignment makes. -/
def Rhs.tag (s : Vars) : {ty : Ty} → Rhs ty → Σ ty, Node ty
  | _, .rotate r p => match s.reg .R r, s.reg .E p with
    | some r, some p => ⟨_, .erot s.made r p⟩
    | _, _ => ⟨_, .sconst 0⟩
  | _, .matMul r p => match s.reg .M r, s.reg .E p with
    | some r, some p => ⟨_, .emat s.made r p⟩
    | _, _ => ⟨_, .sconst 0⟩
  | _, .transform T p => match s.reg .T T, s.reg .E p with
    | some T, some p => ⟨_, .hmul s.made T (.heuc p)⟩
    | _, _ => ⟨_, .sconst 0⟩
  | _, .rmul a b => match s.reg .R a, s.reg .R b with
    | some a, some b => ⟨_, .rmul s.made a b⟩
    | _, _ => ⟨_, .sconst 0⟩
  | _, .rinv a => match s.reg .R a with
    | some a => ⟨_, .rinv s.made a⟩
    | _ => ⟨_, .sconst 0⟩
  | _, .tmul a b => match s.reg .T a, s.reg .T b with
    | some a, some b => ⟨_, .tmul s.made a b⟩
    | _, _ => ⟨_, .sconst 0⟩
  | _, .tinv a => match s.reg .T a with
    | some a => ⟨_, .tinv s.made a⟩
    | _ => ⟨_, .sconst 0⟩
  | _, .tmulH a b => match s.reg .T a, s.reg .H b with
    | some a, some b => ⟨_, .hmul s.made a b⟩
    | _, _ => ⟨_, .sconst 0⟩
  | _, _ => ⟨_, .sconst 0⟩

theorem rhs_fits {tbl : Table} {ty : Ty} (r : Rhs ty) (s : Vars) (m : Means) (hi : ∀ ty r, Fits tbl (s.reg ty r) (m ty r)) (ht : tbl s.made = r.tag s) (hc : r.Clean s) {h : Handle ty}
    (hb : r.build s = .ok h) : Fits tbl h (r.mean m) := by
  cases r with
  | svar i => cases hb; exact .leaf (fun env v hv => by cases hv; rfl) trivial fun _ _ _ => trivial
  | sconst x => cases hb; exact .leaf (fun env v hv => by cases hv; rfl) trivial fun _ _ _ => trivial
  | fn1 f a => exact fn1_fits f (hi .S a) hb
  | fn2 f a b => exact fn2_fits f (hi .S a) (hi .S b) hb
  | component k p =>
    refine (hi .E p).one' (ty := .S) (h := h) (fun (x : V3) => (some (x k) : Option ℝ)) (fun env x z hx hz => ?_) (fun e he h1 => ?_) (fun e he c t h1 => ?_)
    · cases hz; exact Handle.got hb (C61_component env k _ hx)
    · rcases hp : s.reg .E p with _ | p' <;> simp only [Rhs.build, hp, Handle.component] at hb <;> cases hb <;> cases he
      · trivial
      · exact h1 p' hp
    · rcases hp : s.reg .E p with _ | p' <;> simp only [Rhs.build, hp, Handle.component] at hb <;> cases hb <;> cases he
      · trivial
      · exact h1 p' hp
  | evar i => cases hb; exact .leaf (fun env v hv => by cases hv; rfl) trivial fun _ _ _ => trivial
  | econst x => cases hb; exact .leaf (fun env v hv => by cases hv; rfl) trivial fun _ _ _ => trivial
  | stack a b c =>
    rcases ha : s.reg .S a with _ | x <;> rcases hb' : s.reg .S b with _ | y <;> rcases hc' : s.reg .S c with _ | z <;> simp only [Rhs.build, ha, hb', hc'] at hb <;> cases hb
    have fa := hi .S a
    have fb := hi .S b
    have fc := hi .S c
    rw [ha] at fa
    rw [hb'] at fb
    rw [hc'] at fc
    refine ⟨fun env v hv => ?_, fun e he => by cases he; exact ⟨fa.cons x rfl, fb.cons y rfl, fc.cons z rfl⟩,
      fun e he q t hr => by cases he; exact ⟨fa.smooth x rfl q t hr.1, fb.smooth y rfl q t hr.2.1, fc.smooth z rfl q t hr.2.2⟩⟩
    simp only [Rhs.mean, Option.bind_eq_some_iff] at hv
    obtain ⟨u, hu, v', hv', w, hw, e⟩ := hv
    cases e
    show Expr.val env (.estack x y z) = _
    simp [Expr.val, fa.val_eq hu, fb.val_eq hv', fc.val_eq hw]
  | add a b =>
    refine (hi .E a).two' (hi .E b) (ty := .E) (h := h) (fun (x y : V3) => (x + y : V3)) (fun env x y hx hy => Handle.got hb (C61_add env _ _ hx hy)) (fun e he h1 h2 => ?_) (fun e he c t h1 h2 => ?_) <;>
      rcases ha : s.reg .E a with _ | x <;> rcases hb' : s.reg .E b with _ | y <;> simp only [Rhs.build, ha, hb', Handle.add] at hb <;> cases hb <;> cases he <;>
      first | exact h1 _ ha | exact h2 _ hb' | exact ⟨h1 _ ha, h2 _ hb'⟩
  | sub a b =>
    refine (hi .E a).two' (hi .E b) (ty := .E) (h := h) (fun (x y : V3) => (x - y : V3)) (fun env x y hx hy => Handle.got hb (C61_sub_partial env _ _ hc hx hy)) (fun e he h1 h2 => ?_) (fun e he c t h1 h2 => ?_) <;>
      rcases ha : s.reg .E a with _ | x <;> rcases hb' : s.reg .E b with _ | y <;> simp only [Rhs.build, ha, hb', Handle.sub] at hb <;> cases hb <;> cases he <;>
      first | exact h1 _ ha | exact h2 _ hb' | exact ⟨h1 _ ha, h2 _ hb'⟩
  | subVec a v =>
    rcases ha : s.reg .E a with _ | x
    · exact absurd ha hc
    · have fa := hi .E a
      rw [ha] at fa
      simp only [Rhs.build, ha, Handle.subVec] at hb
      cases hb
      exact fa.one (ty := .E) (fun (x : V3) => (some (x - v) : Option V3)) (fun env x z hx hz => by cases hz; simp [Expr.val, hx]) (fun h => h) fun _ _ h => h
  | neg a =>
    refine (hi .E a).one' (ty := .E) (h := h) (fun (x : V3) => (some (-x) : Option V3)) (fun env x z hx hz => ?_) (fun e he h1 => ?_) (fun e he c t h1 => ?_)
    · cases hz; exact Handle.got hb (C61_neg env _ hx)
    all_goals rcases ha : s.reg .E a with _ | x <;> simp only [Rhs.build, ha, Handle.neg] at hb <;> cases hb <;> cases he; exact h1 x ha
  | scale p k =>
    refine (hi .E p).two' (hi .S k) (ty := .E) (h := h) (fun (x : V3) (y : ℝ) => (y • x : V3)) (fun env x y hx hy => Handle.got hb (C61_scale env _ _ hx hy)) (fun e he h1 h2 => ?_) (fun e he c t h1 h2 => ?_) <;>
      rcases ha : s.reg .E p with _ | x <;> rcases hb' : s.reg .S k with _ | y <;> simp only [Rhs.build, ha, hb', Handle.scale] at hb <;> cases hb <;> cases he <;>
      exact ⟨h1 _ ha, h2 _ hb'⟩
  | cross a b =>
    refine (hi .E a).two' (hi .E b) (ty := .E) (h := h) (fun (x y : V3) => (x ⨯₃ y : V3)) (fun env x y hx hy => Handle.got hb (C61_cross env _ _ hx hy)) (fun e he h1 h2 => ?_) (fun e he c t h1 h2 => ?_) <;>
      rcases ha : s.reg .E a with _ | x <;> rcases hb' : s.reg .E b with _ | y <;> simp only [Rhs.build, ha, hb', Handle.cross] at hb <;> cases hb <;> cases he <;>
      exact ⟨h1 _ ha, h2 _ hb'⟩
  | elementwise a b =>
    have fa := hi .E a
    have fb := hi .E b
    rcases ha : s.reg .E a with _ | x <;> rcases hb' : s.reg .E b with _ | y <;> simp only [Rhs.build, ha, hb', Handle.elementwise, both] at hb <;> cases hb
    rw [ha] at fa
    rw [hb'] at fb
    exact fa.two fb (ty := .E) (e := .eelem x y) (fun (x y : V3) => (some (fun k => x k * y k) : Option V3)) (fun env x y z hx hy hz => by cases hz; simp [Expr.val, hx, hy]; rfl) (fun h1 h2 => ⟨h1, h2⟩) fun _ _ h1 h2 => ⟨h1, h2⟩
  | rotate a b =>
    refine (hi .R a).two' (hi .E b) (ty := .E) (h := h) (fun (x : M3) (y : V3) => (x *ᵥ y : V3)) (fun env x y hx hy => Handle.got hb (C61_rotate env _ _ _ hx hy)) (fun e he h1 h2 => ?_) (fun e he c t h1 h2 => ?_) <;>
      rcases ha : s.reg .R a with _ | x <;> rcases hb' : s.reg .E b with _ | y <;> simp only [Rhs.build, ha, hb', Handle.rotate] at hb <;> cases hb <;> cases he <;>
      first | exact h2 _ hb' | exact ⟨h1 _ ha, h2 _ hb'⟩ | exact ⟨by rw [ht]; simp only [Rhs.tag, ha, hb'], h1 _ ha, h2 _ hb'⟩
  | matMul a b =>
    have fa := hi .M a
    have fb := hi .E b
    rcases ha : s.reg .M a with _ | x <;> rcases hb' : s.reg .E b with _ | y <;> simp only [Rhs.build, ha, hb', Handle.matMul, both] at hb <;> cases hb
    rw [ha] at fa
    rw [hb'] at fb
    exact fa.two fb (ty := .E) (e := .emat s.made x y) (fun (x : M3) (y : V3) => (some (x *ᵥ y) : Option V3)) (fun env x y z hx hy hz => by cases hz; simp [Expr.val, hx, hy])
      (fun h1 h2 => ⟨by rw [ht]; simp only [Rhs.tag, ha, hb'], h1, h2⟩) fun _ _ h1 h2 => ⟨h1, h2⟩
  | transform a b =>
    have hn : s.reg .T a = none ∨ s.reg .E b ≠ none := by
      rcases ha : s.reg .T a with _ | x <;> rcases hb' : s.reg .E b with _ | y <;> simp only [Rhs.build, ha, hb', Handle.tmulE, Handle.toHom] at hb <;> simp
      cases hb
    refine (hi .T a).two' (hi .E b) (ty := .E) (h := h) (fun (P : Pose) (y : V3) => (P.C *ᵥ y + P.t : V3)) (fun env x y hx hy => Handle.got hb (C61_transform_partial env _ _ _ hn hx hy)) (fun e he h1 h2 => ?_) (fun e he c t h1 h2 => ?_) <;>
      rcases ha : s.reg .T a with _ | x <;> rcases hb' : s.reg .E b with _ | y <;> simp only [Rhs.build, ha, hb', Handle.tmulE, Handle.toHom, Handle.tmulH, Handle.toEuc, both] at hb <;> cases hb <;> cases he <;>
      first | exact h2 _ hb' | exact ⟨h1 _ ha, h2 _ hb'⟩ | exact ⟨by rw [ht]; simp only [Rhs.tag, ha, hb'], h1 _ ha, h2 _ hb'⟩
  | translation T =>
    refine (hi .T T).one' (ty := .E) (h := h) (fun (P : Pose) => (some P.t : Option V3)) (fun env x z hx hz => ?_) (fun e he h1 => ?_) (fun e he c t h1 => ?_)
    · cases hz; exact Handle.got hb (C61_translation_of env _ hx)
    all_goals
      rcases ha : s.reg .T T with _ | x <;> simp only [Rhs.build, ha] at hb
      · cases hb; cases he
      · have k := h1 x ha
        cases x <;> simp only [Handle.translation] at hb <;> cases hb <;> cases he <;> exact k
  | toEuc a =>
    have fa := hi .H a
    rcases ha : s.reg .H a with _ | x <;> simp only [Rhs.build, ha, Handle.toEuc] at hb <;> cases hb
    rw [ha] at fa
    refine fa.one (ty := .E) (e := .ehom x) (fun (v : V3 × ℝ) => (if v.2 = 0 then none else some (fun k => v.1 k / v.2) : Option V3)) (fun env x z hx hz => ?_) (fun h => h) fun _ _ h => h
    by_cases h0 : x.2 = 0
    · simp [h0] at hz
    · simp [h0] at hz
      subst hz
      simp [Expr.val, hx, h0]
      funext k
      simp [div_eq_inv_mul]
  | rvar i => cases hb; exact .leaf (fun env v hv => by cases hv; rfl) trivial fun _ _ _ => trivial
  | rconst C => cases hb; exact .leaf (fun env v hv => by cases hv; rfl) trivial fun _ _ h => h
  | axis k a =>
    have fa := hi .S a
    rcases ha : s.reg .S a with _ | x <;> simp only [Rhs.build, ha, Handle.one] at hb <;> cases hb
    rw [ha] at fa
    exact fa.one (ty := .R) (e := .raxis k x) (fun (v : ℝ) => (some (turn k v) : Option M3)) (fun env x z hx hz => by cases hz; simp [Expr.val, hx, turn_eq]) (fun h => h) fun _ _ h => h
  | rmul a b =>
    refine (hi .R a).two' (hi .R b) (ty := .R) (h := h) (fun (x y : M3) => (x * y : M3)) (fun env x y hx hy => Handle.got hb (C61_rotation_product env _ _ _ hx hy)) (fun e he h1 h2 => ?_) (fun e he c t h1 h2 => ?_) <;>
      rcases ha : s.reg .R a with _ | x <;> rcases hb' : s.reg .R b with _ | y <;> simp only [Rhs.build, ha, hb', Handle.rmul] at hb <;> cases hb <;> cases he <;>
      first | exact h1 _ ha | exact h2 _ hb' | exact ⟨h1 _ ha, h2 _ hb'⟩ | exact ⟨by rw [ht]; simp only [Rhs.tag, ha, hb'], h1 _ ha, h2 _ hb'⟩
  | rinv a =>
    refine (hi .R a).one' (ty := .R) (h := h) (fun (x : M3) => (some xᵀ : Option M3)) (fun env x z hx hz => ?_) (fun e he h1 => ?_) (fun e he c t h1 => ?_)
    · cases hz; exact Handle.got hb (C61_rotation_inverse env _ _ hx)
    all_goals
      rcases ha : s.reg .R a with _ | x <;> simp only [Rhs.build, ha, Handle.rinv] at hb <;> cases hb <;> cases he
      first | exact h1 x ha | exact ⟨by rw [ht]; simp only [Rhs.tag, ha], h1 x ha⟩
  | rotation T =>
    refine (hi .T T).one' (ty := .R) (h := h) (fun (P : Pose) => (some P.C : Option M3)) (fun env x z hx hz => ?_) (fun e he h1 => ?_) (fun e he c t h1 => ?_)
    · cases hz; exact Handle.got hb (C61_rotation_of env _ hx)
    all_goals
      rcases ha : s.reg .T T with _ | x <;> simp only [Rhs.build, ha] at hb
      · cases hb; cases he
      · have k := h1 x ha
        cases x <;> simp only [Handle.rotation] at hb <;> cases hb <;> cases he <;> first | exact k | exact k.1
  | tconst P => cases hb; exact .leaf (fun env v hv => by cases hv; rfl) trivial fun _ _ h => h
  | transformation a b =>
    refine (hi .R a).two' (hi .E b) (ty := .T) (h := h) (fun (x : M3) (y : V3) => (⟨x, y⟩ : Pose)) (fun env x y hx hy => Handle.got hb (C61_transformation env _ _ hx hy)) (fun e he h1 h2 => ?_) (fun e he c t h1 h2 => ?_) <;>
      rcases ha : s.reg .R a with _ | x <;> rcases hb' : s.reg .E b with _ | y <;> simp only [Rhs.build, ha, hb', Handle.transformation] at hb <;> cases hb <;> cases he <;>
      first | exact ⟨h1 _ ha, h2 _ hb'⟩ | exact h1 _ ha | exact h2 _ hb'
  | tmul a b =>
    refine (hi .T a).two' (hi .T b) (ty := .T) (h := h) (fun (P Q : Pose) => (⟨P.C * Q.C, P.C *ᵥ Q.t + P.t⟩ : Pose)) (fun env x y hx hy => Handle.got hb (C61_transformation_product env _ _ _ hx hy)) (fun e he h1 h2 => ?_) (fun e he c t h1 h2 => ?_) <;>
      rcases ha : s.reg .T a with _ | x <;> rcases hb' : s.reg .T b with _ | y <;> simp only [Rhs.build, ha, hb', Handle.tmul] at hb <;> cases hb <;> cases he <;>
      first | exact h1 _ ha | exact h2 _ hb' | exact ⟨h1 _ ha, h2 _ hb'⟩ | exact ⟨by rw [ht]; simp only [Rhs.tag, ha, hb'], h1 _ ha, h2 _ hb'⟩
  | tinv a =>
    refine (hi .T a).one' (ty := .T) (h := h) (fun (P : Pose) => (if P.C.det = 0 then none else some ⟨P.C⁻¹, -(P.C⁻¹ *ᵥ P.t)⟩ : Option Pose)) (fun env x z hx hz => ?_) (fun e he h1 => ?_) (fun e he c t h1 => ?_)
    · rcases ha : s.reg .T a with _ | e <;> simp only [Rhs.build, ha, Handle.tinv] at hb <;> cases hb <;> rw [ha] at hx
      · cases hx
        simp at hz
        subst hz
        rfl
      · by_cases h0 : x.C.det = 0
        · simp [h0] at hz
        · simp [h0] at hz
          subst hz
          have hx' : Expr.val env e = .ok x := hx
          show Expr.val env (.tinv s.made e) = _
          simp [Expr.val, hx', Pose.inv, h0]
    all_goals
      rcases ha : s.reg .T a with _ | x <;> simp only [Rhs.build, ha, Handle.tinv] at hb <;> cases hb <;> cases he
      first | exact h1 x ha | exact ⟨by rw [ht]; simp only [Rhs.tag, ha], h1 x ha⟩
  | hvar i => cases hb; exact .leaf (fun env v hv => by cases hv; rfl) trivial fun _ _ _ => trivial
  | hconst x => cases hb; exact .leaf (fun env v hv => by cases hv; rfl) trivial fun _ _ _ => trivial
  | toHom a =>
    have fa := hi .E a
    rcases ha : s.reg .E a with _ | x <;> simp only [Rhs.build, ha, Handle.toHom] at hb <;> cases hb
    rw [ha] at fa
    exact fa.one (ty := .H) (e := .heuc x) (fun (v : V3) => (some (v, 1) : Option (V3 × ℝ))) (fun env x z hx hz => by cases hz; simp [Expr.val, hx]) (fun h => h) fun _ _ h => h
  | tmulH a b =>
    refine (hi .T a).two' (hi .H b) (ty := .H) (h := h) (fun (P : Pose) (v : V3 × ℝ) => ((P.C *ᵥ v.1 + v.2 • P.t, v.2) : V3 × ℝ)) (fun env x y hx hy => ?_) (fun e he h1 h2 => ?_) (fun e he c t h1 h2 => ?_)
    · rcases ha : s.reg .T a with _ | e <;> rcases hb' : s.reg .H b with _ | f <;> simp only [Rhs.build, ha, hb', Handle.tmulH, both] at hb <;> cases hb <;> rw [ha] at hx <;> rw [hb'] at hy
      all_goals first
        | cases hy; done
        | (have hx' : Expr.val env e = .ok x := hx
           have hy' : Expr.val env f = .ok y := hy
           show Expr.val env (.hmul s.made e f) = _
           simp [Expr.val, hx', hy', Pose.ap])
        | (cases hx
           simpa using hy)
    all_goals
      rcases ha : s.reg .T a with _ | x <;> rcases hb' : s.reg .H b with _ | y <;> simp only [Rhs.build, ha, hb', Handle.tmulH, both] at hb <;> cases hb <;> cases he <;>
      first | exact h2 _ hb' | exact ⟨h1 _ ha, h2 _ hb'⟩ | exact ⟨by rw [ht]; simp only [Rhs.tag, ha, hb'], h1 _ ha, h2 _ hb'⟩
  | mvar i free => cases hb; exact .leaf (fun env v hv => by cases hv; rfl) trivial fun _ _ _ => trivial
  | copy a => cases hb; exact hi _ a

end Verif.Expr
