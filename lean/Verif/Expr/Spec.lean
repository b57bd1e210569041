import Verif.Expr.Model
import Verif.Expr.ScalarLemmas

/-!
What the Jacobian of an expression should be, independently of how it is computed: the design variables move along any
differentiable curve and the Jacobian times their velocities is the velocity of the value.
-/
namespace Verif.Expr
open Matrix Verif.Geo Filter Topology

variable (invS : V3 × ℝ → Matrix (Fin 3 ⊕ Unit) (Fin 3) ℝ)

/-- The product of a Jacobian, given by its contributions, with velocities of the design variables. -/
noncomputable def total (δ : (v : Var) → v.Idx → ℝ) {m : Nat} (L : List (Contr m)) : Fin m → ℝ := (L.map fun b => b.B *ᵥ δ b.v).sum

/-- The curve `c` of design variable values passes `c t` with the velocities `δ` (in minimal coordinates):
numbers and points move by addition, a rotation matrix by `C ← (1 - δ^×) C` (the convention of `RotationExpressionNode.hpp:35-48` and of
`updateQuat`), homogeneous points as the external function `quatInvS` says, matrices by changing their free entries. -/
structure Moves (c : ℝ → Env) (t : ℝ) (δ : (v : Var) → v.Idx → ℝ) : Prop where
  sc : ∀ i, HasDerivAt (fun s => (c s).sc i) (δ (.sc i) ()) t
  pt : ∀ i, VDeriv (fun s => (c s).pt i) (δ (.pt i)) t
  ro : ∀ i, MDeriv (fun s => (c s).ro i) (-(crossMx (δ (.ro i)) * (c t).ro i)) t
  rot : ∀ i s, IsRot ((c s).ro i)
  ho1 : ∀ i, VDeriv (fun s => ((c s).ho i).1) (fun k => (invS ((c t).ho i) *ᵥ δ (.ho i)) (.inl k)) t
  ho2 : ∀ i, HasDerivAt (fun s => ((c s).ho i).2) ((invS ((c t).ho i) *ᵥ δ (.ho i)) (.inr ())) t
  mat : ∀ i free, MDeriv (fun s => (c s).mat i free)
    (fun r q => ∑ k : Fin free.length, if free.get k = (r, q) then δ (.mat i free) k else 0) t

/-- The velocity of a value: componentwise for numbers, points and matrices; `Ċ = -d^× C` for rotations; for transformations
`d = (ρ, φ)` with `Ċ = -φ^× C` and `ṫ = ρ - φ × t`, that is `Ṫ = [-φ^× ρ; 0 0] T`. -/
def Der : (ty : Ty) → (ℝ → Val ty) → (TI ty → ℝ) → ℝ → Prop
  | .S, f, d, t => HasDerivAt f (d ()) t
  | .E, f, d, t => VDeriv f d t
  | .R, f, d, t => MDeriv f (-(crossMx d * f t)) t ∧ ∀ᶠ s in 𝓝 t, IsRot (f s)
  | .T, f, d, t => MDeriv (fun s => (f s).C) (-(crossMx (fun k => d (.inr k)) * (f t).C)) t ∧
      VDeriv (fun s => (f s).t) ((fun k => d (.inl k)) - (fun k => d (.inr k)) ⨯₃ (f t).t) t ∧ ∀ᶠ s in 𝓝 t, IsRot (f s).C
  | .H, f, d, t => VDeriv (fun s => (f s).1) (fun k => d (.inl k)) t ∧ HasDerivAt (fun s => (f s).2) (d (.inr ())) t
  | .M, f, d, t => MDeriv f (fun r q => d (q, r)) t

/-- The conditions on an expression: functions are used where they are differentiable, the branch of a piecewise expression does not
change, and constant rotations are rotations. -/
def Smooth (c : ℝ → Env) (t : ℝ) : {ty : Ty} → Node ty → Prop
  | _, .sun f a => Smooth c t a ∧ ∀ x, val (c t) a = .ok x → f.Smooth x
  | _, .smul a b => Smooth c t a ∧ Smooth c t b
  | _, .sdiv a b => Smooth c t a ∧ Smooth c t b
  | _, .sadd a b _ => Smooth c t a ∧ Smooth c t b
  | _, .satan2 a b => Smooth c t a ∧ Smooth c t b ∧ ∀ y x, val (c t) a = .ok y → val (c t) b = .ok x → ¬ (y = 0 ∧ x ≤ 0)
  | _, .spiece cond a b => (∀ᶠ s in 𝓝 t, cond (c s) = cond (c t)) ∧ (cond (c t) = true → Smooth c t a) ∧ (cond (c t) = false → Smooth c t b)
  | _, .scomp _ p => Smooth c t p
  | _, .estack a b e => Smooth c t a ∧ Smooth c t b ∧ Smooth c t e
  | _, .eadd a b => Smooth c t a ∧ Smooth c t b
  | _, .esub a b => Smooth c t a ∧ Smooth c t b
  | _, .esubc a _ => Smooth c t a
  | _, .eneg a => Smooth c t a
  | _, .escale p s => Smooth c t p ∧ Smooth c t s
  | _, .ecross a b => Smooth c t a ∧ Smooth c t b
  | _, .eelem a b => Smooth c t a ∧ Smooth c t b
  | _, .erot _ r p => Smooth c t r ∧ Smooth c t p
  | _, .emat _ m p => Smooth c t m ∧ Smooth c t p
  | _, .etrans T => Smooth c t T
  | _, .ehom h => Smooth c t h
  | _, .rconst C => IsRot C
  | _, .rmul _ a b => Smooth c t a ∧ Smooth c t b
  | _, .rinv _ a => Smooth c t a
  | _, .raxis _ s => Smooth c t s
  | _, .rtrans T => Smooth c t T
  | _, .tconst P => IsRot P.C
  | _, .tbasic r p => Smooth c t r ∧ Smooth c t p
  | _, .tbasicR r => Smooth c t r
  | _, .tbasicE p => Smooth c t p
  | _, .tmul _ a b => Smooth c t a ∧ Smooth c t b
  | _, .tinv _ a => Smooth c t a
  | _, .hmul _ T h => Smooth c t T ∧ Smooth c t h
  | _, .heuc p => Smooth c t p
  | _, _ => True

/-- `tbl` gives for each identity the node which has it. -/
abbrev Table := Nat → (Σ ty, Node ty)

/-- All nodes of the expression with members are the ones `tbl` says. -/
def Cons (tbl : Table) : {ty : Ty} → Node ty → Prop
  | _, .sun _ a => Cons tbl a
  | _, .smul a b => Cons tbl a ∧ Cons tbl b
  | _, .sdiv a b => Cons tbl a ∧ Cons tbl b
  | _, .sadd a b _ => Cons tbl a ∧ Cons tbl b
  | _, .satan2 a b => Cons tbl a ∧ Cons tbl b
  | _, .spiece _ a b => Cons tbl a ∧ Cons tbl b
  | _, .scomp _ p => Cons tbl p
  | _, .estack a b e => Cons tbl a ∧ Cons tbl b ∧ Cons tbl e
  | _, .eadd a b => Cons tbl a ∧ Cons tbl b
  | _, .esub a b => Cons tbl a ∧ Cons tbl b
  | _, .esubc a _ => Cons tbl a
  | _, .eneg a => Cons tbl a
  | _, .escale p s => Cons tbl p ∧ Cons tbl s
  | _, .ecross a b => Cons tbl a ∧ Cons tbl b
  | _, .eelem a b => Cons tbl a ∧ Cons tbl b
  | _, .erot id r p => tbl id = ⟨_, .erot id r p⟩ ∧ Cons tbl r ∧ Cons tbl p
  | _, .emat id m p => tbl id = ⟨_, .emat id m p⟩ ∧ Cons tbl m ∧ Cons tbl p
  | _, .etrans T => Cons tbl T
  | _, .ehom h => Cons tbl h
  | _, .rmul id a b => tbl id = ⟨_, .rmul id a b⟩ ∧ Cons tbl a ∧ Cons tbl b
  | _, .rinv id a => tbl id = ⟨_, .rinv id a⟩ ∧ Cons tbl a
  | _, .raxis _ s => Cons tbl s
  | _, .rtrans T => Cons tbl T
  | _, .tbasic r p => Cons tbl r ∧ Cons tbl p
  | _, .tbasicR r => Cons tbl r
  | _, .tbasicE p => Cons tbl p
  | _, .tmul id a b => tbl id = ⟨_, .tmul id a b⟩ ∧ Cons tbl a ∧ Cons tbl b
  | _, .tinv id a => tbl id = ⟨_, .tinv id a⟩ ∧ Cons tbl a
  | _, .hmul id T h => tbl id = ⟨_, .hmul id T h⟩ ∧ Cons tbl T ∧ Cons tbl h
  | _, .heuc p => Cons tbl p
  | _, _ => True

/-- The nodes with members an evaluation in `env` comes across. -/
def ids (env : Env) : {ty : Ty} → Node ty → List Nat
  | _, .sun _ a => ids env a
  | _, .smul a b => ids env a ++ ids env b
  | _, .sdiv a b => ids env a ++ ids env b
  | _, .sadd a b _ => ids env a ++ ids env b
  | _, .satan2 a b => ids env a ++ ids env b
  | _, .spiece cond a b => if cond env then ids env a else ids env b
  | _, .scomp _ p => ids env p
  | _, .estack a b e => ids env a ++ (ids env b ++ ids env e)
  | _, .eadd a b => ids env a ++ ids env b
  | _, .esub a b => ids env a ++ ids env b
  | _, .esubc a _ => ids env a
  | _, .eneg a => ids env a
  | _, .escale p s => ids env p ++ ids env s
  | _, .ecross a b => ids env a ++ ids env b
  | _, .eelem a b => ids env a ++ ids env b
  | _, .erot id r p => id :: (ids env r ++ ids env p)
  | _, .emat id m p => id :: (ids env m ++ ids env p)
  | _, .etrans T => ids env T
  | _, .ehom h => ids env h
  | _, .rmul id a b => id :: (ids env b ++ ids env a)
  | _, .rinv id a => id :: ids env a
  | _, .raxis _ s => ids env s
  | _, .rtrans T => ids env T
  | _, .tbasic r p => ids env r ++ ids env p
  | _, .tbasicR r => ids env r
  | _, .tbasicE p => ids env p
  | _, .tmul id a b => id :: (ids env b ++ ids env a)
  | _, .tinv id a => id :: ids env a
  | _, .hmul id T h => id :: (ids env T ++ ids env h)
  | _, .heuc p => ids env p
  | _, _ => []

/-- The members of the node `i` hold the current values of its operands. -/
def FreshId (env : Env) (tbl : Table) (σ : Store) (i : Nat) : Prop := ∃ x, cell env (tbl i).2 = .ok x ∧ σ i = some x

/-- So do those of all nodes of `e`. -/
def Fresh (env : Env) (tbl : Table) (σ : Store) {ty : Ty} (e : Node ty) : Prop := ∀ i ∈ ids env e, FreshId env tbl σ i

end Verif.Expr
