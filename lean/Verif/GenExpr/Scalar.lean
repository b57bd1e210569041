import Verif.GenExpr.Lemmas

/-!
Model of `GenericScalarExpression` (`implementation/GenericScalarExpression.hpp`, below `S`) and
`GenericScalar` (`implementation/GenericScalar.hpp`), and the properties of its Jacobians (C57).  Numbers are reals: the
conversions between scalar types are exact here (for fixed-point numbers see `Verif/FixedPoint`).
-/
namespace Verif.GenExpr.GS
open Matrix

/-- The nodes.  `ofV` (S:192-209) is left out: its operand is any vector expression of length one (see `Node.sofV`). -/
inductive GNode
  /-- `GenericScalarExpressionNodeConstant` (S:84-97) -/
  | const (y : ℝ)
  /-- `GenericScalar` (`GenericScalar.hpp`:29-35) -/
  | var (i : Nat)
  /-- `GenericScalarExpressionNodeCasted` (S:65-81) -/
  | cast (a : GNode)
  /-- `GenericScalarExpressionNodeMultiply` (S:99-115) -/
  | mul (a b : GNode)
  /-- `GenericScalarExpressionNodeDivide` (S:117-134) -/
  | div (a b : GNode)
  /-- `GenericScalarExpressionNodeAdd` (S:136-153) -/
  | add (a b : GNode)
  /-- `GenericScalarExpressionNodeSub` (S:155-172) -/
  | sub (a b : GNode)
  /-- `GenericScalarExpressionNodeNegated` (S:174-190) -/
  | neg (a : GNode)

/-- `toScalar` (the `evaluateImplementation`s). The lines are at each node. -/
noncomputable def GNode.val (env : Nat → ℝ) : GNode → ℝ
  | .const y => y
  | .var i => env i
  | .cast a => a.val env
  | .mul a b => a.val env * b.val env
  | .div a b => a.val env / b.val env
  | .add a b => a.val env + b.val env
  | .sub a b => a.val env - b.val env
  | .neg a => -a.val env

/-- `evaluateJacobians` (S:78-80, 93, 111-114, 130-133, 149-152, 168-171, 187-189; `GenericScalar.hpp`:33-35). -/
noncomputable def GNode.jac (env : Nat → ℝ) {R : Nat} : GNode → Chain R → Res (List (Contr R))
  | .const _, _ => .ok []
  | .var i, ch => addId ch (.sc i)
  | .cast a, ch => a.jac env ch
  | .mul a b, ch => cat (a.jac env (ch.pushScalar (b.val env))) (b.jac env (ch.pushScalar (a.val env)))
  | .div a b, ch => cat (a.jac env (ch.pushScalar (-a.val env / (b.val env * b.val env)))) (b.jac env (ch.pushScalar (1 / b.val env)))
  | .add a b, ch => cat (a.jac env ch) (b.jac env ch)
  | .sub a b, ch => cat (a.jac env ch) (b.jac env (ch.pushScalar (-1)))
  | .neg a, ch => a.jac env (ch.pushScalar (-1))

/-- `getDesignVariables` (S:39-41, 54-57, 94; `GenericScalar.hpp`:37-39). -/
def GNode.dvs : GNode → List Nat
  | .const _ => []
  | .var i => [i]
  | .cast a => a.dvs
  | .mul a b => a.dvs ++ b.dvs
  | .div a b => a.dvs ++ b.dvs
  | .add a b => a.dvs ++ b.dvs
  | .sub a b => a.dvs ++ b.dvs
  | .neg a => a.dvs

/-- The expression contains no quotient. -/
def GNode.NoDiv : GNode → Prop
  | .const _ => True
  | .var _ => True
  | .cast a => a.NoDiv
  | .mul a b => a.NoDiv ∧ b.NoDiv
  | .div _ _ => False
  | .add a b => a.NoDiv ∧ b.NoDiv
  | .sub a b => a.NoDiv ∧ b.NoDiv
  | .neg a => a.NoDiv

/-- Generic scalar expressions without quotients: with any chain rule `A` (one column) in the container, the Jacobians
predict `A` times the derivative of the value along every curve of the variables.  Partial: quotients are excluded (see the
counterexample). -/
theorem C57_generic_partial (c : ℝ → Nat → ℝ) (δ : Delta) (t : ℝ)
    (hc : ∀ i, HasDerivAt (fun s => c s i) (δ (.sc i) (0 : Fin 1)) t) : ∀ e : GNode, e.NoDiv →
    ∃ D : ℝ, HasDerivAt (fun s => e.val (c s)) D t ∧ ∀ (R : Nat) (ch : Chain R) A, ch.get 1 = some A →
      ∃ L, e.jac (c t) ch = .ok L ∧ total δ L = A *ᵥ fun _ => D
  | .const y, _ => ⟨0, hasDerivAt_const t y, fun R ch A _ => ⟨[], rfl, by
      rw [show (fun _ : Fin 1 => (0 : ℝ)) = 0 from rfl, Matrix.mulVec_zero]; rfl⟩⟩
  | .var i, _ => ⟨_, hc i, fun R ch A hch => by
      obtain ⟨L, h1, h2⟩ := addId_ok (v := .sc i) hch δ
      refine ⟨L, h1, h2.trans ?_⟩
      congr 1
      funext j
      exact congrArg _ (Subsingleton.elim (α := Fin 1) _ _)⟩
  | .cast a, h => C57_generic_partial c δ t hc a h
  | .mul a b, h => by
      obtain ⟨D, hD, hA⟩ := C57_generic_partial c δ t hc a h.1
      obtain ⟨E, hE, hB⟩ := C57_generic_partial c δ t hc b h.2
      refine ⟨D * b.val (c t) + a.val (c t) * E, hD.mul hE, fun R ch A hch => ?_⟩
      obtain ⟨L, h1, h2⟩ := hA R _ _ (Chain.get_pushScalar hch (b.val (c t)))
      obtain ⟨M, h3, h4⟩ := hB R _ _ (Chain.get_pushScalar hch (a.val (c t)))
      refine ⟨L ++ M, cat_ok h1 h3, ?_⟩
      rw [total_append, h2, h4, Matrix.smul_mulVec, Matrix.smul_mulVec, ← Matrix.mulVec_smul, ← Matrix.mulVec_smul,
        ← Matrix.mulVec_add]
      congr 1
      funext j
      simp only [Pi.add_apply, Pi.smul_apply, smul_eq_mul]
      ring
  | .div _ _, h => h.elim
  | .add a b, h => by
      obtain ⟨D, hD, hA⟩ := C57_generic_partial c δ t hc a h.1
      obtain ⟨E, hE, hB⟩ := C57_generic_partial c δ t hc b h.2
      refine ⟨D + E, hD.add hE, fun R ch A hch => ?_⟩
      obtain ⟨L, h1, h2⟩ := hA R ch A hch
      obtain ⟨M, h3, h4⟩ := hB R ch A hch
      exact ⟨L ++ M, cat_ok h1 h3, by rw [total_append, h2, h4, ← Matrix.mulVec_add]; rfl⟩
  | .sub a b, h => by
      obtain ⟨D, hD, hA⟩ := C57_generic_partial c δ t hc a h.1
      obtain ⟨E, hE, hB⟩ := C57_generic_partial c δ t hc b h.2
      refine ⟨D - E, hD.sub hE, fun R ch A hch => ?_⟩
      obtain ⟨L, h1, h2⟩ := hA R ch A hch
      obtain ⟨M, h3, h4⟩ := hB R _ _ (Chain.get_pushScalar hch (-1))
      refine ⟨L ++ M, cat_ok h1 h3, ?_⟩
      rw [total_append, h2, h4, Matrix.smul_mulVec, ← Matrix.mulVec_smul, ← Matrix.mulVec_add]
      congr 1
      funext j
      simp only [Pi.add_apply, Pi.smul_apply, smul_eq_mul]
      ring
  | .neg a, h => by
      obtain ⟨D, hD, hA⟩ := C57_generic_partial c δ t hc a h
      refine ⟨-D, hD.neg, fun R ch A hch => ?_⟩
      obtain ⟨L, h1, h2⟩ := hA R _ _ (Chain.get_pushScalar hch (-1))
      refine ⟨L, h1, ?_⟩
      rw [h2, Matrix.smul_mulVec, ← Matrix.mulVec_smul]
      congr 1
      funext j
      simp

/-- `(x₀ - 2) * -x₁` contains no quotient; the variables move along a line. -/
example : (GNode.mul (.sub (.var 0) (.const 2)) (.neg (.var 1))).NoDiv ∧
    ∀ i, HasDerivAt (fun s => (fun (s : ℝ) (_ : Nat) => 3 * s) s i) ((fun _ _ => 3 : Delta) (.sc i) (0 : Fin 1)) 1 :=
  ⟨⟨⟨trivial, trivial⟩, trivial⟩, fun _ => by simpa using (hasDerivAt_id (1 : ℝ)).const_mul 3⟩

/-- The quotient `x₀ / x₁` at `(1, 2)`: the two derivatives are exchanged, so the Jacobians predict `-1/4` for a change of
`x₀` where the derivative is `1/2`. -/
theorem C57_generic_divide_counterexample :
    let e := GNode.div (.var 0) (.var 1)
    let env : Nat → ℝ := fun i => if i = 0 then 1 else 2
    let c : ℝ → Nat → ℝ := fun s i => if i = 0 then 1 + s else 2
    let δ : Delta := fun v _ => if v = .sc 0 then 1 else 0
    c 0 = env ∧ HasDerivAt (fun s => e.val (c s)) (1 / 2) 0 ∧
      ∃ L, e.jac env (none : Chain 1) = .ok L ∧ total δ L 0 = -1 / 4 := by
  refine ⟨by funext i; simp, ?_, ?_⟩
  · have := ((hasDerivAt_id (0 : ℝ)).const_add 1).div_const 2
    simpa [GNode.val] using this
  · have h1 : Chain.get (Chain.pushScalar (none : Chain 1) (-1 / (2 * 2))) 1 = some ((-1 / (2 * 2) : ℝ) • 1) :=
      Chain.get_pushScalar Chain.get_none _
    have h2 : Chain.get (Chain.pushScalar (none : Chain 1) (1 / 2)) 1 = some ((1 / 2 : ℝ) • 1) := Chain.get_pushScalar Chain.get_none _
    refine ⟨[⟨.sc 0, (-1 / (2 * 2) : ℝ) • 1⟩, ⟨.sc 1, (1 / 2 : ℝ) • 1⟩], ?_, ?_⟩
    · simp only [GNode.jac, GNode.val, addId, cat, if_true, if_neg (one_ne_zero), h1, h2, Res.bind_ok]
      rfl
    · simp [total, Matrix.smul_mulVec]
      norm_num

/-- The value depends on the reported variables only, and only they receive Jacobians. -/
theorem C62_generic_scalar_depends (env env' : Nat → ℝ) : ∀ e : GNode, (∀ i ∈ e.dvs, env i = env' i) → e.val env = e.val env'
  | .const _, _ => rfl
  | .var i, h => h i (by simp [GNode.dvs])
  | .cast a, h => C62_generic_scalar_depends env env' a h
  | .mul a b, h => by
    rw [GNode.val, GNode.val, C62_generic_scalar_depends env env' a fun i hi => h i (List.mem_append_left _ hi),
      C62_generic_scalar_depends env env' b fun i hi => h i (List.mem_append_right _ hi)]
  | .div a b, h => by
    rw [GNode.val, GNode.val, C62_generic_scalar_depends env env' a fun i hi => h i (List.mem_append_left _ hi),
      C62_generic_scalar_depends env env' b fun i hi => h i (List.mem_append_right _ hi)]
  | .add a b, h => by
    rw [GNode.val, GNode.val, C62_generic_scalar_depends env env' a fun i hi => h i (List.mem_append_left _ hi),
      C62_generic_scalar_depends env env' b fun i hi => h i (List.mem_append_right _ hi)]
  | .sub a b, h => by
    rw [GNode.val, GNode.val, C62_generic_scalar_depends env env' a fun i hi => h i (List.mem_append_left _ hi),
      C62_generic_scalar_depends env env' b fun i hi => h i (List.mem_append_right _ hi)]
  | .neg a, h => by rw [GNode.val, GNode.val, C62_generic_scalar_depends env env' a h]

/-- Changing `x₇` does not change `x₀ / x₁`. -/
example : (GNode.div (.var 0) (.var 1)).val (fun i => if i = 7 then 5 else 2) = (GNode.div (.var 0) (.var 1)).val fun _ => 2 :=
  C62_generic_scalar_depends _ _ _ (by simp [GNode.dvs])

end Verif.GenExpr.GS
