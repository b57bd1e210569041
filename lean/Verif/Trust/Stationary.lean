import Verif.Trust.Props
import Verif.Solver.Interchange

/-!
C107: what the last step says about the result. `Optimizer2`, the base class of the policies, the Levenberg-Marquardt and the Gauss-Newton policy and the
linear solvers put together.
-/
namespace Verif.Trust
open Verif.Optimizer2 Verif.Solver

/-! ### Model -/

/-- A problem and a linear solver, as far as the policies are concerned. `H y` is the matrix of the normal equations of a system built in the state `y` (`buildSystem`), `g y z` their
right-hand side if the errors were evaluated in the state `z` last (`evaluateErrors`, LinearSystemSolver.cpp:17-28). `solver` is `setConstantConditioner(lambda)` (lines 91-94) and
`solveSystem` of a solver whose system was built in the first state given and which evaluated the errors in the second state last; it may have a state of its own and may fail. `built` is what
building the system does to that state. `f` is the total cost, `update` and `revert` are those of the design variables. -/
structure Quad (K X Sv : Type) where
  n : Nat
  H : X → Nat → Nat → K
  g : X → X → Nat → K
  f : X → K
  update : X → (Nat → K) → X
  revert : X → X
  built : Sv → X → Sv
  solver : Sv → X → X → K → Sv × Option (Nat → K)

/-- A least-squares problem and a linear solver: `J x` and `e x` are the weighted Jacobian and negative error of the state `x`, the rest is as above. What the solver does when the system is built
is not visible (for a solver whose steps depend on it see C131). -/
structure NLS (K X Sv : Type) where
  m : Nat
  n : Nat
  J : X → Nat → Nat → K
  e : X → Nat → K
  f : X → K
  update : X → (Nat → K) → X
  revert : X → X
  solver : Sv → X → X → K → Sv × Option (Nat → K)

variable {K X Sv : Type} [Field K] [LinearOrder K] [IsStrictOrderedRing K]

/-- `_dx.array().abs().maxCoeff()`, Optimizer2.cpp:289. -/
def maxAbs (n : Nat) (d : Nat → K) : K := (List.range n).foldl (fun a j => max a |d j|) 0

/-- The normal equations of a least-squares problem (C46, C103: what the linear solvers solve). -/
def NLS.quad (A : NLS K X Sv) : Quad K X Sv :=
  ⟨A.n, fun y k j => ∑ i ∈ Finset.range A.m, A.J y i k * A.J y i j, fun y z k => ∑ i ∈ Finset.range A.m, A.J y i k * A.e z i, A.f, A.update, A.revert, fun s _ => s, A.solver⟩

/-- `rhs()` of a solver whose system was built in the state `y`. -/
def Quad.rhs (A : Quad K X Sv) (y : X) : Nat → K := A.g y y

/-- `rhs()` of a solver whose system was built in the state `y`. -/
def NLS.rhs (A : NLS K X Sv) (y : X) (k : Nat) : K := ∑ i ∈ Finset.range A.m, A.J y i k * A.e y i

/-- The policy: base class, damping, the state in which the solver's system was built last, the solver. `src` is the state to which the last step was applied, `seen` the one
whose errors were evaluated before, `ok` whether the last solve succeeded. -/
structure LMSt (K X Sv : Type) where
  base : Base (Dbl K)
  lm : LM K
  sys : X
  sv : Sv
  src : X
  seen : X
  ok : Bool

/-- The state whose errors were evaluated last: the start, or the last candidate, which may have been rejected (Optimizer2.cpp:166, 205-219). -/
def Quad.last (A : Quad K X Sv) (p : LMSt K X Sv) (x : X) (dx : Nat → K) : X :=
  if p.base.first then x else if p.ok then A.update p.src dx else p.seen

/-- `Optimizer2` with the Levenberg-Marquardt policy: TrustRegionPolicy.cpp:29-54, LevenbergMarquardtTrustRegionPolicy.cpp:37-90 and 105-111. Costs are finite;
a damping that is not a number is taken as a failing solve. -/
def lmSetup (A : Quad K X Sv) (init : LM K) : Setup K X (Nat → K) (LMSt K X Sv) where
  cost x := .fin (A.f x)
  update := A.update
  revert := A.revert
  maxAbs d := .fin (maxAbs A.n d)
  size _ := A.n
  numOpt := A.n
  start p J := { p with base := Base.start J, lm := init }
  solve p x dx J prevFailed :=
    let b := p.base.call J prevFailed
    let d2 := ∑ j ∈ Finset.range A.n, dx j * (p.lm.lambda * dx j + A.rhs p.sys j)
    let rho := match b.gain with
      | .fin g => lmRho g d2
      | _ => .nan
    match lmUpdate p.lm b.first prevFailed rho with
    | none => ({ p with base := b.done }, false, dx)
    | some (lm, rebuild) =>
      let y := if rebuild then x else p.sys
      let r := A.solver (if rebuild then A.built p.sv x else p.sv) y (A.last p x dx) lm.lambda
      match r.2 with
      | some d => (⟨b.done, lm, y, r.1, x, A.last p x dx, true⟩, true, d)
      | none => (⟨b.done, lm, y, r.1, x, A.last p x dx, false⟩, false, dx)
  reverts := true

/-- `Optimizer2` with the Gauss-Newton policy, GaussNewtonTrustRegionPolicy.cpp:19-26 and 36-39. The system is built for every step, steps are never
rejected and there is no conditioner. -/
def gnSetup (A : Quad K X Sv) : Setup K X (Nat → K) (X × Sv) where
  cost x := .fin (A.f x)
  update := A.update
  revert := A.revert
  maxAbs d := .fin (maxAbs A.n d)
  size _ := A.n
  numOpt := A.n
  start p _ := p
  solve p x dx _ _ :=
    let r := A.solver (A.built p.2 x) x x 0
    match r.2 with
    | some d => ((x, r.1), true, d)
    | none => ((x, r.1), false, dx)
  reverts := false

/-! ### Specification -/

/-- The solver returns a solution of the damped normal equations; what it adds to the diagonal is nonnegative and at most `W lambda` (`lambda^2` for the solvers of the
library, C46 and C103). Solvers that keep the right-hand side of the system they built (block and sparse Cholesky, `stored`) use the errors of that state, the others (dense
and sparse QR, DenseQrLinearSystemSolver.cpp:51, SparseQrLinearSystemSolver.cpp:71) the errors evaluated last. -/
def NLS.Solves (A : NLS K X Sv) (stored : Bool) (W : K → K) : Prop :=
  ∀ s y z l d, (A.solver s y z l).2 = some d →
    ∃ w, (∀ k, k < A.n → 0 ≤ w k ∧ w k ≤ W l) ∧ Eqs A.m A.n (A.J y) (A.e (if stored then y else z)) w d

/-- The step solves the normal equations with `w` added to the diagonal. -/
def Quad.Eqs (A : Quad K X Sv) (y z : X) (w d : Nat → K) : Prop := ∀ k, k < A.n → ∑ j ∈ Finset.range A.n, A.H y k j * d j + w k * d k = A.g y z k

/-- `NLS.Solves` without the Jacobian. `Inv s y`: the solver state `s` belongs to the system of the state `y`. `D s l w`: a solver that is in the state `s` after it solved with damping `l`
has added `w` to the diagonal. A Cholesky factorisation that succeeds shows that the matrix it factorised is positive definite, so the step does not point uphill. -/
structure Quad.Solves (A : Quad K X Sv) (stored : Bool) (Inv : Sv → X → Prop) (D : Sv → K → (Nat → K) → Prop) : Prop where
  built : ∀ s x, Inv (A.built s x) x
  kept : ∀ s y z l, Inv s y → Inv (A.solver s y z l).1 y
  sound : ∀ s y z l d, Inv s y → (A.solver s y z l).2 = some d → ∃ w, D (A.solver s y z l).1 l w ∧ A.Eqs y (if stored then y else z) w d ∧
    0 ≤ ∑ k ∈ Finset.range A.n, d k * A.g y (if stored then y else z) k

/-- Two states with the same normal equations and cost. -/
def Quad.Same (A : Quad K X Sv) (x y : X) : Prop := A.H x = A.H y ∧ (∀ z, A.g x z = A.g y z) ∧ (∀ z, A.g z x = A.g z y) ∧ A.f x = A.f y

omit [Field K] [LinearOrder K] [IsStrictOrderedRing K] in
theorem Quad.Same.trans {A : Quad K X Sv} {x y z : X} (h : A.Same x y) (h' : A.Same y z) : A.Same x z :=
  ⟨h.1.trans h'.1, fun u => (h.2.1 u).trans (h'.2.1 u), fun u => (h.2.2.1 u).trans (h'.2.2.1 u), h.2.2.2.trans h'.2.2.2⟩

omit [Field K] [LinearOrder K] [IsStrictOrderedRing K] in
theorem Quad.Same.refl (A : Quad K X Sv) (x : X) : A.Same x x := ⟨rfl, fun _ => rfl, fun _ => rfl, rfl⟩

omit [Field K] [LinearOrder K] [IsStrictOrderedRing K] in
theorem Quad.Same.rhs {A : Quad K X Sv} {x y : X} (h : A.Same x y) : A.rhs x = A.rhs y := (h.2.1 x).trans (h.2.2.1 y)

/-- Undoing an update restores the problem. -/
def Quad.Reverts (A : Quad K X Sv) : Prop := ∀ x d, A.Same (A.revert (A.update x d)) x

/-- Two states with the same Jacobian, errors and cost. The values that the design variables keep for `revertUpdate` may differ. -/
def NLS.Same (A : NLS K X Sv) (x y : X) : Prop := A.J x = A.J y ∧ A.e x = A.e y ∧ A.f x = A.f y

/-- Undoing an update restores the problem. -/
def NLS.Reverts (A : NLS K X Sv) : Prop := ∀ x d, A.Same (A.revert (A.update x d)) x

/-- The solvers of the library are such solvers (C102): what they add is the squared conditioner. -/
theorem solves_of_returned (A : NLS K X Sv) (stored : Bool)
    (h : ∀ s y z l d, (A.solver s y z l).2 = some d → Returned A.m A.n (A.J y) (A.e (if stored then y else z)) (fun _ => l) d) :
    A.Solves stored fun l => l * l := fun s y z l d hd =>
  ⟨fun _ => l * l, fun _ _ => ⟨mul_self_nonneg l, le_refl _⟩, min_normal (h s y z l d hd).min⟩

/-! ### Proofs -/

omit [Field K] [IsStrictOrderedRing K] in
theorem le_foldl_max (g : Nat → K) (l : List Nat) : ∀ a : K, a ≤ l.foldl (fun a j => max a (g j)) a ∧ ∀ j ∈ l, g j ≤ l.foldl (fun a j => max a (g j)) a := by
  induction l with
  | nil => exact fun a => ⟨le_refl _, by simp⟩
  | cons i l ih =>
    intro a
    obtain ⟨h1, h2⟩ := ih (max a (g i))
    refine ⟨le_trans (le_max_left _ _) h1, fun j hj => ?_⟩
    rcases List.mem_cons.1 hj with rfl | hj
    · exact le_trans (le_max_right _ _) h1
    · exact h2 j hj

omit [IsStrictOrderedRing K] in
theorem le_maxAbs {n : Nat} (d : Nat → K) {j : Nat} (hj : j < n) : |d j| ≤ maxAbs n d := (le_foldl_max (fun j => |d j|) (List.range n) 0).2 j (List.mem_range.2 hj)

theorem maxAbs_pos {n : Nat} {d : Nat → K} (h : 0 < maxAbs n d) : ∃ j, j < n ∧ d j ≠ 0 := by
  by_contra hno
  push Not at hno
  have : ∀ l : List Nat, (∀ j ∈ l, j < n) → l.foldl (fun a j => max a |d j|) 0 = 0 := by
    intro l
    induction l with
    | nil => intro _; rfl
    | cons i l ih =>
      intro hl
      rw [List.foldl_cons, hno i (hl i List.mem_cons_self), abs_zero, max_self]
      exact ih fun j hj => hl j (List.mem_cons_of_mem _ hj)
  rw [maxAbs, this _ fun j hj => List.mem_range.1 hj] at h
  exact lt_irrefl _ h

theorem NLS.quad_psd (A : NLS K X Sv) (y : X) (d : Nat → K) : 0 ≤ ∑ k ∈ Finset.range A.n, d k * ∑ j ∈ Finset.range A.n, A.quad.H y k j * d j := by
  have h2 : ∑ k ∈ Finset.range A.n, d k * ∑ j ∈ Finset.range A.n, (∑ i ∈ Finset.range A.m, A.J y i k * A.J y i j) * d j =
      ∑ i ∈ Finset.range A.m, (∑ j ∈ Finset.range A.n, A.J y i j * d j) * (∑ j ∈ Finset.range A.n, A.J y i j * d j) := by
    symm
    calc ∑ i ∈ Finset.range A.m, (∑ j ∈ Finset.range A.n, A.J y i j * d j) * (∑ j ∈ Finset.range A.n, A.J y i j * d j)
        = ∑ i ∈ Finset.range A.m, ∑ k ∈ Finset.range A.n, ∑ j ∈ Finset.range A.n, A.J y i k * d k * (A.J y i j * d j) :=
          Finset.sum_congr rfl fun i _ => Finset.sum_mul_sum ..
      _ = ∑ k ∈ Finset.range A.n, ∑ i ∈ Finset.range A.m, ∑ j ∈ Finset.range A.n, A.J y i k * d k * (A.J y i j * d j) := Finset.sum_comm
      _ = ∑ k ∈ Finset.range A.n, ∑ j ∈ Finset.range A.n, ∑ i ∈ Finset.range A.m, A.J y i k * d k * (A.J y i j * d j) :=
          Finset.sum_congr rfl fun k _ => Finset.sum_comm
      _ = _ := Finset.sum_congr rfl fun k _ => by
          rw [Finset.mul_sum]
          refine Finset.sum_congr rfl fun j _ => ?_
          rw [Finset.sum_mul, Finset.mul_sum]
          exact Finset.sum_congr rfl fun i _ => by ring
  show 0 ≤ ∑ k ∈ Finset.range A.n, d k * ∑ j ∈ Finset.range A.n, (∑ i ∈ Finset.range A.m, A.J y i k * A.J y i j) * d j
  rw [h2]
  exact Finset.sum_nonneg fun _ _ => mul_self_nonneg _

theorem quad_solves {A : NLS K X Sv} {stored : Bool} {W : K → K} (hA : A.Solves stored W) :
    A.quad.Solves stored (fun _ _ => True) fun _ l w => ∀ k, k < A.n → 0 ≤ w k ∧ w k ≤ W l := by
  refine ⟨fun _ _ => trivial, fun _ _ _ _ _ => trivial, fun s y z l d _ h => ?_⟩
  obtain ⟨w, h1, h2⟩ := hA s y z l d h
  refine ⟨w, h1, h2, ?_⟩
  have : ∑ k ∈ Finset.range A.n, d k * A.quad.g y (if stored then y else z) k =
      ∑ k ∈ Finset.range A.n, d k * ∑ j ∈ Finset.range A.n, A.quad.H y k j * d j + ∑ k ∈ Finset.range A.n, w k * (d k * d k) := by
    rw [← Finset.sum_add_distrib]
    refine Finset.sum_congr rfl fun k hk => ?_
    have h3 : ∑ j ∈ Finset.range A.n, A.quad.H y k j * d j + w k * d k = A.quad.g y (if stored then y else z) k := h2 k (Finset.mem_range.1 hk)
    rw [← h3]
    ring
  show 0 ≤ ∑ k ∈ Finset.range A.n, d k * A.quad.g y (if stored then y else z) k
  rw [this]
  exact add_nonneg (A.quad_psd y d) (Finset.sum_nonneg fun k hk => mul_nonneg (h1 k (Finset.mem_range.1 hk)).1 (mul_self_nonneg _))

/-- The predicted decrease of a nonzero damped step is positive. -/
theorem predicted_pos {A : Quad K X Sv} {y : X} {d : Nat → K} {l : K} (hl : 0 < l) (h : 0 ≤ ∑ k ∈ Finset.range A.n, d k * A.rhs y k)
    (hd : ∃ j, j < A.n ∧ d j ≠ 0) : 0 < ∑ j ∈ Finset.range A.n, d j * (l * d j + A.rhs y j) := by
  have h1 : ∑ j ∈ Finset.range A.n, d j * (l * d j + A.rhs y j) = ∑ j ∈ Finset.range A.n, l * (d j * d j) + ∑ k ∈ Finset.range A.n, d k * A.rhs y k := by
    rw [← Finset.sum_add_distrib]
    exact Finset.sum_congr rfl fun k _ => by ring
  rw [h1]
  obtain ⟨j, hj, hne⟩ := hd
  have p1 : 0 < ∑ j ∈ Finset.range A.n, l * (d j * d j) :=
    Finset.sum_pos' (fun i _ => mul_nonneg hl.le (mul_self_nonneg _)) ⟨j, Finset.mem_range.2 hj, mul_pos hl (mul_self_pos.2 hne)⟩
  linarith

/-- A small step means a small right-hand side. -/
theorem rhs_le {A : Quad K X Sv} {y z : X} {w d : Nat → K} (h : A.Eqs y z w d) {c : K} (hd : ∀ j, j < A.n → |d j| ≤ c) {k : Nat}
    (hk : k < A.n) : |A.g y z k| ≤ (∑ j ∈ Finset.range A.n, |A.H y k j| + |w k|) * c := by
  rw [← h k hk, add_mul, Finset.sum_mul]
  refine le_trans (abs_add_le _ _) (add_le_add (le_trans (Finset.abs_sum_le_sum_abs _ _) (Finset.sum_le_sum fun j hj => ?_)) ?_)
  · rw [abs_mul]
    exact mul_le_mul_of_nonneg_left (hd j (Finset.mem_range.1 hj)) (abs_nonneg _)
  · rw [abs_mul]
    exact mul_le_mul_of_nonneg_left (hd k hk) (abs_nonneg _)

omit [LinearOrder K] [IsStrictOrderedRing K] in
theorem eqs_same {A : Quad K X Sv} {y y' z z' : X} (hy : A.Same y y') (hz : A.Same z z') {w d : Nat → K} (h : A.Eqs y z w d) : A.Eqs y' z' w d := fun k hk => by
  rw [← hy.1, ← hy.2.1, ← hz.2.2.1]
  exact h k hk

omit [Field K] [LinearOrder K] [IsStrictOrderedRing K] in
theorem Quad.Same.symm {A : Quad K X Sv} {x y : X} (h : A.Same x y) : A.Same y x :=
  ⟨h.1.symm, fun u => (h.2.1 u).symm, fun u => (h.2.2.1 u).symm, h.2.2.2.symm⟩

/-- The solver has solved once, with damping `l`, since a system was built. -/
def Quad.Once (A : Quad K X Sv) (s : Sv) (l : K) : Prop := ∃ s0 x z, s = (A.solver (A.built s0 x) x z l).1

/-- What holds between two passes of the loop if no linear solve has failed. -/
structure Good (A : Quad K X Sv) (R : X → X → Prop) (Inv : Sv → X → Prop) (D : Sv → K → (Nat → K) → Prop) (o : Options K) (s : St K X (Nat → K) (LMSt K X Sv)) : Prop where
  lm : LMOk s.p.lm
  failed : 0 ≤ s.failed
  pJ : s.pJ = .fin (A.f s.x)
  first : s.p.base.first = true → s.iterations = 0 ∧ s.prevFailed = false ∧ s.error = .fin (A.f s.x) ∧ s.deltaX = .fin (o.convergenceDeltaX + 1)
  after : s.p.base.first = false → ∃ w E B, (D s.p.sv s.p.lm.lambda w ∧ Inv s.p.sv s.p.sys ∧ (s.failed = 0 → A.Once s.p.sv s.p.lm.lambda)) ∧ A.Eqs s.p.src s.p.src w s.dx ∧ 0 ≤ ∑ k ∈ Finset.range A.n, s.dx k * A.rhs s.p.src k ∧
    s.deltaX = .fin (maxAbs A.n s.dx) ∧ s.error = .fin E ∧ s.p.base.J = .fin B ∧ s.p.ok = true ∧ A.Same s.p.src s.p.sys ∧
    ((s.prevFailed = true ∧ s.failed ≠ 0 ∧ R s.x s.p.src ∧ A.f s.x ≤ E) ∨
      (s.prevFailed = false ∧ s.x = A.update s.p.src s.dx ∧ E = A.f s.x ∧ ∃ δ, s.deltaJ = .fin δ ∧ 0 ≤ δ ∧ E + δ ≤ B))

/-- A successful solve in such a state solves the system of the current state. -/
theorem solve_current {A : Quad K X Sv} {R : X → X → Prop} (hR : ∀ x y, R x y → A.Same x y) {stored : Bool} {Inv : Sv → X → Prop} {D : Sv → K → (Nat → K) → Prop} (hA : A.Solves stored Inv D) {init : LM K} {o : Options K} (hx : 0 ≤ o.convergenceDeltaX) (he : 0 ≤ o.convergenceDeltaError)
    {s : St K X (Nat → K) (LMSt K X Sv)} (hg : Good A R Inv D o s) (hl : s.lsf = false) (hst : stored = true ∨ s.failed = 0)
    (hrun : running o s = true) (hs : ((lmSetup A init).solve s.p s.x s.dx s.error s.prevFailed).2.1 = true) :
    ∃ w p d, (lmSetup A init).solve s.p s.x s.dx s.error s.prevFailed = (p, true, d) ∧ A.Same s.x p.sys ∧ LMOk p.lm ∧ p.base.first = false ∧ p.base.J = s.error ∧ p.ok = true ∧ p.src = s.x ∧
      (D p.sv p.lm.lambda w ∧ Inv p.sv p.sys ∧ (s.failed = 0 → A.Once p.sv p.lm.lambda)) ∧ A.Eqs s.x s.x w d ∧ 0 ≤ ∑ k ∈ Finset.range A.n, d k * A.rhs s.x k := by
  simp only [running, hl, Bool.or_false, Bool.and_eq_true] at hrun
  obtain ⟨-, hdx, hdj⟩ := hrun
  have key : ∃ lm rebuild, lmUpdate s.p.lm (s.p.base.call s.error s.prevFailed).first s.prevFailed
      (match (s.p.base.call s.error s.prevFailed).gain with
        | .fin g => lmRho g (∑ j ∈ Finset.range A.n, s.dx j * (s.p.lm.lambda * s.dx j + A.rhs s.p.sys j))
        | _ => .nan) = some (lm, rebuild) ∧ LMOk lm ∧ A.Same s.x (if rebuild = true then s.x else s.p.sys) ∧
        Inv (if rebuild = true then A.built s.p.sv s.x else s.p.sv) (if rebuild = true then s.x else s.p.sys) ∧ (s.failed = 0 → rebuild = true) := by
    cases hf : s.p.base.first with
    | true =>
      refine ⟨s.p.lm, true, ?_, hg.lm, by simpa using Quad.Same.refl A s.x, by simpa using hA.built _ _, fun _ => rfl⟩
      simp [lmUpdate, Base.call, hf]
    | false =>
      obtain ⟨w, E, B, hw, heq, h0, hX, hE, hB, -, hss, hcase⟩ := hg.after hf
      rcases hcase with ⟨hp, hfail, hsys, -⟩ | ⟨hp, hsys, hEf, δ, hδ, hδ0, hEB⟩
      · have hc : (s.p.base.call s.error s.prevFailed).first = false := by simp [Base.call, hf]
        rw [hc, hp]
        refine ⟨{ s.p.lm with mu := s.p.lm.mu * 2, lambda := s.p.lm.lambda * (s.p.lm.mu * 2) }, false, by simp [lmUpdate], ?_, by simpa using (hR _ _ hsys).trans hss, by simpa using hw.2.1, fun h => absurd h hfail⟩
        obtain ⟨h1, h2, h3, h4, h5⟩ := hg.lm
        exact ⟨by simp only; nlinarith, h2, h3, by simp only; linarith, h5⟩
      · have hgain : (s.p.base.call s.error s.prevFailed).gain = .fin (B - E) := by
          simp [Base.gain, Base.call, hp, hB, hE, Dbl.sub]
        have hc : (s.p.base.call s.error s.prevFailed).first = false := by simp [Base.call, hf]
        rw [hδ] at hdj
        have hpos : 0 < δ := by
          have : o.convergenceDeltaError < |δ| := by simpa [Dbl.abs, Dbl.lt] using hdj
          rw [abs_of_nonneg hδ0] at this
          linarith
        rw [hX, Dbl.lt_fin] at hdx
        have hd2 : 0 < ∑ j ∈ Finset.range A.n, s.dx j * (s.p.lm.lambda * s.dx j + A.rhs s.p.sys j) :=
          predicted_pos hg.lm.lambda (by rw [← hss.rhs]; exact h0) (maxAbs_pos (lt_of_le_of_lt hx hdx))
        rw [hgain, hc]
        simp only [lmRho, Dbl.div, if_neg hd2.ne', hp]
        obtain ⟨lm, b, h1, h2, -, -, -, -, h3⟩ := lmUpdate_spec s.p.lm hg.lm false
          (.fin ((B - E) / ∑ j ∈ Finset.range A.n, s.dx j * (s.p.lm.lambda * s.dx j + A.rhs s.p.sys j))) (by simp) (by simp)
        have hrho : 0 < (B - E) / ∑ j ∈ Finset.range A.n, s.dx j * (s.p.lm.lambda * s.dx j + A.rhs s.p.sys j) := div_pos (by linarith) hd2
        have hb := (h3 rfl (by
          have := Dbl.le_fin ((B - E) / ∑ j ∈ Finset.range A.n, s.dx j * (s.p.lm.lambda * s.dx j + A.rhs s.p.sys j)) 0
          rw [Bool.eq_false_iff, ne_eq, this]
          exact not_le.2 hrho)).1
        exact ⟨lm, b, h1, h2, by simpa [hb] using Quad.Same.refl A s.x, by simpa [hb] using hA.built _ _, fun _ => hb⟩
  obtain ⟨lm, rebuild, hu, hlm, hy, hinv, hone⟩ := key
  have hlast : A.Same s.x (if stored = true then (if rebuild = true then s.x else s.p.sys) else A.last s.p s.x s.dx) := by
    by_cases hs' : stored = true
    · rw [if_pos hs']
      exact hy
    · have h := hst.resolve_left hs'
      have : A.last s.p s.x s.dx = s.x := by
        unfold Quad.last
        cases hf : s.p.base.first with
        | true => rfl
        | false =>
          obtain ⟨w, E, B, -, -, -, -, -, -, hok, -, hcase⟩ := hg.after hf
          rcases hcase with ⟨-, hp, -⟩ | ⟨-, hsys, -⟩
          · exact absurd h hp
          · simp [hok, hsys]
      rw [if_neg hs', this]
      exact Quad.Same.refl A s.x
  simp only [lmSetup, hu] at hs ⊢
  cases hr : (A.solver (if rebuild = true then A.built s.p.sv s.x else s.p.sv) (if rebuild = true then s.x else s.p.sys) (A.last s.p s.x s.dx) lm.lambda).2 with
  | none => simp [hr] at hs
  | some d =>
    obtain ⟨w, h1, h2, h3⟩ := hA.sound _ _ _ _ _ hinv hr
    refine ⟨w, _, d, rfl, hy, hlm, rfl, rfl, rfl, rfl, ⟨h1, hA.kept _ _ _ _ hinv, fun h => ⟨s.p.sv, s.x, A.last s.p s.x s.dx, by simp [hone h]⟩⟩, eqs_same (hy.symm) hlast.symm h2, ?_⟩
    rw [Quad.rhs, hy.2.1, hlast.2.2.1]
    exact h3

theorem lm_inv {A : Quad K X Sv} {R : X → X → Prop} (hR : ∀ x y, R x y → A.Same x y) {stored : Bool} {Inv : Sv → X → Prop} {D : Sv → K → (Nat → K) → Prop} (hA : A.Solves stored Inv D) (hrev : ∀ x d, R (A.revert (A.update x d)) x) {init : LM K} (hi : LMOk init) {o : Options K} (hx : 0 ≤ o.convergenceDeltaX)
    (he : 0 ≤ o.convergenceDeltaError) (b : Obj K X (Nat → K) (LMSt K X Sv)) (hb : b.iterations = 0) (hb' : b.failed = 0) {s : St K X (Nat → K) (LMSt K X Sv)}
    (h : loop (lmSetup A init) o (enter (lmSetup A init) o b) = .ok s) : s.lsf = true ∨ (stored = false ∧ 0 < s.failed) ∨ Good A R Inv D o s := by
  refine (loop_inv (S := lmSetup A init) (o := o) (fun s => s.lsf = true ∨ (stored = false ∧ 0 < s.failed) ∨ Good A R Inv D o s) ?_ _ ?_ _ h).1
  · intro s s' hrun hit hI
    cases hl : s.lsf with
    | true =>
      left
      rcases iter_cases hit with ⟨-, rfl⟩ | ⟨-, -, -, rfl⟩ | ⟨-, -, rfl⟩
      · rfl
      · exact hl
      · exact hl
    | false =>
      rcases hI.resolve_left (by simp [hl]) with ⟨h1, h2⟩ | hg
      · right; left
        refine ⟨h1, ?_⟩
        rcases iter_cases hit with ⟨-, rfl⟩ | ⟨-, -, -, rfl⟩ | ⟨-, -, rfl⟩ <;> simp only [afterFailure, afterReject, afterAccept] <;> omega
      by_cases hst : ¬ (stored = true ∨ s.failed = 0)
      · right; left
        push Not at hst
        have := hg.failed
        refine ⟨by simpa using hst.1, ?_⟩
        rcases iter_cases hit with ⟨-, rfl⟩ | ⟨-, -, -, rfl⟩ | ⟨-, -, rfl⟩ <;> simp only [afterFailure, afterReject, afterAccept] <;> omega
      rw [not_not] at hst
      rcases iter_cases hit with ⟨-, rfl⟩ | ⟨hs, -, hlt, rfl⟩ | ⟨hs, hge, rfl⟩
      · exact .inl rfl
      · right; right
        obtain ⟨w, p, d, e1, e2, e3, e4, e5, e8, e9, e6, e7, e0⟩ := solve_current hR hA hx he hg hl hst hrun hs
        have hpJ := hg.pJ
        have hE : ∃ E, s.error = .fin E := by
          cases hf : s.p.base.first with
          | true => exact ⟨_, (hg.first hf).2.2.1⟩
          | false => obtain ⟨-, E, -, -, -, -, -, hE, -⟩ := hg.after hf; exact ⟨E, hE⟩
        obtain ⟨E, hE⟩ := hE
        have hc : A.f s.x < A.f (A.update s.x d) := by
          have := hlt
          rw [candidate, e1, hpJ] at this
          simpa [lmSetup, Dbl.sub, Dbl.lt] using this
        have hx'' : R (A.revert (A.update s.x d)) s.x := hrev _ _
        have hx' := hR _ _ hx''
        refine ⟨?_, ?_, ?_, ?_, fun _ => ⟨w, A.f (A.update s.x d), E, ?_, ?_, ?_, ?_, ?_, ?_, ?_, ?_, .inl ⟨rfl, ?_, ?_, ?_⟩⟩⟩
        · simpa [afterReject, e1] using e3
        · have := hg.failed
          simp only [afterReject]; omega
        · simp only [afterReject, candidate, e1]
          rw [show A.f ((lmSetup A init).revert ((lmSetup A init).update s.x d)) = A.f s.x from hx'.2.2.2]
          exact hpJ
        · intro hf
          simp only [afterReject, e1, e4] at hf
          cases hf
        · refine ⟨by simpa [afterReject, e1] using e6.1, by simpa [afterReject, e1] using e6.2.1, fun h => ?_⟩
          have := hg.failed
          simp only [afterReject] at h
          omega
        · simp only [afterReject, e1, e9]
          exact e7
        · simp only [afterReject, e1, e9]
          exact e0
        · simp only [afterReject, e1]; rfl
        · simp only [afterReject, candidate, e1]; rfl
        · simp only [afterReject, e1]
          rw [e5, hE]
        · simpa [afterReject, e1] using e8
        · simp only [afterReject, e1]
          rw [e9]
          exact e2
        · have := hg.failed
          simp only [afterReject]; omega
        · simp only [afterReject, candidate, e1, e9]
          exact hx''
        · simp only [afterReject, candidate, e1]
          rw [show A.f ((lmSetup A init).revert ((lmSetup A init).update s.x d)) = A.f s.x from hx'.2.2.2]
          exact hc.le
      · right; right
        obtain ⟨w, p, d, e1, e2, e3, e4, e5, e8, e9, e6, e7, e0⟩ := solve_current hR hA hx he hg hl hst hrun hs
        have hpJ := hg.pJ
        have hE : ∃ E, s.error = .fin E ∧ A.f s.x ≤ E := by
          cases hf : s.p.base.first with
          | true => exact ⟨_, (hg.first hf).2.2.1, le_refl _⟩
          | false =>
            obtain ⟨_, E, _, -, -, -, -, hE, -, -, -, hc⟩ := hg.after hf
            refine ⟨E, hE, ?_⟩
            rcases hc with ⟨-, -, -, h⟩ | ⟨-, -, h, -⟩
            · exact h
            · exact h.ge
        obtain ⟨E, hE, hEf⟩ := hE
        have hc : A.f (A.update s.x d) ≤ A.f s.x := by
          have := hge rfl
          rw [candidate, e1, hpJ] at this
          simpa [lmSetup, Dbl.sub, Dbl.lt] using this
        refine ⟨?_, ?_, ?_, ?_, fun _ => ⟨w, A.f (A.update s.x d), E, ?_, ?_, ?_, ?_, ?_, ?_, ?_, ?_, .inr ⟨?_, ?_, ?_, A.f s.x - A.f (A.update s.x d), ?_, by linarith, by linarith⟩⟩⟩
        · simpa [afterAccept, e1] using e3
        · exact hg.failed
        · simp only [afterAccept, candidate, e1]; rfl
        · intro hf
          simp only [afterAccept, e1, e4] at hf
          cases hf
        · simpa [afterAccept, e1] using e6
        · simp only [afterAccept, e1, e9]
          exact e7
        · simp only [afterAccept, e1, e9]
          exact e0
        · simp only [afterAccept, e1]; rfl
        · simp only [afterAccept, candidate, e1]; rfl
        · simp only [afterAccept, e1]
          rw [e5, hE]
        · simpa [afterAccept, e1] using e8
        · simp only [afterAccept, e1]
          rw [e9]
          exact e2
        · simp [afterAccept, lmSetup]
        · simp only [afterAccept, candidate, e1, e9]; rfl
        · simp only [afterAccept, candidate, e1]; rfl
        · simp only [afterAccept, candidate, e1, hpJ]; rfl
  · right; right
    refine ⟨hi, hb'.ge, rfl, fun _ => ⟨hb, rfl, rfl, rfl⟩, fun hf => ?_⟩
    simp [enter, lmSetup, Base.start] at hf

theorem quad_lm (A : Quad K X Sv) (R : X → X → Prop) (hR : ∀ x y, R x y → A.Same x y) (stored : Bool) (Inv : Sv → X → Prop) (D : Sv → K → (Nat → K) → Prop)
    (hA : A.Solves stored Inv D) (hrev : ∀ x d, R (A.revert (A.update x d)) x) (init : LM K) (hi : LMOk init) (o : Options K)
    (hx : 0 ≤ o.convergenceDeltaX) (he : 0 ≤ o.convergenceDeltaError) (b r : Obj K X (Nat → K) (LMSt K X Sv)) (hb : b.initialized = false)
    (h : optimize (lmSetup A init) o b = .ok r) (hlsf : r.linearSolverFailure = false) (hqr : stored = true ∨ r.failed = 0) (hit : r.iterations ≠ 0) :
    ∃ x0 w, D r.p.sv r.p.lm.lambda w ∧ (r.failed = 0 → A.Once r.p.sv r.p.lm.lambda) ∧ A.Eqs x0 x0 w r.dx ∧ r.dXFinal = .fin (maxAbs A.n r.dx) ∧
      (r.x = A.update x0 r.dx ∨ R r.x x0) := by
  obtain ⟨s, e, rfl⟩ := run_ok (show run (lmSetup A init) o _ = .ok r from h)
  have hg : Good A R Inv D o s := by
    rcases lm_inv hR hA hrev hi hx he _ (by rw [hb]; rfl) (by rw [hb]; rfl) e with h | ⟨h1, h2⟩ | h
    · simp only [leave] at hlsf; simp [hlsf] at h
    · simp only [leave] at hqr
      rcases hqr with h | h
      · rw [h] at h1; cases h1
      · omega
    · exact h
  cases hf : s.p.base.first with
  | true => exact absurd (hg.first hf).1 hit
  | false =>
    obtain ⟨w, E, B, h1, h2, -, h3, -, -, -, -, hc⟩ := hg.after hf
    refine ⟨s.p.src, w, h1.1, h1.2.2, h2, h3, ?_⟩
    rcases hc with ⟨-, -, h, -⟩ | ⟨-, h, -⟩
    · exact .inr h
    · exact .inl h

theorem quad_lm_converged (A : Quad K X Sv) (R : X → X → Prop) (hR : ∀ x y, R x y → A.Same x y) (stored : Bool) (Inv : Sv → X → Prop) (D : Sv → K → (Nat → K) → Prop)
    (hA : A.Solves stored Inv D) (hrev : ∀ x d, R (A.revert (A.update x d)) x) (init : LM K) (hi : LMOk init) (o : Options K)
    (hx : 0 ≤ o.convergenceDeltaX) (he : 0 ≤ o.convergenceDeltaError) (b r : Obj K X (Nat → K) (LMSt K X Sv)) (hb : b.initialized = false)
    (h : optimize (lmSetup A init) o b = .ok r) (hconv : r.conv = .dx) (hqr : stored = true ∨ r.failed = 0) :
    ∃ x0 w, (r.x = A.update x0 r.dx ∨ R r.x x0) ∧ (∀ j, j < A.n → |r.dx j| ≤ o.convergenceDeltaX) ∧ D r.p.sv r.p.lm.lambda w ∧ (r.failed = 0 → A.Once r.p.sv r.p.lm.lambda) ∧
      ∀ k, k < A.n → |A.rhs x0 k| ≤ (∑ j ∈ Finset.range A.n, |A.H x0 k j| + |w k|) * o.convergenceDeltaX := by
  obtain ⟨s, e, rfl⟩ := run_ok (show run (lmSetup A init) o _ = .ok r from h)
  have hbc : (if b.initialized = true then b else initObj b).conv = .inProgress := by rw [hb]; rfl
  have hcl : s.lsf = false ∧ Dbl.le s.deltaX (.fin o.convergenceDeltaX) = true := by
    simp only [leave, classify, hbc] at hconv
    split_ifs at hconv with h1 h2 h3
    simp only [Bool.or_eq_true, not_or, Bool.not_eq_true] at h2
    exact ⟨h2.1, h3⟩
  have hg : Good A R Inv D o s := by
    rcases lm_inv hR hA hrev hi hx he _ (by rw [hb]; rfl) (by rw [hb]; rfl) e with h | ⟨h1, h2⟩ | h
    · simp [hcl.1] at h
    · simp only [leave] at hqr
      rcases hqr with h | h
      · rw [h] at h1; cases h1
      · omega
    · exact h
  cases hf : s.p.base.first with
  | true =>
    have := hcl.2
    rw [(hg.first hf).2.2.2, Dbl.le_fin] at this
    linarith
  | false =>
    obtain ⟨w, E, B, h1, h2, -, h3, -, -, -, -, hc⟩ := hg.after hf
    have hd : ∀ j, j < A.n → |s.dx j| ≤ o.convergenceDeltaX := by
      intro j hj
      have := hcl.2
      rw [h3, Dbl.le_fin] at this
      exact le_trans (le_maxAbs _ hj) this
    refine ⟨s.p.src, w, ?_, hd, h1.1, h1.2.2, fun k hk => rhs_le h2 hd hk⟩
    rcases hc with ⟨-, -, h, -⟩ | ⟨-, h, -⟩
    · exact .inr h
    · exact .inl h

theorem quad_gn (A : Quad K X Sv) (stored : Bool) (Inv : Sv → X → Prop) (D : Sv → K → (Nat → K) → Prop) (hA : A.Solves stored Inv D)
    (hD : ∀ s x d w, (A.solver (A.built s x) x x 0).2 = some d → D (A.solver (A.built s x) x x 0).1 0 w → ∀ k, k < A.n → w k = 0) (o : Options K)
    (b r : Obj K X (Nat → K) (X × Sv)) (hb : b.initialized = false) (h : optimize (gnSetup A) o b = .ok r) (hconv : r.conv = .dx) :
    ∃ x0 w, r.x = A.update x0 r.dx ∧ (∀ j, j < A.n → |r.dx j| ≤ o.convergenceDeltaX) ∧ (∀ k, k < A.n → w k = 0) ∧ A.Eqs x0 x0 w r.dx := by
  obtain ⟨s, e, rfl⟩ := run_ok (show run (gnSetup A) o _ = .ok r from h)
  have hbc : (if b.initialized = true then b else initObj b).conv = .inProgress := by rw [hb]; rfl
  have hcl : s.lsf = false ∧ Dbl.le s.deltaX (.fin o.convergenceDeltaX) = true := by
    simp only [leave, classify, hbc] at hconv
    split_ifs at hconv with h1 h2 h3
    simp only [Bool.or_eq_true, not_or, Bool.not_eq_true] at h2
    exact ⟨h2.1, h3⟩
  have inv := (loop_inv (S := gnSetup A) (o := o) (fun s => s.lsf = true ∨ s.deltaX = .fin (o.convergenceDeltaX + 1) ∨
    ∃ x0 w, s.x = A.update x0 s.dx ∧ s.deltaX = .fin (maxAbs A.n s.dx) ∧ (∀ k, k < A.n → w k = 0) ∧ A.Eqs x0 x0 w s.dx) ?_ _ (.inr (.inl rfl)) _ e).1
  · rcases inv with h | h | ⟨x0, w, h1, h2, h3, h4⟩
    · rw [hcl.1] at h; cases h
    · have := hcl.2
      rw [h, Dbl.le_fin] at this
      linarith
    · have hd : ∀ j, j < A.n → |s.dx j| ≤ o.convergenceDeltaX := by
        intro j hj
        have := hcl.2
        rw [h2, Dbl.le_fin] at this
        exact le_trans (le_maxAbs _ hj) this
      exact ⟨x0, w, h1, hd, h3, h4⟩
  · intro s s' _ hit hI
    rcases iter_cases hit with ⟨-, rfl⟩ | ⟨-, h, -⟩ | ⟨hs, -, rfl⟩
    · exact .inl rfl
    · cases h
    · refine .inr (.inr ?_)
      simp only [gnSetup] at hs
      cases hr : (A.solver (A.built s.p.2 s.x) s.x s.x 0).2 with
      | none => simp [hr] at hs
      | some d =>
        obtain ⟨w, h1, h2⟩ := hA.sound _ _ _ _ _ (hA.built _ _) hr
        rw [ite_self] at h2
        have e1 : (gnSetup A).solve s.p s.x s.dx s.error s.prevFailed = ((s.x, (A.solver (A.built s.p.2 s.x) s.x s.x 0).1), true, d) := by simp [gnSetup, hr]
        refine ⟨s.x, w, ?_, ?_, hD _ _ _ _ hr h1, ?_⟩
        · simp only [afterAccept, candidate, e1]; rfl
        · simp only [afterAccept, e1]; rfl
        · simp only [afterAccept, e1]; exact h2.1

omit [LinearOrder K] [IsStrictOrderedRing K] in
theorem quad_reverts {A : NLS K X Sv} (h : A.Reverts) : A.quad.Reverts := by
  intro x d
  obtain ⟨h1, h2, h3⟩ := h x d
  refine ⟨?_, fun z => ?_, fun z => ?_, h3⟩
  · simp only [NLS.quad, h1]
  · simp only [NLS.quad, h1]
  · simp only [NLS.quad, h2]

/-- **C107, Levenberg-Marquardt** (partial: runs without a failed linear solve, and for QR solvers without a rejected step). After every run the last step is the damped
Gauss-Newton step, for the current damping, of the state it was applied to: the system is never out of date. The result is that state moved by the step, or, if the step
was rejected, that state again (up to what the design variables keep for the next `revertUpdate`). Missing: the other runs, see the counterexamples. -/
theorem C107_lm_partial (A : NLS K X Sv) (stored : Bool) (W : K → K) (hA : A.Solves stored W) (hrev : A.Reverts) (init : LM K) (hi : LMOk init) (o : Options K)
    (hx : 0 ≤ o.convergenceDeltaX) (he : 0 ≤ o.convergenceDeltaError) (b r : Obj K X (Nat → K) (LMSt K X Sv)) (hb : b.initialized = false)
    (h : optimize (lmSetup A.quad init) o b = .ok r) (hlsf : r.linearSolverFailure = false) (hqr : stored = true ∨ r.failed = 0) (hit : r.iterations ≠ 0) :
    ∃ x0 w, (∀ k, k < A.n → 0 ≤ w k ∧ w k ≤ W r.p.lm.lambda) ∧ Eqs A.m A.n (A.J x0) (A.e x0) w r.dx ∧ r.dXFinal = .fin (maxAbs A.n r.dx) ∧
      (r.x = A.update x0 r.dx ∨ A.quad.Same r.x x0) := by
  obtain ⟨x0, w, h1, -, h2, h3, h4⟩ := quad_lm A.quad A.quad.Same (fun _ _ h => h) stored _ _ (quad_solves hA) (quad_reverts hrev) init hi o hx he b r hb h hlsf hqr hit
  exact ⟨x0, w, h1, h2, h3, h4⟩

/-- **C107, convergence.** If the status is that the step was small, the result is within one such step of (or is) a state whose right-hand side `Jᵀe`, minus half
the gradient, is small: at most (row sum of `JᵀJ` + damping) times the threshold in each coordinate. (Partial: the damping is part of the bound, see the counterexample.) -/
theorem C107_lm_converged_partial (A : NLS K X Sv) (stored : Bool) (W : K → K) (hA : A.Solves stored W) (hrev : A.Reverts) (init : LM K) (hi : LMOk init) (o : Options K)
    (hx : 0 ≤ o.convergenceDeltaX) (he : 0 ≤ o.convergenceDeltaError) (b r : Obj K X (Nat → K) (LMSt K X Sv)) (hb : b.initialized = false)
    (h : optimize (lmSetup A.quad init) o b = .ok r) (hconv : r.conv = .dx) (hqr : stored = true ∨ r.failed = 0) :
    ∃ x0, (r.x = A.update x0 r.dx ∨ A.quad.Same r.x x0) ∧ (∀ j, j < A.n → |r.dx j| ≤ o.convergenceDeltaX) ∧
      ∀ k, k < A.n → |A.rhs x0 k| ≤ (∑ j ∈ Finset.range A.n, |∑ i ∈ Finset.range A.m, A.J x0 i k * A.J x0 i j| + W r.p.lm.lambda) * o.convergenceDeltaX := by
  obtain ⟨x0, w, h1, h2, h3, -, h4⟩ := quad_lm_converged A.quad A.quad.Same (fun _ _ h => h) stored _ _ (quad_solves hA) (quad_reverts hrev) init hi o hx he b r hb h hconv hqr
  refine ⟨x0, h1, h2, fun k hk => le_trans (h4 k hk) (mul_le_mul_of_nonneg_right ?_ hx)⟩
  obtain ⟨h5, h6⟩ := h3 k hk
  rw [abs_of_nonneg h5]
  exact add_le_add (le_refl _) h6

/-- **C107, Gauss-Newton.** If the status is that the step was small, the result is a state moved by its Gauss-Newton step, and in the state before the step each coordinate
of `Jᵀe` is at most the row sum of `JᵀJ` times the threshold. If moreover the errors are affine with the Jacobian as derivative, `Jᵀe` is zero in the result: it is a
stationary point of the sum of squares. -/
theorem C107_gn_converged (A : NLS K X Sv) (stored : Bool) (W : K → K) (hA : A.Solves stored W) (hW : W 0 = 0) (o : Options K)
    (b r : Obj K X (Nat → K) (X × Sv)) (hb : b.initialized = false) (h : optimize (gnSetup A.quad) o b = .ok r) (hconv : r.conv = .dx) :
    ∃ x0, r.x = A.update x0 r.dx ∧ (∀ j, j < A.n → |r.dx j| ≤ o.convergenceDeltaX) ∧
      (∀ k, k < A.n → |A.rhs x0 k| ≤ (∑ j ∈ Finset.range A.n, |∑ i ∈ Finset.range A.m, A.J x0 i k * A.J x0 i j|) * o.convergenceDeltaX) ∧
      ((∀ x d, A.J (A.update x d) = A.J x ∧ ∀ i, i < A.m → A.e (A.update x d) i = A.e x i - ∑ j ∈ Finset.range A.n, A.J x i j * d j) →
        ∀ k, k < A.n → A.rhs r.x k = 0) := by
  obtain ⟨x0, w, h1, hd, h3, h4⟩ := quad_gn A.quad stored _ _ (quad_solves hA) (fun _ _ _ w _ h k hk => le_antisymm (hW ▸ (h k hk).2) (h k hk).1) o b r hb h hconv
  refine ⟨x0, h1, hd, fun k hk => ?_, fun haff k hk => ?_⟩
  · have := rhs_le h4 hd hk
    rw [h3 k hk, abs_zero, add_zero] at this
    exact this
  · have h5 : ∑ j ∈ Finset.range A.n, (∑ i ∈ Finset.range A.m, A.J x0 i k * A.J x0 i j) * r.dx j + w k * r.dx k = ∑ i ∈ Finset.range A.m, A.J x0 i k * A.e x0 i := h4 k hk
    rw [h3 k hk, zero_mul, add_zero] at h5
    have h1' : r.x = A.update x0 r.dx := h1
    simp only [h1', NLS.rhs, (haff x0 r.dx).1]
    have h6 : ∑ i ∈ Finset.range A.m, A.J x0 i k * A.e (A.update x0 r.dx) i =
        ∑ i ∈ Finset.range A.m, A.J x0 i k * A.e x0 i - ∑ i ∈ Finset.range A.m, A.J x0 i k * ∑ j ∈ Finset.range A.n, A.J x0 i j * r.dx j := by
      rw [← Finset.sum_sub_distrib]
      refine Finset.sum_congr rfl fun i hi => ?_
      rw [(haff x0 r.dx).2 i (Finset.mem_range.1 hi)]
      ring
    have h7 : ∑ i ∈ Finset.range A.m, A.J x0 i k * ∑ j ∈ Finset.range A.n, A.J x0 i j * r.dx j =
        ∑ j ∈ Finset.range A.n, (∑ i ∈ Finset.range A.m, A.J x0 i k * A.J x0 i j) * r.dx j := by
      simp only [Finset.mul_sum, Finset.sum_mul]
      rw [Finset.sum_comm]
      exact Finset.sum_congr rfl fun j _ => Finset.sum_congr rfl fun i _ => by ring
    rw [h6, h7, h5, sub_self]

/-! ### Concrete instances of the hypotheses, counterexamples -/

/-- One variable and one error; the state is its value and the value it keeps for `revertUpdate`. The solver fails if `fails` says so for the number of the call. -/
def one (e : ℚ → ℚ) (fails : Nat → Bool) (stored : Bool := true) : NLS ℚ (ℚ × ℚ) Nat where
  m := 1
  n := 1
  J _ _ _ := 1
  e x _ := e x.1
  f x := e x.1 * e x.1
  update x d := (x.1 + d 0, x.1)
  revert x := (x.2, x.2)
  solver s y z l := (s + 1, if fails s then none else some fun _ => e (if stored then y else z).1 / (1 + l * l))

theorem one_solves (e : ℚ → ℚ) (fails : Nat → Bool) (stored : Bool) : (one e fails stored).Solves stored fun l => l * l := by
  intro s y z l d h
  simp only [one] at h
  cases hf : fails s with
  | true => simp [hf] at h
  | false =>
    simp only [hf, Bool.false_eq_true, if_false, Option.some.injEq] at h
    subst h
    refine ⟨fun _ => l * l, fun k _ => ⟨mul_self_nonneg l, le_refl _⟩, fun k hk => ?_⟩
    have : (1 : ℚ) + l * l ≠ 0 := by nlinarith [mul_self_nonneg l]
    simp only [one, Finset.sum_range_one, one_mul]
    field_simp

theorem one_reverts (e : ℚ → ℚ) (fails : Nat → Bool) (stored : Bool) : (one e fails stored).Reverts := fun _ _ => ⟨rfl, rfl, rfl⟩

/-- The defaults of the Levenberg-Marquardt policy with the given initial damping. -/
def lmInit (l : ℚ) : LM ℚ := ⟨l, 3, 2, 3, 2⟩

theorem lmInit_ok {l : ℚ} (hl : 0 < l) : LMOk (lmInit l) := ⟨hl, by norm_num [lmInit], by norm_num [lmInit], by norm_num [lmInit], by norm_num [lmInit]⟩

def lmFresh (l : ℚ) : Obj ℚ (ℚ × ℚ) (Nat → ℚ) (LMSt ℚ (ℚ × ℚ) Nat) := fresh (0, 0) ⟨⟨.fin 0, .fin 0, true⟩, lmInit l, (0, 0), 0, (0, 0), (0, 0), false⟩ fun _ => 0

/-- **C107, counterexample.** With a large damping a run on a linear problem ends with the status that the step was small, although hardly anything was
done: the minimum is 1, the result is below 0.001 and each iteration lowers the cost. -/
theorem C107_damping_counterexample : ∃ r, optimize (lmSetup (one (fun x => 1 - x) fun _ => false).quad (lmInit 1000)) ⟨1 / 1000, 0, 100⟩ (lmFresh 1000) = .ok r ∧
    r.conv = .dx ∧ r.linearSolverFailure = false ∧ r.failed = 0 ∧ r.x.1 < 1 / 1000 ∧ (one (fun x => 1 - x) fun _ => false).rhs r.x 0 > 999 / 1000 :=
  optimize_check 10 _ (by decide +kernel)

/-- **C107, counterexample.** After a failed linear solve the loop goes on whatever the gain is. A step without gain is then followed by a step computed from the system of
the state before it: the error is -1 where the last step was computed, so every damped step is negative, but the step is positive. -/
theorem C107_stale_counterexample : ∃ r, optimize (lmSetup (one (fun x => if x = 0 then 1 else -1) fun k => k == 0).quad (lmInit (1 / 1000))) ⟨0, 0, 2⟩ (lmFresh (1 / 1000)) = .ok r ∧
    r.iterations = 2 ∧ r.x.1 = r.x.2 + r.dx 0 ∧
    (one (fun x => if x = 0 then 1 else -1) fun k => k == 0).e (r.x.2, 0) 0 = -1 ∧ 0 < r.dx 0 :=
  optimize_check 10 _ (by decide +kernel)

/-- The errors of a problem whose first step goes too far. -/
def kink (x : ℚ) : ℚ := if x = 0 then 1 else if x < 0 then 1 - x else -2

/-- **C107, counterexample.** A QR solver after a rejected step: the system is not built again, as the state is the same, but the errors kept in the solver are those of the
rejected candidate. No linear solve fails, the error in the state is 1, so every damped step is positive, but the step is negative. -/
theorem C107_rejected_qr_counterexample : ∃ r, optimize (lmSetup (one kink (fun _ => false) false).quad (lmInit (1 / 1000))) ⟨0, 0, 2⟩ (lmFresh (1 / 1000)) = .ok r ∧
    r.linearSolverFailure = false ∧ r.iterations = 2 ∧ r.failed = 2 ∧ r.x = (0, 0) ∧ (one kink (fun _ => false) false).e (0, 0) 0 = 1 ∧ r.dx 0 < 0 :=
  optimize_check 10 _ (by decide +kernel)

/-- No damping explains these steps. -/
example (w d : Nat → ℚ) (hw : 0 ≤ w 0) (h : Eqs 1 1 (fun _ _ => 1) (fun _ => 1) w d) : 0 < d 0 := by
  have := h 0 (by norm_num)
  simp at this
  nlinarith

example (w d : Nat → ℚ) (hw : 0 ≤ w 0) (h : Eqs 1 1 (fun _ _ => 1) (fun _ => -1) w d) : d 0 < 0 := by
  have := h 0 (by norm_num)
  simp at this
  nlinarith

/-- A run which converges because the step is small. -/
theorem lm_converges : ∃ r, optimize (lmSetup (one (fun x => 1 - x) fun _ => false).quad (lmInit (1 / 1000))) ⟨2, 0, 100⟩ (lmFresh (1 / 1000)) = .ok r ∧
    r.conv = .dx ∧ r.linearSolverFailure = false ∧ r.iterations ≠ 0 :=
  optimize_check 10 _ (by decide +kernel)

example (r : Obj ℚ (ℚ × ℚ) (Nat → ℚ) (LMSt ℚ (ℚ × ℚ) Nat))
    (h1 : optimize (lmSetup (one (fun x => 1 - x) fun _ => false).quad (lmInit (1 / 1000))) ⟨2, 0, 100⟩ (lmFresh (1 / 1000)) = .ok r) (h2 : r.conv = .dx)
    (h3 : r.linearSolverFailure = false) (h4 : r.iterations ≠ 0) :=
  And.intro (C107_lm_partial _ _ _ (one_solves _ _ true) (one_reverts _ _ _) _ (lmInit_ok (by norm_num)) _ (by norm_num) (by norm_num) _ r rfl h1 h3 (.inl rfl) h4)
    (C107_lm_converged_partial _ _ _ (one_solves _ _ true) (one_reverts _ _ _) _ (lmInit_ok (by norm_num)) _ (by norm_num) (by norm_num) _ r rfl h1 h2 (.inl rfl))

theorem gn_converges : ∃ r, optimize (gnSetup (one (fun x => 1 - x) fun _ => false).quad) ⟨1 / 1000, 0, 100⟩ (fresh (0, 0) ((0, 0), 0) fun _ => 0) = .ok r ∧
    r.conv = .dx ∧ r.x.1 = 1 :=
  optimize_check 10 _ (by decide +kernel)

example (r : Obj ℚ (ℚ × ℚ) (Nat → ℚ) ((ℚ × ℚ) × Nat))
    (h1 : optimize (gnSetup (one (fun x => 1 - x) fun _ => false).quad) ⟨1 / 1000, 0, 100⟩ (fresh (0, 0) ((0, 0), 0) fun _ => 0) = .ok r) (h2 : r.conv = .dx) :=
  C107_gn_converged _ _ _ (one_solves _ _ true) (by norm_num) _ _ r rfl h1 h2

/-- The errors of this problem are affine. -/
example (x : ℚ × ℚ) (d : Nat → ℚ) : (one (fun x => 1 - x) fun _ => false).J ((one (fun x => 1 - x) fun _ => false).update x d) = (one (fun x => 1 - x) fun _ => false).J x ∧
    ∀ i, i < 1 → (one (fun x => 1 - x) fun _ => false).e ((one (fun x => 1 - x) fun _ => false).update x d) i =
      (one (fun x => 1 - x) fun _ => false).e x i - ∑ j ∈ Finset.range 1, (one (fun x => 1 - x) fun _ => false).J x i j * d j :=
  ⟨rfl, fun _ _ => by simp [one]; ring⟩

end Verif.Trust
