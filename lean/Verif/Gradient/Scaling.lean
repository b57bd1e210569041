import Verif.Solver.Props

/-! C80: scalings of design variables are only a change of units. -/
namespace Verif.Gradient
open Verif Verif.Solver

variable {K : Type} [Field K] [LinearOrder K] [IsStrictOrderedRing K]

/-- The step the design variables are updated with: the segment of each variable is multiplied by the variable's scaling (aslam_backend/src/Optimizer2.cpp:275-292, src/util/ProblemManager.cpp:186-201,
src/Optimizer.cpp:614-647). `s k` is the scaling of the variable that owns column `k`. -/
def appliedStep (s dx : Nat → K) : Nat → K := fun k => s k * dx k

/-- The Jacobian the block Cholesky solver assembles its normal equations from: each column is multiplied by the scaling (JacobianContainerSparseImpl.hpp:116-133). -/
def scaledJacobian (s : Nat → K) (J : Nat → Nat → K) : Nat → Nat → K := fun i k => J i k * s k

/-- **C80, block Cholesky.** Whatever the nonzero scalings, if the solver's `dx` is a least-squares solution of the scaled system then the step applied to the variables is a least-squares solution of the unscaled
system. What is missing for the full claim: the other solvers, see the counterexample, and damped steps, whose damping acts on the scaled variables. -/
theorem C80_block_partial (m n : Nat) (J : Nat → Nat → K) (e s dx : Nat → K) (hs : ∀ k, k < n → s k ≠ 0) (h : ∀ y, cost m n (scaledJacobian s J) e (fun _ => 0) dx ≤ cost m n (scaledJacobian s J) e (fun _ => 0) y) (y : Nat → K) :
    cost m n J e (fun _ => 0) (appliedStep s dx) ≤ cost m n J e (fun _ => 0) y := by
  have key : ∀ z w : Nat → K, (∀ k, k < n → w k = s k * z k) → cost m n J e (fun _ => 0) w = cost m n (scaledJacobian s J) e (fun _ => 0) z := by
    intro z w hw
    unfold cost scaledJacobian
    congr 1
    · apply Finset.sum_congr rfl
      intro i _
      congr 2
      exact Finset.sum_congr rfl fun k hk => by rw [hw k (Finset.mem_range.1 hk)]; ring
    · simp
  rw [key dx (appliedStep s dx) fun k _ => rfl, key (fun k => y k / s k) y fun k hk => by field_simp [hs k hk]]
  exact h _

/-- The hypotheses of `C80_block_partial`: one equation `x = 1` in one variable with scaling 2. -/
example : ∀ y : Nat → ℚ, cost 1 1 (scaledJacobian (fun _ => (2 : ℚ)) fun _ _ => 1) (fun _ => 1) (fun _ => 0) (fun _ => 1 / 2) ≤ cost 1 1 (scaledJacobian (fun _ => (2 : ℚ)) fun _ _ => 1) (fun _ => 1) (fun _ => 0) y := by
  intro y
  simp only [cost, scaledJacobian, Finset.sum_range_one]
  nlinarith [sq_nonneg (1 * 2 * y 0 - 1)]

/-- **The other solvers ignore the scaling.** One equation `x = 1` in one variable with scaling 2, solved by the sparse QR solver from the unscaled Jacobian (CompressedColumnJacobianTransposeBuilder does not read
`scaling()`): the solver finds the exact solution, but the applied step is twice as long, and the cost is as large as without a step. -/
theorem C80_unscaled_counterexample :
    ∃ dx, qrSolve fac1 (fun _ _ => 1) (fun _ => 1) none 0 = .ok (some dx) ∧ cost 1 1 (fun _ _ => 1) (fun _ => 1) (fun _ => 0) dx = 0 ∧
      cost 1 1 (fun _ _ => 1) (fun _ => 1) (fun _ => 0) (appliedStep (fun _ => 2) dx) = cost 1 1 (fun _ _ => (1 : ℚ)) (fun _ => 1) (fun _ => 0) fun _ => 0 := by
  refine ⟨fun _ => 1, ?_, ?_, ?_⟩
  · simp [qrSolve, fac1]
  · simp [cost]
  · simp [cost, appliedStep]
    norm_num

end Verif.Gradient
