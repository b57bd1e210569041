import Verif.Trust.Stationary

/-!
C131: runs of `Optimizer2` with the block Cholesky solver, whose matrix does not stay as it was built (C45).
-/
namespace Verif.Trust
open Verif.Optimizer2 Verif.Solver Verif.SBM

/-! ### Model -/

/-- A least-squares problem and the block Cholesky solver: `J x`, `e x`, `f`, `update` and `revert` as in `NLS`, `sys x` is the solver after `buildSystem` in the state `x`
(BlockCholeskyLinearSystemSolver.cpp:58-75), `lib` the factorisation of the library. -/
structure BlockProb (K X : Type) where
  m : Nat
  n : Nat
  J : X → Nat → Nat → K
  e : X → Nat → K
  f : X → K
  update : X → (Nat → K) → X
  revert : X → X
  sys : X → Blk K
  debug : Bool
  lib : SBM K → (Nat → K) → Option (Nat → K)

variable {K X : Type} [Field K] [LinearOrder K] [IsStrictOrderedRing K]

/-- `setConstantConditioner(l)` and `solveSystem`, LinearSystemSolver.cpp:91-94 and BlockCholeskyLinearSystemSolver.cpp:76-108. The list, which the code does not have, notes the dampings used since the
system was built, the last one first. -/
def dampedSolve (debug : Bool) (lib : SBM K → (Nat → K) → Option (Nat → K)) (s : Blk K × List K) (l : K) : (Blk K × List K) × Option (Nat → K) :=
  match ({ s.1 with cond := fun _ => l } : Blk K).solve debug lib with
  | .ok r => ((r.1, l :: s.2), r.2)
  | _ => (s, none)

/-- The problem and its solver, for the policies. -/
def BlockProb.quad (P : BlockProb K X) : Quad K X (Blk K × List K) where
  n := P.n
  H y k j := ∑ i ∈ Finset.range P.m, P.J y i k * P.J y i j
  g y _ k := ∑ i ∈ Finset.range P.m, P.J y i k * P.e y i
  f := P.f
  update := P.update
  revert := P.revert
  built _ x := (P.sys x, [])
  solver s _ _ l := dampedSolve P.debug P.lib s l

/-! ### Specification -/

/-- `buildSystem` leaves the normal equations (C07); the library solves what it factorises, and only factorises matrices for which the step does not point uphill; undoing an update restores the problem. -/
structure BlockProb.Legal (P : BlockProb K X) : Prop where
  ok : ∀ x, BlkOk (P.sys x)
  size : ∀ x, (P.sys x).H.rl.total = P.n
  cond : ∀ x, (P.sys x).useCond = true
  sys : ∀ x, Holds (P.sys x) P.m (P.J x) (P.e x) fun _ => 0
  lib : SolvesUpper P.lib
  pos : ∀ H b d, Square H → H.rl.total = P.n → P.lib H b = some d → 0 ≤ ∑ k ∈ Finset.range P.n, d k * b k
  undo : ∀ x d, P.J (P.revert (P.update x d)) = P.J x ∧ P.e (P.revert (P.update x d)) = P.e x ∧ P.f (P.revert (P.update x d)) = P.f x

/-- What solves with the dampings `ls` leave on the diagonal. -/
def drift (ls : List K) : K := (ls.map fun l => l * l - l).sum

/-- Two states with the same Jacobian, errors and cost. -/
def BlockProb.Same (P : BlockProb K X) (x y : X) : Prop := P.J x = P.J y ∧ P.e x = P.e y ∧ P.f x = P.f y

/-! ### Proofs -/

/-- The solver belongs to the system of `y`, apart from the drift of its diagonal. -/
structure BlockProb.Inv (P : BlockProb K X) (s : Blk K × List K) (y : X) : Prop where
  ok : BlkOk s.1
  size : s.1.H.rl.total = P.n
  cond : s.1.useCond = true
  sys : Holds s.1 P.m (P.J y) (P.e y) fun _ => drift s.2

theorem dampedSolve_spec {P : BlockProb K X} (hP : P.Legal) {s : Blk K × List K} {y : X} (h : P.Inv s y) (l : K) :
    P.Inv (dampedSolve P.debug P.lib s l).1 y ∧ (dampedSolve P.debug P.lib s l).1.2 = l :: s.2 ∧
    ∀ d, (dampedSolve P.debug P.lib s l).2 = some d →
      Eqs P.m P.n (P.J y) (P.e y) (fun _ => l * l + drift s.2) d ∧ 0 ≤ ∑ k ∈ Finset.range P.n, d k * ∑ i ∈ Finset.range P.m, P.J y i k * P.e y i := by
  have hk : BlkOk ({ s.1 with cond := fun _ => l } : Blk K) := ⟨h.ok.sq, h.ok.len⟩
  obtain ⟨H1, s', e1, k1, u1, b1, r1, c1, q1, rH1, d1, d1'⟩ := solve_spec P.debug P.lib _ hk h.cond
  have e2 : dampedSolve P.debug P.lib s l = ((s', l :: s.2), P.lib H1 s.1.rhs) := by
    unfold dampedSolve
    rw [e1]
  rw [e2]
  refine ⟨⟨k1, by rw [r1]; exact h.size, u1, ⟨fun i j hij hj => ?_, fun i hi => ?_⟩⟩, rfl, fun d hd => ⟨fun k hk' => ?_, ?_⟩⟩
  · simp only at hj ⊢
    rw [r1] at hj
    rw [d1' i j (by simp only at hj ⊢; omega) hj]
    have := h.sys.upper i j hij hj
    simp only at this ⊢
    rw [this]
    by_cases hij' : i = j
    · simp only [if_pos hij', drift, List.map_cons, List.sum_cons]; ring
    · simp only [if_neg hij']; ring
  · simp only at hi ⊢
    rw [r1] at hi
    rw [b1]
    exact h.sys.rhs i hi
  · have := block_normal P.debug P.lib hP.lib _ hk h.cond P.m (P.J y) (P.e y) (fun _ => drift s.2) ⟨h.sys.upper, h.sys.rhs⟩ s' d (by rw [e1]; exact congrArg _ (Prod.ext rfl hd)) k
      (by simp only; rw [h.size]; exact hk')
    simp only [h.size] at this
    rw [← this]
    ring
  · refine le_of_le_of_eq (hP.pos H1 _ d q1 (by rw [rH1]; exact h.size) hd) (Finset.sum_congr rfl fun k hk' => ?_)
    rw [h.sys.rhs k (by rw [h.size]; exact Finset.mem_range.1 hk')]

theorem block_solves {P : BlockProb K X} (hP : P.Legal) :
    P.quad.Solves true P.Inv fun s l w => ∃ older, s.2 = l :: older ∧ ∀ k, w k = l * l + drift older where
  built _ x := ⟨hP.ok x, hP.size x, hP.cond x, by simpa [drift, BlockProb.quad] using hP.sys x⟩
  kept _ _ _ l h := (dampedSolve_spec hP h l).1
  sound s y z l d h hd := by
    obtain ⟨-, h2, h3⟩ := dampedSolve_spec hP h l
    obtain ⟨h4, h5⟩ := h3 d hd
    exact ⟨fun _ => l * l + drift s.2, ⟨s.2, h2, fun _ => rfl⟩, h4, h5⟩

omit [LinearOrder K] [IsStrictOrderedRing K] in
theorem block_same {P : BlockProb K X} {x y : X} (h : P.Same x y) : P.quad.Same x y := by
  obtain ⟨h1, h2, h3⟩ := h
  refine ⟨?_, fun z => ?_, fun z => rfl, h3⟩
  · simp only [BlockProb.quad, h1]
  · simp only [BlockProb.quad, h1, h2]

theorem block_once {P : BlockProb K X} (hP : P.Legal) {s : Blk K × List K} {l : K} (h : P.quad.Once s l) : s.2 = [l] := by
  obtain ⟨s0, x, z, rfl⟩ := h
  exact (dampedSolve_spec hP (s := (P.sys x, [])) ((block_solves hP).built s0 x) l).2.1

/-- **C131** (partial: runs without a failed linear solve, and the library must refuse matrices that are not positive definite). After every run of `Optimizer2` with the Levenberg-Marquardt policy and
the block Cholesky solver, the last step solves the normal equations of the state it was applied to, with `l² + Σ (lᵢ² - lᵢ)` added to the diagonal: `l` is the current damping, the `lᵢ` are those of the
rejected steps since the system was built. If no step was rejected this is `l²`, what the other solvers add. Missing: that it is `l²` always; see the counterexample. -/
theorem C131_levenberg_marquardt_partial (P : BlockProb K X) (hP : P.Legal) (init : LM K) (hi : LMOk init) (o : Options K) (hx : 0 ≤ o.convergenceDeltaX) (he : 0 ≤ o.convergenceDeltaError)
    (b r : Obj K X (Nat → K) (LMSt K X (Blk K × List K))) (hb : b.initialized = false) (h : optimize (lmSetup P.quad init) o b = .ok r) (hlsf : r.linearSolverFailure = false)
    (hit : r.iterations ≠ 0) :
    ∃ x0 older, r.p.sv.2 = r.p.lm.lambda :: older ∧ (r.failed = 0 → older = []) ∧
      Eqs P.m P.n (P.J x0) (P.e x0) (fun _ => r.p.lm.lambda * r.p.lm.lambda + drift older) r.dx ∧ r.dXFinal = .fin (maxAbs P.n r.dx) ∧
      (r.x = P.update x0 r.dx ∨ P.Same r.x x0) := by
  obtain ⟨x0, w, ⟨older, h1, h1'⟩, h2, h3, h4, h5⟩ := quad_lm P.quad P.Same (fun _ _ h => block_same h) true _ _ (block_solves hP) (fun x d => hP.undo x d) init hi o hx he b r hb h hlsf (.inl rfl) hit
  refine ⟨x0, older, h1, fun h0 => ?_, fun k hk => ?_, h4, h5⟩
  · have := block_once hP (h2 h0)
    rw [h1] at this
    simpa using this
  · have := h3 k hk
    rw [h1'] at this
    exact this

/-- **C131, convergence.** If the status is that the step was small, the result is within one such step of (or is) a state in which each coordinate of `Jᵀe` is at most (row sum of `JᵀJ` + what was added
to the diagonal) times the threshold. (Partial: the library must refuse matrices that are not positive definite.) -/
theorem C131_converged_partial (P : BlockProb K X) (hP : P.Legal) (init : LM K) (hi : LMOk init) (o : Options K) (hx : 0 ≤ o.convergenceDeltaX) (he : 0 ≤ o.convergenceDeltaError)
    (b r : Obj K X (Nat → K) (LMSt K X (Blk K × List K))) (hb : b.initialized = false) (h : optimize (lmSetup P.quad init) o b = .ok r) (hconv : r.conv = .dx) :
    ∃ x0 older, r.p.sv.2 = r.p.lm.lambda :: older ∧ (r.failed = 0 → older = []) ∧ (r.x = P.update x0 r.dx ∨ P.Same r.x x0) ∧ (∀ j, j < P.n → |r.dx j| ≤ o.convergenceDeltaX) ∧
      ∀ k, k < P.n → |∑ i ∈ Finset.range P.m, P.J x0 i k * P.e x0 i| ≤
        (∑ j ∈ Finset.range P.n, |∑ i ∈ Finset.range P.m, P.J x0 i k * P.J x0 i j| + |r.p.lm.lambda * r.p.lm.lambda + drift older|) * o.convergenceDeltaX := by
  obtain ⟨x0, w, h1, h2, ⟨older, h3, h3'⟩, h4, h5⟩ :=
    quad_lm_converged P.quad P.Same (fun _ _ h => block_same h) true _ _ (block_solves hP) (fun x d => hP.undo x d) init hi o hx he b r hb h hconv (.inl rfl)
  refine ⟨x0, older, h3, fun h0 => ?_, h1, h2, fun k hk => ?_⟩
  · have := block_once hP (h4 h0)
    rw [h3] at this
    simpa using this
  · have := h5 k hk
    rw [h3'] at this
    exact this

/-- **C131, Gauss-Newton.** With the Gauss-Newton policy the system is built for every step and nothing is added: C107 holds for the block Cholesky solver without further conditions. -/
theorem C131_gauss_newton (P : BlockProb K X) (hP : P.Legal) (o : Options K) (b r : Obj K X (Nat → K) (X × (Blk K × List K))) (hb : b.initialized = false)
    (h : optimize (gnSetup P.quad) o b = .ok r) (hconv : r.conv = .dx) :
    ∃ x0, r.x = P.update x0 r.dx ∧ (∀ j, j < P.n → |r.dx j| ≤ o.convergenceDeltaX) ∧ Eqs P.m P.n (P.J x0) (P.e x0) (fun _ => 0) r.dx := by
  obtain ⟨x0, w, h1, h2, h3, h4⟩ := quad_gn P.quad true _ _ (block_solves hP) (fun s x _ w _ ⟨older, h1, h2⟩ k _ => by
    have : [(0 : K)] = 0 :: older := (dampedSolve_spec hP (s := (P.sys x, [])) ((block_solves hP).built s x) 0).2.1.symm.trans h1
    obtain rfl : older = [] := by simpa using this.symm
    rw [h2]; simp [drift]) o b r hb h hconv
  refine ⟨x0, h1, h2, fun k hk => ?_⟩
  have := h4 k hk
  rw [h3 k hk] at this
  exact this

/-! ### Concrete instances of the hypotheses, counterexamples -/

/-- One variable and one error with Jacobian `c`; the state is its value and the value it keeps for `revertUpdate`. -/
def blockOne (c : ℚ) (e : ℚ → ℚ) (lib : SBM ℚ → (Nat → ℚ) → Option (Nat → ℚ)) : BlockProb ℚ (ℚ × ℚ) where
  m := 1
  n := 1
  J _ _ _ := c
  e x _ := e x.1
  f x := e x.1 * e x.1
  update x d := (x.1 + d 0, x.1)
  revert x := (x.2, x.2)
  sys x := { single (c * c) 1 with rhs := fun _ => c * e x.1 }
  debug := false
  lib := lib

/-- A library for 1×1 systems which refuses matrices that are not positive definite. -/
def posLib : SBM ℚ → (Nat → ℚ) → Option (Nat → ℚ) := fun H b => if H.rl.total = 1 ∧ 0 < H.toDense.e 0 0 then some fun _ => b 0 / H.toDense.e 0 0 else none

theorem posLib_solves : SolvesUpper posLib := by
  intro H b x hH hx
  refine lib1_solves H b x hH ?_
  unfold posLib at hx
  split_ifs at hx with hc
  unfold lib1
  rw [if_pos ⟨hc.1, hc.2.ne'⟩]
  exact hx

theorem blockOne_legal (c : ℚ) (e : ℚ → ℚ) : (blockOne c e posLib).Legal where
  ok x := ⟨(single_ok (c * c) 1).sq, rfl⟩
  size _ := rfl
  cond _ := rfl
  sys x := by
    refine ⟨fun i j hij hj => ?_, fun i _ => by simp [blockOne]⟩
    have ht : ((blockOne c e posLib).sys x).H.rl.total = 1 := rfl
    rw [ht] at hj
    have h1 : j = 0 := by omega
    have h2 : i = 0 := by omega
    subst h1 h2
    have := single_dense (c * c) 1
    simpa [blockOne] using this
  lib := posLib_solves
  pos H b d _ _ h := by
    simp only [blockOne, posLib] at h ⊢
    split_ifs at h with hc
    cases h
    rw [Finset.sum_range_one, div_mul_eq_mul_div]
    exact div_nonneg (mul_self_nonneg _) hc.2.le
  undo _ _ := ⟨rfl, rfl, rfl⟩

def blockFresh (l : ℚ) : Obj ℚ (ℚ × ℚ) (Nat → ℚ) (LMSt ℚ (ℚ × ℚ) (Blk ℚ × List ℚ)) :=
  fresh (0, 0) ⟨⟨.fin 0, .fin 0, true⟩, lmInit l, (0, 0), (single 1 1, []), (0, 0), (0, 0), false⟩ fun _ => 0

/-- A run that converges, and one with a rejected step. -/
theorem block_converges : ∃ r, optimize (lmSetup (blockOne 1 (fun x => 1 - x) posLib).quad (lmInit (1 / 1000))) ⟨2, 0, 100⟩ (blockFresh (1 / 1000)) = .ok r ∧
    r.conv = .dx ∧ r.linearSolverFailure = false ∧ r.iterations ≠ 0 :=
  optimize_check 10 _ (by decide +kernel)

theorem block_rejects : ∃ r, optimize (lmSetup (blockOne 1 kink posLib).quad (lmInit (1 / 1000))) ⟨0, 0, 2⟩ (blockFresh (1 / 1000)) = .ok r ∧
    r.linearSolverFailure = false ∧ r.iterations = 2 ∧ r.failed = 2 ∧ r.p.sv.2 = [4 / 1000, 1 / 1000] :=
  optimize_check 10 _ (by decide +kernel)

example (r : Obj ℚ (ℚ × ℚ) (Nat → ℚ) (LMSt ℚ (ℚ × ℚ) (Blk ℚ × List ℚ)))
    (h1 : optimize (lmSetup (blockOne 1 (fun x => 1 - x) posLib).quad (lmInit (1 / 1000))) ⟨2, 0, 100⟩ (blockFresh (1 / 1000)) = .ok r) (h2 : r.conv = .dx)
    (h3 : r.linearSolverFailure = false) (h4 : r.iterations ≠ 0) :=
  And.intro (C131_levenberg_marquardt_partial _ (blockOne_legal _ _) _ (lmInit_ok (by norm_num)) _ (by norm_num) (by norm_num) _ r rfl h1 h3 h4)
    (C131_converged_partial _ (blockOne_legal _ _) _ (lmInit_ok (by norm_num)) _ (by norm_num) (by norm_num) _ r rfl h1 h2)

theorem block_gn : ∃ r, optimize (gnSetup (blockOne 1 (fun x => 1 - x) posLib).quad) ⟨1 / 1000, 0, 100⟩ (fresh (0, 0) ((0, 0), (single 1 1, [])) fun _ => 0) = .ok r ∧
    r.conv = .dx ∧ r.x.1 = 1 :=
  optimize_check 10 _ (by decide +kernel)

example (r : Obj ℚ (ℚ × ℚ) (Nat → ℚ) ((ℚ × ℚ) × (Blk ℚ × List ℚ)))
    (h1 : optimize (gnSetup (blockOne 1 (fun x => 1 - x) posLib).quad) ⟨1 / 1000, 0, 100⟩ (fresh (0, 0) ((0, 0), (single 1 1, [])) fun _ => 0) = .ok r) (h2 : r.conv = .dx) :=
  C131_gauss_newton _ (blockOne_legal _ _) _ _ r rfl h1 h2

/-- **C131, counterexample.** Default damping, Jacobian 1/50, error 1. The first step goes too far and is rejected. The matrix of the next solve is negative: 1/2500 plus what the two solves
added, 0.001² - 0.001 + 0.004². With a library that solves this system (as a factorisation `L D Lᵀ` does) the step points uphill: it is negative, though `Jᵀe` is positive, and no linear
solve fails. -/
theorem C131_uphill_counterexample : ∃ r, optimize (lmSetup (blockOne (1 / 50) kink lib1).quad (lmInit (1 / 1000))) ⟨0, 0, 2⟩ (blockFresh (1 / 1000)) = .ok r ∧
    r.linearSolverFailure = false ∧ r.iterations = 2 ∧ r.failed = 2 ∧ r.x = (0, 0) ∧ (blockOne (1 / 50) kink lib1).quad.rhs r.x 0 = 1 / 50 ∧ r.dx 0 < 0 :=
  optimize_check 10 _ (by decide +kernel)

/-- **C131, counterexample.** The same run with a library that refuses matrices which are not positive definite: the second solve fails, although `JᵀJ` with any damping is positive definite. -/
theorem C131_failure_counterexample : ∃ r, optimize (lmSetup (blockOne (1 / 50) kink posLib).quad (lmInit (1 / 1000))) ⟨0, 0, 2⟩ (blockFresh (1 / 1000)) = .ok r ∧
    r.linearSolverFailure = true ∧ r.x = (0, 0) ∧ 0 < (blockOne (1 / 50) kink posLib).quad.H r.x 0 0 :=
  optimize_check 10 _ (by decide +kernel)

/-- With any damping the step of this problem is positive. -/
example (w d : Nat → ℚ) (hw : 0 ≤ w 0) (h : Eqs 1 1 (fun _ _ => 1 / 50) (fun _ => 1) w d) : 0 < d 0 := by
  have := h 0 (by norm_num)
  simp at this
  nlinarith

end Verif.Trust
