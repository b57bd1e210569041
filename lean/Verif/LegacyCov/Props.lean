import Verif.LegacyCov.Model
import Verif.Legacy.Props
import Verif.Covariance.Props
import Verif.LegacyStep.Props
import Mathlib.Data.List.GetD

/-! Property C124. -/
namespace Verif.LegacyCov
open Verif.Legacy Verif.Covariance

variable {K X D M Q : Type} [LinearOrder K] [Field K]

/-! ### At which estimate the Hessian is built -/

/-- Undoing the last update gives back an estimate with the same matrices (C21, C63). -/
def Reverts (build : X → M) (update : X → D → X × Dbl K) (revert : X → X) : Prop := ∀ x d, build (revert (update x d).1) = build x

/-- **C124** (`optimize`, part). If no linear solve fails, then after any run that made at least one iteration the Hessian the optimizer holds was built at the returned estimate if the last step was rejected, and otherwise at
the estimate to which the last step was applied, that is one step earlier. Missing: the Hessian at the returned estimate after an accepted step, which is false, see the counterexample. -/
theorem C124_optimize_partial (S : Parts K X D M Q) (hrev : Reverts S.build S.update S.revert) (hsol : ∀ q m, S.solve q m ≠ none) (o : Options K) (x : X) (p : M × Q)
    (hrun : running o (enter S.setup o x p) = true) :
    let r := optimizeH S o x p
    (r.2.2 = true → r.1 = S.build r.2.1) ∧
    (r.2.2 = false → ∃ (y : X) (d : D), r.1 = S.build y ∧ r.2.1 = (S.update y d).1 ∧ ∃ q, S.solve q r.1 = some d) := by
  let I : Legacy.St K X (M × Q) → Prop := fun s => (s.regr = true → s.p.1 = S.build s.x) ∧
    (s.regr = false → ∃ (y : X) (d : D), s.p.1 = S.build y ∧ s.x = (S.update y d).1 ∧ ∃ q, S.solve q s.p.1 = some d) ∧ (o.doLevenbergMarquardt = false → s.regr = false)
  have hstep : ∀ s : Legacy.St K X (M × Q), (s.regr = true → s.p.1 = S.build s.x) → (o.doLevenbergMarquardt = false → s.regr = false) → I (iter S.setup o s) := by
    intro s hs hlm
    have hm : (S.setup.prepare s.p s.x s.regr).1.1 = S.build s.x := by
      show (if s.regr then s.p else _).1 = _
      cases hr : s.regr with
      | true => exact hs hr
      | false => rfl
    have hd2 : (S.setup.prepare s.p s.x s.regr).2 = S.solve (S.setup.prepare s.p s.x s.regr).1.2 (S.setup.prepare s.p s.x s.regr).1.1 := rfl
    unfold iter
    generalize hp : S.setup.prepare s.p s.x s.regr = pr at hm hd2
    obtain ⟨⟨m, q⟩, od⟩ := pr
    simp only at hm hd2
    cases od with
    | none => exact absurd hd2.symm (hsol _ _)
    | some d =>
      dsimp only
      have hacc : ∃ (y : X) (d' : D), m = S.build y ∧ (S.setup.update s.x d).1 = (S.update y d').1 ∧ ∃ q, S.solve q m = some d' := ⟨s.x, d, hm, rfl, q, hd2.symm⟩
      split
      · rename_i hl
        split
        · exact ⟨fun _ => (by show m = S.build (S.revert (S.update s.x d).1); rw [hrev, hm]), fun h => (by cases h), fun h => (by rw [hl] at h; cases h)⟩
        · exact ⟨fun h => (by cases h), fun _ => hacc, fun _ => rfl⟩
      · rename_i hl
        have hl' : o.doLevenbergMarquardt = false := by simpa using hl
        have hf := hlm hl'
        exact ⟨fun h => (by have h' : s.regr = true := h; rw [hf] at h'; cases h'), fun _ => hacc, fun _ => hf⟩
  have hpos : 0 < o.maxIterations := by
    simp only [running, Bool.and_eq_true, decide_eq_true_eq] at hrun
    exact hrun.1.1
  obtain ⟨n, hn⟩ : ∃ n, o.maxIterations.toNat = n + 1 := ⟨o.maxIterations.toNat - 1, by omega⟩
  have key : I (loop S.setup o o.maxIterations.toNat (enter S.setup o x p)) := by
    rw [hn]
    unfold loop
    rw [if_pos hrun]
    refine loop_inv I (fun s _ hs => hstep s hs.1 hs.2.2) n _ (hstep _ (fun h => (by cases h)) fun _ => rfl)
  exact ⟨key.1, key.2.1⟩

/-- **C124** (`optimizeDogLeg`). After every run the Hessian the optimizer holds was built at the returned estimate. -/
theorem C124_dogleg (S : DogParts K X D M) (hrev : Reverts S.build S.update S.revert) (o : Options K) (x : X) (m : M) (t : DSt K X M) (h : OptimizeDogLeg S.setup o x m t) :
    t.p = S.build t.x := by
  have hone : ∀ s s' rho, dIter S.setup s = (s', rho) → s.p = S.build s.x → s'.p = S.build s'.x := by
    intro s s' rho he hs
    unfold dIter at he
    simp only [Prod.mk.injEq] at he
    obtain ⟨rfl, -⟩ := he
    dsimp only
    split
    · rfl
    · show s.p = S.build (S.revert (S.update s.x _).1)
      rw [hrev, hs]
  have hin : ∀ s t, Inner S.setup o.convergenceDeltaX s t → s.p = S.build s.x → t.p = S.build t.x := by
    intro s t hi
    induction hi with
    | stop h _ => exact hone _ _ _ h
    | again h _ _ ih => exact fun a => ih (hone _ _ _ h a)
  have hout : ∀ (it : Int) s t, Outer S.setup o it s t → s.p = S.build s.x → t.p = S.build t.x := by
    intro it s t ho
    induction ho with
    | stop _ => exact fun a => a
    | again _ hi _ ih => exact fun a => ih (hin _ _ hi a)
  exact hout _ _ _ h rfl

/-- The error `x²` of one variable: cost `x⁴`, Jacobian `2x`, Hessian `4x²`, right-hand side `-2x³`; the second component of the estimate is the backup for `revertUpdate`. Gauss-Newton, no damping. -/
def demo : Parts ℚ (ℚ × ℚ) ℚ (ℚ × ℚ) Unit where
  cost x := .fin (x.1 ^ 4)
  update x d := ((x.1 + d, x.1), .fin |d|)
  revert x := (x.2, x.2)
  build x := (4 * x.1 ^ 2, -2 * x.1 ^ 3)
  lambda0 q _ := q
  solve _ m := some (m.2 / m.1)
  den _ m d := d * m.2
  failed q := q
  good q _ := q

/-- The hypotheses of `C124_optimize_partial` are met and both cases occur: an accepted and (with an objective that grows) a rejected step. -/
example : Reverts demo.build demo.update demo.revert ∧ (∀ q m, demo.solve q m ≠ none) ∧ running ⟨0, 0, 1, true⟩ (enter demo.setup ⟨0, 0, 1, true⟩ (1, 1) ((0, 0), ())) = true ∧
    (optimizeH demo ⟨0, 0, 1, true⟩ (1, 1) ((0, 0), ())).2.2 = false ∧ (optimizeH { demo with cost := fun x => .fin (-x.1) } ⟨0, 0, 1, true⟩ (-1, -1) ((0, 0), ())).2.2 = false ∧
    (optimizeH { demo with cost := fun x => .fin (-x.1) } ⟨0, 0, 1, true⟩ (1, 1) ((0, 0), ())).2.2 = true :=
  ⟨fun _ _ => rfl, fun _ _ h => (by cases h), by decide +kernel, by decide +kernel, by decide +kernel, by decide +kernel⟩

/-- **C124** (negation). One Gauss-Newton step from 1 leads to 1/2, where the Hessian is 1; the optimizer holds 4, so the covariance it reports for its estimate is 1/4 instead of 1. -/
theorem C124_previous_estimate_counterexample :
    let r := optimizeH demo ⟨0, 0, 1, true⟩ (1, 1) ((0, 0), ())
    r.2.1.1 = 1 / 2 ∧ (demo.build r.2.1).1 = 1 ∧ r.1.1 = 4 := by decide +kernel

/-- **C124** (negation, failing solve). The solver fails at the second iteration: the accepted step is undone, and the Hessian the optimizer holds belongs to the estimate that was given up. -/
theorem C124_failed_solve_counterexample :
    let S : Parts ℚ (ℚ × ℚ) ℚ (ℚ × ℚ) Unit := { demo with solve := fun _ m => if m.1 = 1 then none else some (m.2 / m.1) }
    let r := optimizeH S ⟨0, 0, 2, true⟩ (1, 1) ((0, 0), ())
    r.2.1.1 = 1 ∧ (S.build r.2.1).1 = 4 ∧ r.1.1 = 1 := by decide +kernel

/-- **C124** (negation, Gauss-Newton after a failing solve). Without Levenberg-Marquardt the matrices are never built again once a solve has failed: here the solver fails at the first of five iterations only, the four steps that
follow are all the step -1/2 that belongs to the estimate 1, and the optimizer runs through the minimum 0 to -1, where the Jacobian has the other sign. -/
theorem C124_gauss_newton_stuck_counterexample :
    let S : Parts ℚ (ℚ × ℚ) ℚ (ℚ × ℚ) Nat := ⟨demo.cost, demo.update, demo.revert, demo.build, fun q _ => q, fun q m => if q = 0 then none else some (m.2 / m.1), fun _ _ _ => 1, fun q => q + 1, fun q _ => q⟩
    let r := optimizeH S ⟨0, 0, 5, false⟩ (1, 1) ((0, 0), 0)
    r.2.1.1 = -1 ∧ r.1 = S.build (1, 1) := by decide +kernel

/-- The hypotheses of `C124_dogleg` are met: one accepted step from 1 to 1/2. -/
example : ∃ (S : DogParts ℚ (ℚ × ℚ) ℚ (ℚ × ℚ)) (t : DSt ℚ (ℚ × ℚ) (ℚ × ℚ)), Reverts S.build S.update S.revert ∧ OptimizeDogLeg S.setup ⟨0, 0, 1, true⟩ (1, 1) (0, 0) t ∧ t.x.1 = 1 / 2 ∧ t.p = (1, -1 / 4) :=
  ⟨⟨demo.cost, demo.update, demo.revert, demo.build, fun m d => (d + 1, m.2 / m.1, 1), fun _ d _ _ => d⟩, _, fun _ _ => rfl,
    .again (by decide +kernel) (.stop rfl (by decide +kernel)) (.stop (by decide +kernel)), by decide +kernel, by decide +kernel⟩

/-! ### Covariances -/

/-- What is assumed of the factorisation of Cholmod: if it succeeds, then `L Lᵀ` is the matrix with permuted rows and columns, and the matrix has the inverse `T`. -/
def FactorOf (F : Factor K) (lay : SBM.Layout) (H T : Nat → Nat → K) : Prop :=
  WF F ∧ PermOK F ∧ F.n = lay.total ∧ (∀ i j, i < lay.total → j < lay.total → gram F (F.p i) (F.p j) = H i j) ∧ RightInv lay.total H T

/-- Block `(i, j)` of a matrix as a list of rows. -/
def blockOf (lay : SBM.Layout) (T : Nat → Nat → K) (i j : Nat) : List (List K) :=
  (List.range (lay.size i)).map fun a => (List.range (lay.size j)).map fun b => T (lay.base i + a) (lay.base j + b)

omit [LinearOrder K] [Field K] in
theorem zip_set (f : Nat → Nat → List (List K)) (bs : List (Nat × Nat)) (P : Nat → Nat → Option (List (List K))) (i j : Nat) :
    ((bs.zip (bs.map fun b => f b.1 b.2)).foldl (fun P q => setBlock P q.1 q.2) P) i j = if (i, j) ∈ bs then some (f i j) else P i j := by
  induction bs generalizing P with
  | nil => simp
  | cons b bs ih =>
    rw [List.map_cons, List.zip_cons_cons, List.foldl_cons, ih]
    by_cases h : (i, j) ∈ bs
    · simp [h]
    · rw [if_neg h]
      unfold setBlock
      by_cases hb : (i, j) = b
      · subst hb; simp
      · rw [if_neg hb, if_neg]
        simp [h, hb]

omit [LinearOrder K] in
theorem computeBlocks_ok (chol : SBM.Layout → (Nat → Nat → K) → Option (Factor K)) (s : St K) (hmono : s.lay.Mono) (F : Factor K) (hF : chol s.lay s.H = some F) (T : Nat → Nat → K) (hT : FactorOf F s.lay s.H T)
    (bs : List (Nat × Nat)) (hb : ∀ b ∈ bs, b.1 < s.lay.n ∧ b.2 < s.lay.n) :
    ∃ s', computeBlocks chol s bs = .ok (s', false) ∧ s'.H = s.H ∧ s'.lay = s.lay ∧ ∀ i j, s'.P i j = if (i, j) ∈ bs then some (blockOf s.lay T i j) else none := by
  obtain ⟨h1, h2, h3, h4, h5⟩ := hT
  have hin : ∀ r, r < s.lay.n → s.lay.base r + s.lay.size r ≤ F.n := by
    intro r hr
    rw [h3]
    exact SBM.Layout.base_add_size_le_total hmono hr
  have hr : RightInv F.n (fun i j => gram F (F.p i) (F.p j)) T := by
    intro i j hi hj
    rw [h3] at hi hj
    rw [← h5 i j hi hj, h3]
    exact Finset.sum_congr rfl fun k hk => by dsimp only; rw [h4 i k hi (Finset.mem_range.1 hk)]
  have hc := C54_blocks_partial F h1 h2 T hr s.lay bs fun b hbm => ⟨hin _ (hb b hbm).1, hin _ (hb b hbm).2⟩
  unfold computeBlocks
  rw [hF]
  dsimp only
  rw [if_pos (by simpa using fun a b hab => hb (a, b) hab), hc]
  exact ⟨_, rfl, rfl, rfl, fun i j => zip_set (blockOf s.lay T) bs _ i j⟩

/-- What a user knows of an optimizer: layout and Hessian now, and layout, Hessian and positions of the last request that did not throw. -/
structure Known (K : Type) where
  lay : SBM.Layout
  H : Nat → Nat → K
  req : Option (SBM.Layout × (Nat → Nat → K) × List (Nat × Nat))

/-- A request of blocks as the user sees it; `ok`: the Hessian can be factorised. -/
def Known.request (ok : SBM.Layout → (Nat → Nat → K) → Bool) (k : Known K) (bs : List (Nat × Nat)) : Known K := if ok k.lay k.H then { k with req := some (k.lay, k.H, bs) } else k

/-- The bookkeeping of a user: what is asked for is all positions `(i, i)` for the diagonal, and all `(i, j)` with `i ≤ j` for the whole matrix. -/
inductive Knows (ok : SBM.Layout → (Nat → Nat → K) → Bool) : Known K → List (Op K) → Known K → Prop
  | nil (k : Known K) : Knows ok k [] k
  | newHessian {k k' : Known K} {ops : List (Op K)} (lay : SBM.Layout) (H : Nat → Nat → K) (hm : lay.Mono) (h : Knows ok { k with lay := lay, H := H } ops k') : Knows ok k (.newHessian lay H :: ops) k'
  | blocks {k k' : Known K} {ops : List (Op K)} (bs : List (Nat × Nat)) (hb : ∀ b ∈ bs, b.1 < k.lay.n ∧ b.2 < k.lay.n) (h : Knows ok (k.request ok bs) ops k') : Knows ok k (.blocks bs :: ops) k'
  | diagonal {k k' : Known K} {ops : List (Op K)} (bs : List (Nat × Nat)) (hb : ∀ i j, (i, j) ∈ bs ↔ i < k.lay.n ∧ j = i) (h : Knows ok (k.request ok bs) ops k') : Knows ok k (.diagonal :: ops) k'
  | all {k k' : Known K} {ops : List (Op K)} (bs : List (Nat × Nat)) (hb : ∀ i j, (i, j) ∈ bs ↔ i ≤ j ∧ j < k.lay.n) (h : Knows ok (k.request ok bs) ops k') : Knows ok k (.all :: ops) k'

/-- What the blocks should be. -/
def Known.block (inv : SBM.Layout → (Nat → Nat → K) → Nat → Nat → K) (k : Known K) (i j : Nat) : Option (List (List K)) :=
  match k.req with
  | none => none
  | some r => if (i, j) ∈ r.2.2 then some (blockOf r.1 (inv r.1 r.2.1) i j) else none

omit [LinearOrder K] in
/-- **C124** (histories). For every sequence of optimisations and covariance requests, with exceptions caught or not, nothing undefined happens, and a block the optimizer returns is the block of the inverse of the Hessian it held at
the last request that did not throw, if that request asked for this block; all other blocks are null, those below the diagonal after `computeCovariances` included. -/
theorem C124_history (chol : SBM.Layout → (Nat → Nat → K) → Option (Factor K)) (inv : SBM.Layout → (Nat → Nat → K) → Nat → Nat → K)
    (hchol : ∀ lay H F, chol lay H = some F → FactorOf F lay H (inv lay H)) (lay : SBM.Layout) (hm : lay.Mono) (H : Nat → Nat → K) (ops : List (Op K)) (k : Known K)
    (hk : Knows (fun l H => (chol l H).isSome) ⟨lay, H, none⟩ ops k) :
    ∃ s, Res.run (step chol) ⟨H, lay, fun _ _ => none⟩ ops = .ok s ∧ s.H = k.H ∧ s.lay = k.lay ∧ ∀ i j, getCovarianceBlock s i j = k.block inv i j := by
  have hreq : ∀ (s : St K) (k : Known K) (bs bs' : List (Nat × Nat)), (∀ b, b ∈ bs ↔ b ∈ bs') → (∀ b ∈ bs, b.1 < s.lay.n ∧ b.2 < s.lay.n) → s.lay.Mono → s.H = k.H → s.lay = k.lay → (∀ i j, s.P i j = k.block inv i j) →
      ∃ s' b, computeBlocks chol s bs = .ok (s', b) ∧ s'.lay.Mono ∧ s'.H = (k.request (fun l H => (chol l H).isSome) bs').H ∧ s'.lay = (k.request (fun l H => (chol l H).isSome) bs').lay ∧
        ∀ i j, s'.P i j = (k.request (fun l H => (chol l H).isSome) bs').block inv i j := by
    intro s k bs bs' he hb hmo h1 h2 h3
    unfold Known.request
    cases hc : chol s.lay s.H with
    | none =>
      have hc' := hc
      rw [h1, h2] at hc'
      refine ⟨s, true, by unfold computeBlocks; rw [hc], hmo, ?_⟩
      simp only [hc', Option.isSome_none, Bool.false_eq_true, if_false]
      exact ⟨h1, h2, h3⟩
    | some F =>
      have hc' := hc
      rw [h1, h2] at hc'
      obtain ⟨s', e, e1, e2, e3⟩ := computeBlocks_ok chol s hmo F hc _ (hchol _ _ _ hc) bs hb
      refine ⟨s', false, e, by rw [e2]; exact hmo, ?_⟩
      simp only [hc', Option.isSome_some, if_true]
      refine ⟨e1.trans h1, e2.trans h2, fun i j => ?_⟩
      rw [e3]
      unfold Known.block
      dsimp only
      rw [← h1, ← h2]
      by_cases hij : (i, j) ∈ bs
      · rw [if_pos hij, if_pos ((he _).1 hij)]
      · rw [if_neg hij, if_neg fun h => hij ((he _).2 h)]
  have key : ∀ (k0 k : Known K) (ops : List (Op K)), Knows (fun l H => (chol l H).isSome) k0 ops k → ∀ s : St K, s.lay.Mono → s.H = k0.H → s.lay = k0.lay → (∀ i j, s.P i j = k0.block inv i j) →
      ∃ s', Res.run (step chol) s ops = .ok s' ∧ s'.H = k.H ∧ s'.lay = k.lay ∧ ∀ i j, s'.P i j = k.block inv i j := by
    intro k0 k ops hk
    induction hk with
    | nil k => exact fun s _ h1 h2 h3 => ⟨s, rfl, h1, h2, h3⟩
    | newHessian lay H hm _ ih =>
      intro s _ h1 h2 h3
      exact ih { s with lay := lay, H := H } hm rfl rfl h3
    | blocks bs hb _ ih =>
      intro s hmo h1 h2 h3
      obtain ⟨s', b, e, q1, q2, q3, q4⟩ := hreq s _ bs bs (fun _ => Iff.rfl) (by rw [h2]; exact hb) hmo h1 h2 h3
      obtain ⟨t, f, g⟩ := ih s' q1 q2 q3 q4
      exact ⟨t, by simp only [Res.run, step, e]; exact f, g⟩
    | diagonal bs hb _ ih =>
      intro s hmo h1 h2 h3
      obtain ⟨s', b, e, q1, q2, q3, q4⟩ := hreq s _ (diagonalBlocks s.lay.n) bs (by
          rintro ⟨i, j⟩
          rw [hb, ← h2]
          simp only [diagonalBlocks, List.mem_map, List.mem_range, Prod.mk.injEq]
          constructor
          · rintro ⟨a, ha, rfl, rfl⟩; exact ⟨ha, rfl⟩
          · rintro ⟨h, rfl⟩; exact ⟨_, h, rfl, rfl⟩) (by
          intro b hbm
          obtain ⟨i, hi, rfl⟩ := List.mem_map.1 hbm
          rw [List.mem_range] at hi
          exact ⟨hi, hi⟩) hmo h1 h2 h3
      obtain ⟨t, f, g⟩ := ih s' q1 q2 q3 q4
      exact ⟨t, by simp only [Res.run, step, e]; exact f, g⟩
    | all bs hb _ ih =>
      intro s hmo h1 h2 h3
      have hmem : ∀ i j, (i, j) ∈ upperBlocks s.lay.n ↔ i ≤ j ∧ j < s.lay.n := by
        intro i j
        simp only [upperBlocks, List.mem_flatMap, List.mem_range, List.mem_map, List.mem_range'_1, Prod.mk.injEq]
        constructor
        · rintro ⟨a, ha, b, hb, rfl, rfl⟩; omega
        · rintro ⟨h, h'⟩; exact ⟨i, by omega, j, by omega, rfl, rfl⟩
      obtain ⟨s', b, e, q1, q2, q3, q4⟩ := hreq s _ (upperBlocks s.lay.n) bs (by
          rintro ⟨i, j⟩
          rw [hb, ← h2, hmem]) (by
          rintro ⟨i, j⟩ hbm
          have := (hmem i j).1 hbm
          exact ⟨by dsimp only; omega, this.2⟩) hmo h1 h2 h3
      obtain ⟨t, f, g⟩ := ih s' q1 q2 q3 q4
      exact ⟨t, by simp only [Res.run, step, e]; exact f, g⟩
  exact key _ _ _ hk ⟨H, lay, fun _ _ => none⟩ hm rfl rfl fun _ _ => rfl

/-! ### The blocks in the units of the design variables -/

open Verif.Hessian Verif.SBM Verif.Schur
open Verif.Jacobian (Env)
open Verif.Jacobian.Spec (Event)

/-- The same variables without scaling. -/
def unscaled (env : Env K) : Env K := { env with scaling := fun _ => 1 }

/-- `Σ Jᵀ W J` over the error terms, with Jacobians as the error terms compute them: entry `(a, b)` for two variables. -/
def information (env : Env K) (ts : List (Term K × List (Event K))) (d d' a b : Nat) : K := (ts.map fun p => JtWJ (unscaled env) p.1 p.2 d d' a b).sum

omit [LinearOrder K] in
theorem scale_out (env : Env K) (ts : List (Term K × List (Event K))) (d d' a b : Nat) :
    (ts.map fun p => JtWJ env p.1 p.2 d d' a b).sum = env.scaling d * information env ts d d' a b * env.scaling d' := by
  unfold information
  rw [← List.sum_map_mul_left, ← List.sum_map_mul_right]
  congr 1
  refine List.map_congr_left fun p _ => ?_
  unfold JtWJ scaledJ unscaled
  simp only [Finset.mul_sum, Finset.sum_mul]
  refine Finset.sum_congr rfl fun v _ => Finset.sum_congr rfl fun v' _ => ?_
  ring

omit [LinearOrder K] in
theorem upper_JtWJ (env : Env K) (dvs : List Nat) (ts : List (Term K × List (Event K))) (H : SBM K)
    (hH : ∀ r a, r < dvs.length → a < env.dim (dvs.getD r 0) → ∀ c b, c < dvs.length → b < env.dim (dvs.getD c 0) →
      H.toDense.e ((dvLayout env dvs).base r + a) ((dvLayout env dvs).base c + b) = if r ≤ c then (ts.map fun p => JtWJ env p.1 p.2 (dvs.getD r 0) (dvs.getD c 0) a b).sum else 0)
    (r a c b : Nat) (hr : r < dvs.length) (ha : a < env.dim (dvs.getD r 0)) (hc : c < dvs.length) (hb : b < env.dim (dvs.getD c 0)) :
    upper H.toDense.e ((dvLayout env dvs).base r + a) ((dvLayout env dvs).base c + b) = (ts.map fun p => JtWJ env p.1 p.2 (dvs.getD r 0) (dvs.getD c 0) a b).sum := by
  have hlt : ∀ r c a b, r < c → c < dvs.length → a < env.dim (dvs.getD r 0) → (dvLayout env dvs).base r + a < (dvLayout env dvs).base c + b := by
    intro r c a b hrc hc ha
    have h1 := Layout.base_add_size (dvLayout_mono env dvs) (r := r) (show r < dvs.length by omega)
    have h2 := Layout.base_le (dvLayout_mono env dvs) (show r + 1 ≤ c by omega) (show c ≤ dvs.length by omega)
    rw [dvLayout_size] at h1
    omega
  unfold upper
  split
  · rename_i h
    rw [hH r a hr ha c b hc hb, if_pos]
    by_contra hn
    have := hlt c r b a (by omega) hr hb
    omega
  · rename_i h
    rw [hH c b hc hb r a hr ha, if_pos, LegacyStep.sum_JtWJ_symm]
    by_contra hn
    have := hlt r c a b (by omega) hc ha
    omega

omit [LinearOrder K] in
/-- **C124** (the blocks in the units of the design variables). Build the Hessian from any legal error terms and ask for any blocks. If the factorisation succeeds and no scaling is zero, then the blocks, multiplied from the left
with the scaling of the row variable and from the right with that of the column variable, are blocks of the inverse of `Σ Jᵀ W J`, the covariance of the estimate. Damping does not enter. -/
theorem C124_covariance (debug : Bool) (align : Nat) (ha : 0 < align) (env : Env K) (dvs : List Nat) (hix : Indexed env dvs) (ts : List (Term K × List (Event K))) (ht : ∀ p ∈ ts, Hessian.Legal env align p.1 p.2)
    (s : Sys K) (hs : SysOk (dvLayout env dvs) s) (hsc : ∀ d ∈ dvs, env.scaling d ≠ 0) (chol : SBM.Layout → (Nat → Nat → K) → Option (Factor K)) :
    ∃ s', buildSystem debug align env (ts.map Prod.fst) s = .ok s' ∧
      ∀ F T, chol (dvLayout env dvs) (upper s'.H.toDense.e) = some F → FactorOf F (dvLayout env dvs) (upper s'.H.toDense.e) T →
        ∀ (P : Nat → Nat → Option (List (List K))) (bs : List (Nat × Nat)), (∀ b ∈ bs, b.1 < dvs.length ∧ b.2 < dvs.length) →
          ∃ (c : St K) (Cov : Nat → Nat → Nat → Nat → K), computeBlocks chol ⟨upper s'.H.toDense.e, dvLayout env dvs, P⟩ bs = .ok (c, false) ∧
            (∀ i a k d, i < dvs.length → a < env.dim (dvs.getD i 0) → k < dvs.length → d < env.dim (dvs.getD k 0) →
              ∑ j ∈ Finset.range dvs.length, ∑ b ∈ Finset.range (env.dim (dvs.getD j 0)), information env ts (dvs.getD i 0) (dvs.getD j 0) a b * Cov j b k d = if i = k ∧ a = d then 1 else 0) ∧
            ∀ i j, (i, j) ∈ bs → ∃ B, getCovarianceBlock c i j = some B ∧ ∀ a b, a < env.dim (dvs.getD i 0) → b < env.dim (dvs.getD j 0) →
              env.scaling (dvs.getD i 0) * (B.getD a []).getD b 0 * env.scaling (dvs.getD j 0) = Cov i a j b := by
  obtain ⟨s', e, -, hN⟩ := C07_normal_equations debug align ha env dvs hix ts ht s hs
  refine ⟨s', e, fun F T hF hT P bs hb => ?_⟩
  have hmono := dvLayout_mono env dvs
  obtain ⟨c, e1, -, -, e2⟩ := computeBlocks_ok chol ⟨upper s'.H.toDense.e, dvLayout env dvs, P⟩ hmono F hF T hT bs hb
  refine ⟨c, fun i a j b => env.scaling (dvs.getD i 0) * T ((dvLayout env dvs).base i + a) ((dvLayout env dvs).base j + b) * env.scaling (dvs.getD j 0), e1, ?_, ?_⟩
  · intro i a k d hi hai hk hd
    have hne : ∀ r, r < dvs.length → env.scaling (dvs.getD r 0) ≠ 0 := by
      intro r hr
      rw [List.getD_eq_getElem _ _ hr]
      exact hsc _ (List.getElem_mem _)
    have hin : ∀ r a, r < dvs.length → a < env.dim (dvs.getD r 0) → (dvLayout env dvs).base r + a < (dvLayout env dvs).total := by
      intro r a hr har
      have := Layout.base_add_size_le_total hmono (r := r) hr
      rw [dvLayout_size] at this
      omega
    have h5 := hT.2.2.2.2 _ _ (hin i a hi hai) (hin k d hk hd)
    rw [Layout.sum_blocks hmono] at h5
    have h6 : ∑ j ∈ Finset.range dvs.length, ∑ b ∈ Finset.range (env.dim (dvs.getD j 0)), information env ts (dvs.getD i 0) (dvs.getD j 0) a b *
        (env.scaling (dvs.getD j 0) * T ((dvLayout env dvs).base j + b) ((dvLayout env dvs).base k + d) * env.scaling (dvs.getD k 0)) =
        (env.scaling (dvs.getD i 0))⁻¹ * (if (dvLayout env dvs).base i + a = (dvLayout env dvs).base k + d then 1 else 0) * env.scaling (dvs.getD k 0) := by
      rw [← h5, Finset.mul_sum, Finset.sum_mul]
      refine Finset.sum_congr rfl fun j hj => ?_
      rw [Finset.mul_sum, Finset.sum_mul, dvLayout_size]
      refine Finset.sum_congr rfl fun b hbj => ?_
      rw [upper_JtWJ env dvs ts s'.H (fun r a hr har => (hN r a hr har).2) i a j b hi hai (Finset.mem_range.1 hj) (Finset.mem_range.1 hbj), scale_out]
      have := hne i hi
      field_simp
    rw [h6]
    by_cases hik : i = k ∧ a = d
    · obtain ⟨rfl, rfl⟩ := hik
      rw [if_pos rfl, if_pos ⟨rfl, rfl⟩, mul_one, inv_mul_cancel₀ (hne i hi)]
    · rw [if_neg hik, if_neg, mul_zero, zero_mul]
      intro heq
      apply hik
      have hu : i = k := Layout.unique hmono (i := (dvLayout env dvs).base i + a) hi hk (by omega) (by rw [dvLayout_size]; omega) (by omega) (by rw [dvLayout_size]; omega)
      subst hu
      exact ⟨rfl, by omega⟩
  · intro i j hij
    refine ⟨_, (e2 i j).trans (if_pos hij), fun a b hai hbj => ?_⟩
    congr 2
    unfold blockOf
    dsimp only
    rw [dvLayout_size, dvLayout_size]
    have h1 : ((List.range (env.dim (dvs.getD i 0))).map fun a => (List.range (env.dim (dvs.getD j 0))).map fun b => T ((dvLayout env dvs).base i + a) ((dvLayout env dvs).base j + b)).getD a [] =
        (List.range (env.dim (dvs.getD j 0))).map fun b => T ((dvLayout env dvs).base i + a) ((dvLayout env dvs).base j + b) := by
      rw [List.getD_eq_getElem _ _ (by rw [List.length_map, List.length_range]; exact hai), List.getElem_map, List.getElem_range]
    rw [h1, List.getD_eq_getElem _ _ (by rw [List.length_map, List.length_range]; exact hbj), List.getElem_map, List.getElem_range]

/-! A concrete problem: the variables of the example of C119 (dimension one, the first with scaling 2) and terms on the variables 0 and 1, on 1 and 2, and on 2 twice. -/

/-- The terms of the example. -/
def demoTerms : List (Term ℚ × List (Event ℚ)) := [LegacyStep.demoTerm [0, 1], LegacyStep.demoTerm [1, 2], LegacyStep.demoTerm [2, 2]]

/-- The Cholesky factor `[[2, 0, 0], [1, 1, 0], [0, 1, 2]]` of the Hessian of the example, `[[4, 2, 0], [2, 2, 1], [0, 1, 5]]`. -/
def demoFactor : Factor ℚ := setCholeskyFactor 3 (fun r => [0, 2, 4, 5].getD r 0) (fun p => [0, 1, 1, 2, 2].getD p 0) (fun p => [2, 1, 1, 1, 2].getD p 0) none

/-- The inverse of the Hessian. -/
def demoInverse (i j : Nat) : ℚ := (([[9, -10, 2], [-10, 20, -4], [2, -4, 4]] : List (List ℚ)).getD i []).getD j 0 / 16

theorem demoFactor_wf : WF demoFactor := by
  have h3 : ∀ r, r < demoFactor.n → r = 0 ∨ r = 1 ∨ r = 2 := by intro r hr; have : r < 3 := hr; omega
  refine ⟨by decide, ?_, ?_, ?_, ?_, fun _ _ => rfl⟩
  · intro r hr
    rcases h3 r hr with rfl | rfl | rfl <;> decide
  · intro r hr
    rcases h3 r hr with rfl | rfl | rfl <;> decide
  · intro r hr
    rcases h3 r hr with rfl | rfl | rfl <;> decide +kernel
  · intro r hr p h1 h2
    rcases h3 r hr with rfl | rfl | rfl
    · have h1' : 0 < p := h1
      have h2' : p < 2 := h2
      obtain rfl : p = 1 := by omega
      decide
    · have h1' : 2 < p := h1
      have h2' : p < 4 := h2
      obtain rfl : p = 3 := by omega
      decide
    · have h1' : 4 < p := h1
      have h2' : p < 5 := h2
      omega

theorem demoFactor_of {H : Nat → Nat → ℚ} (hH : ∀ i j, i < 3 → j < 3 → H i j = (([[4, 2, 0], [2, 2, 1], [0, 1, 5]] : List (List ℚ)).getD i []).getD j 0) :
    FactorOf demoFactor (dvLayout LegacyStep.demoEnv [0, 1, 2]) H demoInverse := by
  have ht : (dvLayout LegacyStep.demoEnv [0, 1, 2]).total = 3 := by decide
  have h3 : ∀ r, r < 3 → r = 0 ∨ r = 1 ∨ r = 2 := by intro r hr; omega
  refine ⟨demoFactor_wf, ⟨id, fun i hi => ⟨hi, hi, rfl, rfl⟩⟩, ht.symm, ?_, ?_⟩
  · intro i j hi hj
    rw [ht] at hi hj
    rw [hH i j hi hj]
    rcases h3 i hi with rfl | rfl | rfl <;> rcases h3 j hj with rfl | rfl | rfl <;> decide +kernel
  · intro i j hi hj
    rw [ht] at hi hj ⊢
    rw [Finset.sum_congr rfl fun k hk => by rw [hH i k hi (Finset.mem_range.1 hk)]]
    rcases h3 i hi with rfl | rfl | rfl <;> rcases h3 j hj with rfl | rfl | rfl <;> decide +kernel

/-- The hypotheses of `C124_covariance` are met by the example, the factorisation included. -/
theorem demo_covariance : ∃ s' c, buildSystem true 1 LegacyStep.demoEnv (demoTerms.map Prod.fst) LegacyStep.demoSys = .ok s' ∧
    (∀ p ∈ demoTerms, Hessian.Legal LegacyStep.demoEnv 1 p.1 p.2) ∧ (∀ d ∈ [0, 1, 2], LegacyStep.demoEnv.scaling d ≠ 0) ∧
    FactorOf demoFactor (dvLayout LegacyStep.demoEnv [0, 1, 2]) (upper s'.H.toDense.e) demoInverse ∧
    computeBlocks (fun _ _ => some demoFactor) ⟨upper s'.H.toDense.e, dvLayout LegacyStep.demoEnv [0, 1, 2], fun _ _ => none⟩ [(0, 0), (0, 2)] = .ok (c, false) ∧
    getCovarianceBlock c 0 0 = some [[9 / 16]] ∧ getCovarianceBlock c 0 2 = some [[1 / 8]] ∧ getCovarianceBlock c 1 1 = none := by
  have hl : ∀ p ∈ demoTerms, Hessian.Legal LegacyStep.demoEnv 1 p.1 p.2 := by
    intro p hp
    simp only [demoTerms, List.mem_cons, List.not_mem_nil, or_false] at hp
    rcases hp with rfl | rfl | rfl <;> exact LegacyStep.demo_term _ _ (by decide) (by decide)
  obtain ⟨s', e, -, hN⟩ := C07_normal_equations true 1 (by decide) LegacyStep.demoEnv [0, 1, 2] LegacyStep.demo_indexed demoTerms hl LegacyStep.demoSys LegacyStep.demo_sys
  have h3 : ∀ r, r < 3 → r = 0 ∨ r = 1 ∨ r = 2 := by intro r hr; omega
  have hH : ∀ i j, i < 3 → j < 3 → upper s'.H.toDense.e i j = (([[4, 2, 0], [2, 2, 1], [0, 1, 5]] : List (List ℚ)).getD i []).getD j 0 := by
    intro i j hi hj
    have hb : ∀ i, i < 3 → (dvLayout LegacyStep.demoEnv [0, 1, 2]).base i + 0 = i := by
      intro i hi
      rcases h3 i hi with rfl | rfl | rfl <;> decide
    have hu := upper_JtWJ LegacyStep.demoEnv [0, 1, 2] demoTerms s'.H (fun r a hr har => (hN r a hr har).2) i 0 j 0 hi Nat.one_pos hj Nat.one_pos
    rw [hb i hi, hb j hj] at hu
    rw [hu]
    rcases h3 i hi with rfl | rfl | rfl <;> rcases h3 j hj with rfl | rfl | rfl <;> decide +kernel
  have hF := demoFactor_of hH
  obtain ⟨c, e1, -, -, e2⟩ := computeBlocks_ok (fun _ _ => some demoFactor) ⟨upper s'.H.toDense.e, dvLayout LegacyStep.demoEnv [0, 1, 2], fun _ _ => none⟩ (dvLayout_mono _ _) demoFactor rfl demoInverse hF [(0, 0), (0, 2)]
    (by show ∀ b ∈ [(0, 0), (0, 2)], b.1 < 3 ∧ b.2 < 3; decide)
  refine ⟨s', c, e, hl, by decide +kernel, hF, e1, ?_, ?_, ?_⟩
  · exact (e2 0 0).trans (by show (if (0, 0) ∈ [(0, 0), (0, 2)] then some (blockOf (dvLayout LegacyStep.demoEnv [0, 1, 2]) demoInverse 0 0) else none) = some [[9 / 16]]; decide +kernel)
  · exact (e2 0 2).trans (by show (if (0, 2) ∈ [(0, 0), (0, 2)] then some (blockOf (dvLayout LegacyStep.demoEnv [0, 1, 2]) demoInverse 0 2) else none) = some [[1 / 8]]; decide +kernel)
  · exact (e2 1 1).trans (by show (if (1, 1) ∈ [(0, 0), (0, 2)] then some (blockOf (dvLayout LegacyStep.demoEnv [0, 1, 2]) demoInverse 1 1) else none) = none; decide +kernel)

/-- **C124** (negation). The blocks are not the covariance as they are: the covariance of the example, an inverse of `Σ Jᵀ W J`, has the entry 9/4 for variable 0, whose scaling is 2; the block the optimizer returns is 9/16. -/
theorem C124_scaling_counterexample : ∃ (c : St ℚ) (Cov : Nat → Nat → ℚ), getCovarianceBlock c 0 0 = some [[9 / 16]] ∧ Cov 0 0 = 9 / 4 ∧
    (∃ s', buildSystem true 1 LegacyStep.demoEnv (demoTerms.map Prod.fst) LegacyStep.demoSys = .ok s' ∧
      computeBlocks (fun _ _ => some demoFactor) ⟨upper s'.H.toDense.e, dvLayout LegacyStep.demoEnv [0, 1, 2], fun _ _ => none⟩ [(0, 0), (0, 2)] = .ok (c, false)) ∧
    ∀ i k, i < 3 → k < 3 → ∑ j ∈ Finset.range 3, information LegacyStep.demoEnv demoTerms i j 0 0 * Cov j k = if i = k then 1 else 0 := by
  obtain ⟨s', c, e, -, -, -, e1, e2, -, -⟩ := demo_covariance
  refine ⟨c, fun i j => LegacyStep.demoEnv.scaling i * demoInverse i j * LegacyStep.demoEnv.scaling j, e2, by decide +kernel, ⟨s', e, e1⟩, ?_⟩
  intro i k hi hk
  have h3 : ∀ r, r < 3 → r = 0 ∨ r = 1 ∨ r = 2 := by intro r hr; omega
  rcases h3 i hi with rfl | rfl | rfl <;> rcases h3 k hk with rfl | rfl | rfl <;> decide +kernel

/-- The hypotheses of `C124_history` are met: a factorisation that knows the Hessian of `Covariance.demo` only; a request, an optimisation that leaves a singular Hessian, and a request that throws. The block is still there. -/
example : ∃ (chol : SBM.Layout → (Nat → Nat → ℚ) → Option (Factor ℚ)) (inv : SBM.Layout → (Nat → Nat → ℚ) → Nat → Nat → ℚ) (s : St ℚ),
    (∀ lay H F, chol lay H = some F → FactorOf F lay H (inv lay H)) ∧
    Res.run (step chol) ⟨fun i j => gram Covariance.demo (Covariance.demo.p i) (Covariance.demo.p j), ⟨2, fun i => i + 1⟩, fun _ _ => none⟩ [.all, .newHessian ⟨2, fun i => i + 1⟩ (fun _ _ => 0), .diagonal] = .ok s ∧
    getCovarianceBlock s 0 1 = some [[-1 / 18]] ∧ getCovarianceBlock s 1 0 = none := by
  classical
  have ht : ∀ lay : SBM.Layout, lay = ⟨2, fun i => i + 1⟩ → lay.total = 2 := by rintro _ rfl; rfl
  let chol : SBM.Layout → (Nat → Nat → ℚ) → Option (Factor ℚ) := fun lay H =>
    if lay = ⟨2, fun i => i + 1⟩ ∧ H = (fun i j => gram Covariance.demo (Covariance.demo.p i) (Covariance.demo.p j)) then some Covariance.demo else none
  have hc : ∀ lay H F, chol lay H = some F → FactorOf F lay H (fun i j => if i = 0 ∧ j = 0 then 1/9 else if i = 1 ∧ j = 1 then 5/18 else -1/18) := by
    intro lay H F h
    simp only [chol] at h
    split at h
    · rename_i hh
      obtain ⟨rfl, rfl⟩ := hh
      cases h
      exact ⟨demo_wf, demo_perm, rfl, fun _ _ _ _ => rfl, demo_inv⟩
    · cases h
  have h1 : (chol ⟨2, fun i => i + 1⟩ fun i j => gram Covariance.demo (Covariance.demo.p i) (Covariance.demo.p j)).isSome = true := by simp [chol]
  have h2 : (chol ⟨2, fun i => i + 1⟩ fun _ _ => 0).isSome = false := by
    simp only [chol]
    rw [if_neg]
    · rfl
    · rintro ⟨-, h⟩
      have := congrFun (congrFun h 0) 0
      revert this
      decide +kernel
  obtain ⟨s, e, -, -, hb⟩ := C124_history chol (fun _ _ i j => if i = 0 ∧ j = 0 then 1/9 else if i = 1 ∧ j = 1 then 5/18 else -1/18) hc ⟨2, fun i => i + 1⟩ (fun r _ => by show r + 1 ≤ r + 1 + 1; omega)
    (fun i j => gram Covariance.demo (Covariance.demo.p i) (Covariance.demo.p j)) [.all, .newHessian ⟨2, fun i => i + 1⟩ (fun _ _ => 0), .diagonal] _
    (.all [(0, 0), (0, 1), (1, 1)] (fun i j => by
        show _ ↔ i ≤ j ∧ j < 2
        simp only [List.mem_cons, Prod.mk.injEq, List.not_mem_nil, or_false]
        omega) (.newHessian _ _ (fun r _ => by show r + 1 ≤ r + 1 + 1; omega)
      (.diagonal [(0, 0), (1, 1)] (fun i j => by
        have : ((⟨2, fun i => i + 1⟩ : SBM.Layout).n) = 2 := rfl
        show _ ↔ i < 2 ∧ j = i
        simp only [List.mem_cons, Prod.mk.injEq, List.not_mem_nil, or_false]
        omega) (.nil _))))
  refine ⟨chol, _, s, hc, e, ?_, ?_⟩
  · rw [hb]
    simp only [Known.request, h1, h2, if_true, Bool.false_eq_true, if_false, Known.block]
    decide +kernel
  · rw [hb]
    simp only [Known.request, h1, h2, if_true, Bool.false_eq_true, if_false, Known.block]
    decide +kernel

end Verif.LegacyCov
