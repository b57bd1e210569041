import Verif.LegacyRun.Props
import Verif.LegacyStep.Definite
import Verif.LegacyStep.DeltaX

/-!
C125 for the normal equations of error terms: the assumptions of `C125_converges_partial` about the linear algebra hold for the system that the legacy optimizer builds and reduces (C119, C120, C121) if the linear solver is exact.
-/
namespace Verif.LegacyRun
open Verif.Legacy Verif.LegacyStep
open Verif.MatrixStack (DMat)
open Verif.Jacobian (Env)
open Verif.Jacobian.Spec (Event total)
open Verif.SBM Verif.Hessian Verif.Schur

variable {K X : Type} [LinearOrder K] [Field K] [IsStrictOrderedRing K]

/-- A least-squares problem with its optimizer: variables `dvs` with their dimensions, block indices and scalings, the last `p` of them marginalised; the error terms with Jacobians at every estimate; `upd`: the calls of
`DesignVariable::update`; `revert`: `revertLastStateUpdate`, LO:652-657; `inv`: the inverse of a block in `applySchurComplement`; `lin`: the linear solver; `sys`, `A`: the matrices when `optimize` starts. -/
structure Lsq (K X : Type) [CommRing K] where
  env : Env K
  dvs : List Nat
  m : Nat
  p : Nat
  terms : X → List (Term K × List (Event K))
  cost : X → Dbl K
  upd : X → List (Nat × (Nat → K)) → X
  revert : X → X
  maxDiag : X → K
  debug : Bool
  align : Nat
  inv : DMat K → DMat K
  lin : SBM K → (Nat → K) → Option (Nat → K)
  sys : Sys K
  A : SBM K

/-- The length of `_dx` and `_b`, LO:110-118. -/
def Lsq.n (L : Lsq K X) : Nat := (dvLayout L.env (L.dvs.take L.m)).total

/-- The steps of `optimize` for such a problem, LO:506-551. Simplified: the matrices are named by the estimate they are built at, and building and reducing starts from the same matrices each time; C119 shows that what they contained does not matter. -/
def Lsq.prob (L : Lsq K X) : Prob K X (Sys K × Schur.St K × (Nat → K)) X where
  cost := L.cost
  update x d := (L.upd x (applyStateUpdate L.env L.dvs L.m d.2.1.H d.1.rhs d.2.1.invV d.2.2),
    match deltaX L.env L.dvs L.m d.2.1.H d.1.rhs d.2.1.invV d.2.2 L.n with
    | .ok v => .fin v
    | _ => .nan)
  revert := L.revert
  build x := x
  maxDiag := L.maxDiag
  solve l x := match l with
    | .fin l => match reduce L.debug L.align L.inv L.env ((L.terms x).map Prod.fst) l L.m L.p true L.sys L.A with
      | .ok (s, r) => (L.lin r.A r.b).map fun dx => (s, r, dx)
      | _ => none
    | _ => none
  den l _ d := match l with
    | .fin l => lmDen l d.2.2 d.2.1.b L.n
    | _ => 0

/-- What is assumed: the hypotheses of C119 at every estimate; scalings are not zero; the linear solver solves what it is given, and succeeds on positive definite matrices; costs are finite and not negative; reverting restores the cost. -/
structure Lsq.Ok (L : Lsq K X) : Prop where
  align : 0 < L.align
  nodup : L.dvs.Nodup
  indexed : Indexed L.env L.dvs
  dims : ∀ d ∈ L.dvs, 0 < L.env.dim d
  scaled : ∀ d ∈ L.dvs, L.env.scaling d ≠ 0
  split : L.dvs.length = L.m + L.p
  dense : 0 < L.m
  legal : ∀ x, ∀ q ∈ L.terms x, Hessian.Legal L.env L.align q.1 q.2
  uncoupled : ∀ x, Uncoupled (L.terms x) (L.dvs.drop L.m)
  inverts : ∀ x l, 0 < l → Inverts L.env (L.terms x) true l L.inv (L.dvs.drop L.m)
  sys : SysOk (dvLayout L.env L.dvs) L.sys
  square : Solver.Square L.A
  layout : L.A.rl = dvLayout L.env (L.dvs.take L.m)
  exact : ∀ A b dx, L.lin A b = some dx → ∀ i, i < L.n → ∑ j ∈ Finset.range L.n, upper A.toDense.e i j * dx j = b i
  succeeds : ∀ A b l, 0 < l → (∀ x : Nat → K, l * ∑ i ∈ Finset.range L.n, x i * x i ≤ ∑ i ∈ Finset.range L.n, ∑ j ∈ Finset.range L.n, x i * (upper A.toDense.e i j * x j)) → L.lin A b ≠ none
  cost : ∀ x, ∃ r, 0 ≤ r ∧ L.cost x = .fin r
  revert : ∀ x us, L.cost (L.revert (L.upd x us)) = L.cost x

/-- A solution of the damped normal equations is at most the right-hand side divided by the damping. -/
theorem step_le (env : Env K) (dvs : List Nat) (hnd : dvs.Nodup) (ts : List (Term K × List (Event K))) (l : K) (hl : 0 < l) (z : Nat → Nat → K)
    (hz : ∀ i a, i < dvs.length → a < env.dim (dvs.getD i 0) → mulLhs env dvs ts l z i a = grad env ts (dvs.getD i 0) a) :
    ∀ i a, i < dvs.length → a < env.dim (dvs.getD i 0) → |z i a| ≤ (1 + dot env dvs (fun c b => grad env ts (dvs.getD c 0) b) (fun c b => grad env ts (dvs.getD c 0) b)) / l := by
  set g : Nat → Nat → K := fun c b => grad env ts (dvs.getD c 0) b with hg
  have h1 := form_ge env dvs hnd ts l z
  rw [dot_congr (w := mulLhs env dvs ts l z) (w' := g) hz] at h1
  have hG : 0 ≤ dot env dvs g g := Finset.sum_nonneg fun _ _ => Finset.sum_nonneg fun _ _ => mul_self_nonneg _
  have h2 : 0 ≤ dot env dvs (fun c b => l * z c b - g c b) (fun c b => l * z c b - g c b) := Finset.sum_nonneg fun _ _ => Finset.sum_nonneg fun _ _ => mul_self_nonneg _
  have h3 : dot env dvs (fun c b => l * z c b - g c b) (fun c b => l * z c b - g c b) = l * (l * dot env dvs z z) - 2 * l * dot env dvs z g + dot env dvs g g := by
    unfold dot
    simp only [Finset.mul_sum, ← Finset.sum_sub_distrib, ← Finset.sum_add_distrib]
    exact Finset.sum_congr rfl fun _ _ => Finset.sum_congr rfl fun _ _ => by ring
  -- the square of the damped step is at most that of the right-hand side
  have h4 : l * (l * dot env dvs z z) ≤ dot env dvs g g := by
    -- `2 l² ‖z‖² ≤ 2 l ⟨z, g⟩ ≤ l² ‖z‖² + ‖g‖²`
    have h6 := mul_le_mul_of_nonneg_left h1 hl.le
    rw [h3] at h2
    nlinarith
  intro i a hi ha
  have h7 : z i a * z i a ≤ dot env dvs z z := by
    unfold dot
    refine le_trans ?_ (Finset.single_le_sum (f := fun c => ∑ b ∈ Finset.range (env.dim (dvs.getD c 0)), z c b * z c b) (fun _ _ => Finset.sum_nonneg fun _ _ => mul_self_nonneg _) (Finset.mem_range.2 hi))
    exact Finset.single_le_sum (f := fun b => z i b * z i b) (fun _ _ => mul_self_nonneg _) (Finset.mem_range.2 ha)
  rw [le_div_iff₀ hl]
  set G := dot env dvs g g with hGd
  have h8 : (|z i a| * l) ^ 2 ≤ (1 + G) ^ 2 := by
    have : (|z i a| * l) ^ 2 = l * (l * (z i a * z i a)) := by rw [mul_pow, sq_abs]; ring
    rw [this]
    have := mul_le_mul_of_nonneg_left (mul_le_mul_of_nonneg_left h7 hl.le) hl.le
    nlinarith
  exact abs_le_of_sq_le_sq' h8 (by linarith) |>.2

theorem Lsq.Ok.sound {L : Lsq K X} (h : L.Ok) : Sound L.prob where
  cost := h.cost
  revert x d := h.revert x _
  solve l x hl := by
    obtain ⟨s, r, e, hr⟩ := C120_gain_partial L.debug L.align h.align L.inv L.env L.dvs h.nodup h.indexed (L.terms x) (h.legal x) l hl.le L.m L.p h.split (h.uncoupled x) (h.inverts x l hl) L.sys h.sys L.A h.square h.layout
    obtain ⟨s2, r2, e2, hdef⟩ := C120_definite L.debug L.align h.align L.inv L.env L.dvs h.nodup h.indexed (L.terms x) (h.legal x) l hl.le L.m L.p h.split (h.uncoupled x) (h.inverts x l hl) L.sys h.sys L.A h.square h.layout
    rw [e] at e2
    cases e2
    obtain ⟨dx, hdx⟩ := Option.ne_none_iff_exists'.1 (h.succeeds r.A r.b l hl hdef)
    refine ⟨(s, r, dx), ?_, ?_⟩
    · show (match reduce L.debug L.align L.inv L.env ((L.terms x).map Prod.fst) l L.m L.p true L.sys L.A with
        | .ok (s, r) => (L.lin r.A r.b).map fun dx => (s, r, dx)
        | _ => none) = _
      rw [e]
      simp only [hdx, Option.map_some]
    · obtain ⟨z, -, -, h1, -⟩ := hr dx (h.exact _ _ _ hdx)
      refine le_trans ?_ h1
      exact mul_nonneg zero_le_two (mul_nonneg hl.le (Finset.sum_nonneg fun _ _ => sq_nonneg _))
  size x := by
    set G : K := 1 + dot L.env L.dvs (fun c b => grad L.env (L.terms x) (L.dvs.getD c 0) b) (fun c b => grad L.env (L.terms x) (L.dvs.getD c 0) b) with hG
    have hG0 : 0 ≤ G := by
      have : 0 ≤ dot L.env L.dvs (fun c b => grad L.env (L.terms x) (L.dvs.getD c 0) b) (fun c b => grad L.env (L.terms x) (L.dvs.getD c 0) b) :=
        Finset.sum_nonneg fun _ _ => Finset.sum_nonneg fun _ _ => mul_self_nonneg _
      linarith
    set M : K := 1 + (L.dvs.map fun d => |L.env.scaling d|).sum with hM
    have hsum : ∀ d ∈ L.dvs, |L.env.scaling d| ≤ (L.dvs.map fun d => |L.env.scaling d|).sum := fun d hd =>
      List.single_le_sum (fun y hy => by obtain ⟨d, -, rfl⟩ := List.mem_map.1 hy; exact abs_nonneg _) _ (List.mem_map_of_mem hd)
    have hsum0 : 0 ≤ (L.dvs.map fun d => |L.env.scaling d|).sum := List.sum_nonneg fun y hy => by obtain ⟨d, -, rfl⟩ := List.mem_map.1 hy; exact abs_nonneg _
    refine ⟨G * M, fun l d hl hd y => ?_⟩
    obtain ⟨s, r, e, hr⟩ := C119_step L.debug L.align h.align L.inv L.env L.dvs h.nodup h.indexed (L.terms x) (h.legal x) l true L.m L.p h.split (h.uncoupled x) (h.inverts x l hl) L.sys h.sys L.A h.square h.layout
    change (match reduce L.debug L.align L.inv L.env ((L.terms x).map Prod.fst) l L.m L.p true L.sys L.A with
        | .ok (s, r) => (L.lin r.A r.b).map fun dx => (s, r, dx)
        | _ => none) = some d at hd
    rw [e] at hd
    simp only [Option.map_eq_some_iff] at hd
    obtain ⟨dx, hdx, rfl⟩ := hd
    obtain ⟨z, h1, h2, h3⟩ := hr dx (h.exact _ _ _ hdx)
    have hlen : L.dvs.length = L.m + r.invV.length := by
      have := congrArg List.length h1
      rw [List.length_map, applyStateUpdate, List.length_append, denseUpdates_length, sparseUpdates_length, List.length_take] at this
      have := h.split
      omega
    obtain ⟨v, hv, -, ⟨i, u, hu, a, ha, hatt⟩, -⟩ := C121_deltaX_partial L.env L.dvs L.m h.dense r.H s.rhs r.invV hlen dx h.dims
    refine ⟨v, ?_, ?_⟩
    · show (match deltaX L.env L.dvs L.m r.H s.rhs r.invV dx L.n with
        | .ok v => Dbl.fin v
        | _ => .nan) = _
      rw [show deltaX L.env L.dvs L.m r.H s.rhs r.invV dx L.n = .ok v from hv]
    · have hi : i < L.dvs.length := by
        have := (List.getElem?_eq_some_iff.1 hu).1
        have hl := congrArg List.length h1
        rw [List.length_map] at hl
        omega
      have hu1 : u.1 = L.dvs.getD i 0 := by
        have : ((applyStateUpdate L.env L.dvs L.m r.H s.rhs r.invV dx).map Prod.fst)[i]? = some u.1 := by rw [List.getElem?_map, hu]; rfl
        rw [h1] at this
        rw [List.getD_eq_getElem?_getD, this]; rfl
      have hmem : u.1 ∈ L.dvs := by
        rw [hu1, List.getD_eq_getElem _ _ hi]
        exact List.getElem_mem _
      have hz := step_le L.env L.dvs h.nodup (L.terms x) l hl z h3 i a hi (by rw [← hu1]; exact ha)
      rw [h2 i u hu a ha, abs_mul] at hatt
      have hGl : 0 ≤ G / l := div_nonneg hG0 hl.le
      have hgoal : G / l * M = G * M / l := by ring
      rw [← hgoal]
      by_cases him : i < L.m
      · rw [if_pos him] at hatt
        have hv' : v = |z i a| := (mul_right_cancel₀ (abs_ne_zero.2 (h.scaled _ hmem)) hatt).symm
        rw [hv']
        calc |z i a| ≤ G / l := hz
          _ = G / l * 1 := (mul_one _).symm
          _ ≤ G / l * M := mul_le_mul_of_nonneg_left (by rw [hM]; linarith) hGl
      · rw [if_neg him, mul_one] at hatt
        rw [← hatt]
        exact mul_le_mul hz (by have := hsum _ hmem; rw [hM]; linarith) (abs_nonneg _) hGl

/-- **C125** (for the normal equations). For every least-squares problem and optimizer as in `Lsq.Ok`, any split into marginalised and other variables: `optimize` with Levenberg-Marquardt steps, gamma and the initial `μ` positive, beta at least 2, thresholds and initial
damping positive, does not increase the cost and ends after a number of passes that does not depend on `maxIterations`. -/
theorem C125_normal_equations [Archimedean K] (L : Lsq K X) (h : L.Ok) (lo : LmOptions K) (hg : 0 < lo.gamma) (hb : 1 < lo.beta) (hmu : 0 < lo.muInit) (o : Options K) (hlm : o.doLevenbergMarquardt = true)
    (hcX : 0 < o.convergenceDeltaX) (hcJ : 0 < o.convergenceDeltaJ) (x : X) (hl : 0 < if lo.estimateScale ≤ 0 then lo.lambdaInit else L.maxDiag x * lo.estimateScale) :
    (∃ N : Nat, ∀ maxIt : Int, (optimizeLM L.prob lo { o with maxIterations := maxIt } x x).iterations ≤ N) ∧
    ∀ maxIt : Int, Dbl.le (L.cost (optimizeLM L.prob lo { o with maxIterations := maxIt } x x).x) (L.cost x) = true := by
  obtain ⟨h1, h2⟩ := C125_converges_partial L.prob h.sound lo hg hb hmu o hlm hcX hcJ x x hl
  exact ⟨h1, fun maxIt => (h2 maxIt).2.1⟩

/-! ### A concrete problem -/

/-- Estimates of three variables, with the previous ones; variable 0 is shared, 1 and 2 are marginalised; the errors are `x0 + x1` and `x0 + x2 - 1`. -/
def demoTerms (x : (Nat → ℚ) × (Nat → ℚ)) : List (Term ℚ × List (Event ℚ)) :=
  [({ (LegacyStep.demoTerm [0, 1]).1 with error := fun _ => x.1 0 + x.1 1 }, (LegacyStep.demoTerm [0, 1]).2), ({ (LegacyStep.demoTerm [0, 2]).1 with error := fun _ => x.1 0 + x.1 2 - 1 }, (LegacyStep.demoTerm [0, 2]).2)]

/-- The problem with its optimizer; the linear solver divides by a positive number and fails otherwise. -/
def demoLsq : Lsq ℚ ((Nat → ℚ) × (Nat → ℚ)) where
  env := LegacyStep.demoEnv
  dvs := [0, 1, 2]
  m := 1
  p := 2
  terms := demoTerms
  cost x := .fin ((x.1 0 + x.1 1) ^ 2 + (x.1 0 + x.1 2 - 1) ^ 2)
  upd x us := (us.foldl (fun f u d => if d = u.1 then f d + u.2 0 else f d) x.1, x.1)
  revert x := (x.2, x.2)
  maxDiag _ := 0
  debug := true
  align := 1
  inv := LegacyStep.demoInv
  lin A b := if 0 < upper A.toDense.e 0 0 then some fun _ => b 0 / upper A.toDense.e 0 0 else none
  sys := LegacyStep.demoSys
  A := LegacyStep.demoA

theorem demoLsq_ok : demoLsq.Ok where
  align := by decide
  nodup := by decide
  indexed := demo_indexed
  dims := fun _ _ => Nat.one_pos
  scaled d _ := by simp only [demoLsq, LegacyStep.demoEnv]; split_ifs <;> norm_num
  split := rfl
  dense := by decide
  legal x q hq := by
    simp only [demoLsq, demoTerms, List.mem_cons, List.not_mem_nil, or_false] at hq
    rcases hq with rfl | rfl
    · obtain ⟨h1, h2, h3⟩ := demo_term 0 1 (by decide) (by decide)
      exact ⟨h1, h2, h3⟩
    · obtain ⟨h1, h2, h3⟩ := demo_term 0 2 (by decide) (by decide)
      exact ⟨h1, h2, h3⟩
  uncoupled x q hq d hd d' hd' hne := by
    simp only [demoLsq, demoTerms, List.mem_cons, List.not_mem_nil, or_false, List.drop] at hq hd hd'
    rcases hq with rfl | rfl <;> rcases hd with rfl | rfl <;> rcases hd' with rfl | rfl <;> simp_all [LegacyStep.demoTerm, total]
  inverts x l hl := by
    intro d hd V hr hV
    have hr' : V.rows = 1 := hr
    refine ⟨hr'.symm, hr'.symm, ?_⟩
    intro a b ha hb
    rw [hr'] at ha hb ⊢
    obtain rfl : a = 0 := by omega
    obtain rfl : b = 0 := by omega
    have h1 := hV 0 0 Nat.one_pos Nat.one_pos
    have h2 : 0 < V.e 0 0 := by
      rw [h1]
      unfold lhs
      rw [if_pos ⟨rfl, rfl, rfl⟩]
      refine add_pos_of_nonneg_of_pos (List.sum_nonneg ?_) hl
      intro y hy
      obtain ⟨q, hq, rfl⟩ := List.mem_map.1 hy
      have hq1 : q.1.dim = 1 := by
        simp only [demoLsq, demoTerms, List.mem_cons, List.not_mem_nil, or_false] at hq
        rcases hq with rfl | rfl <;> rfl
      unfold JtWJ
      rw [hq1]
      simp only [Finset.sum_range_one]
      have hw : weight q.1 0 0 = 1 := by
        simp only [demoLsq, demoTerms, List.mem_cons, List.not_mem_nil, or_false] at hq
        rcases hq with rfl | rfl <;> norm_num [weight, LegacyStep.demoTerm]
      rw [hw]
      nlinarith [mul_self_nonneg (scaledJ demoLsq.env q.2 d 0 0)]
    show ∑ t ∈ Finset.range 1, V.e 0 t * (1 / V.e 0 0) = _
    simp [h2.ne']
  sys := demo_sys
  square := demo_square
  layout := rfl
  exact A b dx h i hi := by
    have hn : demoLsq.n = 1 := by decide
    rw [hn] at hi ⊢
    obtain rfl : i = 0 := by omega
    simp only [demoLsq] at h
    split_ifs at h with hp
    cases h
    rw [Finset.sum_range_one]
    field_simp
  succeeds A b l hl h := by
    have hn : demoLsq.n = 1 := by decide
    have := h fun _ => 1
    rw [hn] at this
    simp only [Finset.sum_range_one, mul_one, one_mul] at this
    have hp : 0 < upper A.toDense.e 0 0 := lt_of_lt_of_le hl this
    simp only [demoLsq]
    rw [if_pos hp]
    simp
  cost x := ⟨_, by positivity, rfl⟩
  revert _ _ := rfl

/-- The hypotheses of `C125_normal_equations` are met. -/
example : ∃ N : Nat, ∀ maxIt : Int, (optimizeLM demoLsq.prob ⟨1 / 1000, 3, 2, 3, 2, -1⟩ ⟨1 / 1000, 1 / 1000, maxIt, true⟩ (fun _ => 0, fun _ => 0) (fun _ => 0, fun _ => 0)).iterations ≤ N :=
  (C125_normal_equations demoLsq demoLsq_ok ⟨1 / 1000, 3, 2, 3, 2, -1⟩ (by norm_num) (by norm_num) (by norm_num) ⟨1 / 1000, 1 / 1000, 20, true⟩ rfl (by norm_num) (by norm_num) (fun _ => 0, fun _ => 0) (by norm_num)).1

end Verif.LegacyRun
