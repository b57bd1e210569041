import Verif.LegacyStep.Props
import Mathlib.Algebra.Order.BigOperators.Ring.Finset
import Mathlib.Algebra.Order.BigOperators.Group.List
import Mathlib.Tactic.Positivity

/-!
C120: the reduction of the cost that the Levenberg-Marquardt steps of the legacy optimizer predict.
-/
namespace Verif.LegacyStep
open Verif.MatrixStack (DMat)
open Verif.Jacobian (Env)
open Verif.Jacobian.Spec (Event total)
open Verif.SBM Verif.Hessian Verif.Schur

section ring
variable {R : Type} [CommRing R]

/-- Change of row `v` of a term for the step `z`: row `v` of the scaled Jacobian times `z`. -/
def lin (env : Env R) (dvs : List Nat) (ev : List (Event R)) (z : Nat → Nat → R) (v : Nat) : R :=
  ∑ c ∈ Finset.range dvs.length, ∑ b ∈ Finset.range (env.dim (dvs.getD c 0)), scaledJ env ev (dvs.getD c 0) v b * z c b

/-- Weighted square of the linearised error `e + J z` of a term. -/
def linSq (env : Env R) (dvs : List Nat) (q : Term R × List (Event R)) (z : Nat → Nat → R) : R :=
  ∑ v ∈ Finset.range q.1.dim, ∑ v' ∈ Finset.range q.1.dim, (q.1.error v + lin env dvs q.2 z v) * weight q.1 v v' * (q.1.error v' + lin env dvs q.2 z v')

/-- The cost of the linearised problem after the step `z`. -/
def linCost (env : Env R) (dvs : List Nat) (ts : List (Term R × List (Event R))) (z : Nat → Nat → R) : R := (ts.map fun q => linSq env dvs q z).sum

/-- Scalar product of two steps. -/
def dot (env : Env R) (dvs : List Nat) (z w : Nat → Nat → R) : R := ∑ c ∈ Finset.range dvs.length, ∑ b ∈ Finset.range (env.dim (dvs.getD c 0)), z c b * w c b

/-- The product of the step with the matrix of the damped normal equations. -/
def mulLhs (env : Env R) (dvs : List Nat) (ts : List (Term R × List (Event R))) (lambda : R) (z : Nat → Nat → R) (i a : Nat) : R :=
  ∑ c ∈ Finset.range dvs.length, ∑ b ∈ Finset.range (env.dim (dvs.getD c 0)), lhs env ts true lambda (dvs.getD i 0) (dvs.getD c 0) a b * z c b

theorem dot_comm (env : Env R) (dvs : List Nat) (z w : Nat → Nat → R) : dot env dvs z w = dot env dvs w z :=
  Finset.sum_congr rfl fun _ _ => Finset.sum_congr rfl fun _ _ => mul_comm _ _

theorem dot_add (env : Env R) (dvs : List Nat) (z w w' : Nat → Nat → R) : dot env dvs z (fun c b => w c b + w' c b) = dot env dvs z w + dot env dvs z w' := by
  unfold dot
  simp only [mul_add, Finset.sum_add_distrib]

theorem dot_congr {env : Env R} {dvs : List Nat} {z w w' : Nat → Nat → R} (h : ∀ c b, c < dvs.length → b < env.dim (dvs.getD c 0) → w c b = w' c b) : dot env dvs z w = dot env dvs z w' :=
  Finset.sum_congr rfl fun c hc => Finset.sum_congr rfl fun b hb => by rw [h c b (Finset.mem_range.1 hc) (Finset.mem_range.1 hb)]

theorem dot_list (env : Env R) (dvs : List Nat) (z : Nat → Nat → R) {ι : Type} (l : List ι) (f : ι → Nat → Nat → R) :
    dot env dvs z (fun c b => (l.map fun q => f q c b).sum) = (l.map fun q => dot env dvs z (f q)).sum := by
  induction l with
  | nil => simp [dot]
  | cons q l ih => simp only [List.map_cons, List.sum_cons]; rw [dot_add, ih]

/-- `zᵀ Jᵀ W e`. -/
theorem dot_JtWe (env : Env R) (dvs : List Nat) (q : Term R × List (Event R)) (z : Nat → Nat → R) :
    dot env dvs z (fun c b => JtWe env q.1 q.2 (dvs.getD c 0) b) = ∑ v ∈ Finset.range q.1.dim, ∑ v' ∈ Finset.range q.1.dim, lin env dvs q.2 z v * weight q.1 v v' * q.1.error v' := by
  unfold dot JtWe lin
  simp only [Finset.mul_sum, Finset.sum_mul]
  rw [Finset.sum_congr rfl fun c _ => Finset.sum_comm]
  rw [Finset.sum_comm]
  refine Finset.sum_congr rfl fun v _ => ?_
  rw [Finset.sum_congr rfl fun c _ => Finset.sum_comm]
  rw [Finset.sum_comm]
  refine Finset.sum_congr rfl fun v' _ => Finset.sum_congr rfl fun c _ => Finset.sum_congr rfl fun b _ => ?_
  ring

/-- `Jᵀ W J w`. -/
theorem sum_JtWJ (env : Env R) (dvs : List Nat) (q : Term R × List (Event R)) (w : Nat → Nat → R) (d a : Nat) :
    ∑ c ∈ Finset.range dvs.length, ∑ b ∈ Finset.range (env.dim (dvs.getD c 0)), JtWJ env q.1 q.2 d (dvs.getD c 0) a b * w c b =
      ∑ v ∈ Finset.range q.1.dim, ∑ v' ∈ Finset.range q.1.dim, scaledJ env q.2 d v a * weight q.1 v v' * lin env dvs q.2 w v' := by
  unfold JtWJ lin
  simp only [Finset.mul_sum, Finset.sum_mul]
  rw [Finset.sum_congr rfl fun c _ => Finset.sum_comm]
  rw [Finset.sum_comm]
  refine Finset.sum_congr rfl fun v _ => ?_
  rw [Finset.sum_congr rfl fun c _ => Finset.sum_comm]
  rw [Finset.sum_comm]
  refine Finset.sum_congr rfl fun v' _ => Finset.sum_congr rfl fun c _ => Finset.sum_congr rfl fun b _ => ?_
  ring

/-- `zᵀ Jᵀ W J w`. -/
theorem dot_JtWJ (env : Env R) (dvs : List Nat) (q : Term R × List (Event R)) (z w : Nat → Nat → R) :
    dot env dvs z (fun i a => ∑ c ∈ Finset.range dvs.length, ∑ b ∈ Finset.range (env.dim (dvs.getD c 0)), JtWJ env q.1 q.2 (dvs.getD i 0) (dvs.getD c 0) a b * w c b) =
      ∑ v ∈ Finset.range q.1.dim, ∑ v' ∈ Finset.range q.1.dim, lin env dvs q.2 z v * weight q.1 v v' * lin env dvs q.2 w v' := by
  simp only [sum_JtWJ]
  have := dot_JtWe env dvs (⟨q.1.dim, q.1.calls, lin env dvs q.2 w, q.1.sqrtInvR, q.1.sqrtWeight⟩, q.2) z
  exact this

theorem mulLhs_eq (env : Env R) (dvs : List Nat) (hnd : dvs.Nodup) (ts : List (Term R × List (Event R))) (lambda : R) (w : Nat → Nat → R) (i a : Nat) (hi : i < dvs.length) (ha : a < env.dim (dvs.getD i 0)) :
    mulLhs env dvs ts lambda w i a = (ts.map fun q => ∑ c ∈ Finset.range dvs.length, ∑ b ∈ Finset.range (env.dim (dvs.getD c 0)), JtWJ env q.1 q.2 (dvs.getD i 0) (dvs.getD c 0) a b * w c b).sum + lambda * w i a := by
  unfold mulLhs lhs
  simp only [add_mul, Finset.sum_add_distrib]
  congr 1
  · induction ts with
    | nil => simp
    | cons q ts ih => simp only [List.map_cons, List.sum_cons, add_mul, Finset.sum_add_distrib, ih]
  · rw [Finset.sum_eq_single i, Finset.sum_eq_single a]
    · simp
    · intro b _ hb; simp [Ne.symm hb]
    · intro h; exact absurd (Finset.mem_range.2 ha) h
    · intro c hc hne
      have hc' := Finset.mem_range.1 hc
      refine Finset.sum_eq_zero fun b _ => ?_
      rw [if_neg, zero_mul]
      rintro ⟨-, h, -⟩
      rw [List.getD_eq_getElem _ _ hi, List.getD_eq_getElem _ _ hc'] at h
      exact hne ((List.Nodup.getElem_inj_iff hnd).1 h).symm
    · intro h; exact absurd (Finset.mem_range.2 hi) h

/-- The quadratic form of the damped normal equations. -/
theorem dot_mulLhs (env : Env R) (dvs : List Nat) (hnd : dvs.Nodup) (ts : List (Term R × List (Event R))) (lambda : R) (z w : Nat → Nat → R) :
    dot env dvs z (mulLhs env dvs ts lambda w) =
      (ts.map fun q => ∑ v ∈ Finset.range q.1.dim, ∑ v' ∈ Finset.range q.1.dim, lin env dvs q.2 z v * weight q.1 v v' * lin env dvs q.2 w v').sum + lambda * dot env dvs z w := by
  rw [dot_congr (mulLhs_eq env dvs hnd ts lambda w), dot_add, dot_list]
  simp only [dot_JtWJ]
  congr 1
  unfold dot
  simp only [Finset.mul_sum]
  exact Finset.sum_congr rfl fun _ _ => Finset.sum_congr rfl fun _ _ => by ring

theorem dot_mulLhs_comm (env : Env R) (dvs : List Nat) (hnd : dvs.Nodup) (ts : List (Term R × List (Event R))) (lambda : R) (z w : Nat → Nat → R) :
    dot env dvs z (mulLhs env dvs ts lambda w) = dot env dvs w (mulLhs env dvs ts lambda z) := by
  rw [dot_mulLhs env dvs hnd, dot_mulLhs env dvs hnd, dot_comm]
  congr 2
  refine List.map_congr_left fun q _ => ?_
  rw [Finset.sum_comm]
  refine Finset.sum_congr rfl fun v _ => Finset.sum_congr rfl fun v' _ => ?_
  rw [weight_symm q.1 v' v]
  ring

/-- The reduction of the cost of the linearised problem for a solution of the damped normal equations. -/
theorem linCost_sub (env : Env R) (dvs : List Nat) (hnd : dvs.Nodup) (ts : List (Term R × List (Event R))) (lambda : R) (z : Nat → Nat → R)
    (hz : ∀ i a, i < dvs.length → a < env.dim (dvs.getD i 0) → mulLhs env dvs ts lambda z i a = grad env ts (dvs.getD i 0) a) :
    linCost env dvs ts (fun _ _ => 0) - linCost env dvs ts z = dot env dvs z (fun c b => grad env ts (dvs.getD c 0) b) + lambda * dot env dvs z z := by
  have h1 : dot env dvs z (mulLhs env dvs ts lambda z) = dot env dvs z (fun c b => grad env ts (dvs.getD c 0) b) := dot_congr hz
  have h2 := dot_mulLhs env dvs hnd ts lambda z z
  have h3 : dot env dvs z (fun c b => grad env ts (dvs.getD c 0) b) = - (ts.map fun q => ∑ v ∈ Finset.range q.1.dim, ∑ v' ∈ Finset.range q.1.dim, lin env dvs q.2 z v * weight q.1 v v' * q.1.error v').sum := by
    have := dot_list env dvs z ts (fun q c b => JtWe env q.1 q.2 (dvs.getD c 0) b)
    simp only [dot_JtWe] at this
    rw [← this]
    unfold dot grad
    simp only [mul_neg, Finset.sum_neg_distrib]
  have h4 : linCost env dvs ts (fun _ _ => 0) - linCost env dvs ts z =
      - (2 * (ts.map fun q => ∑ v ∈ Finset.range q.1.dim, ∑ v' ∈ Finset.range q.1.dim, lin env dvs q.2 z v * weight q.1 v v' * q.1.error v').sum) -
      (ts.map fun q => ∑ v ∈ Finset.range q.1.dim, ∑ v' ∈ Finset.range q.1.dim, lin env dvs q.2 z v * weight q.1 v v' * lin env dvs q.2 z v').sum := by
    unfold linCost
    have key : ∀ q : Term R × List (Event R), linSq env dvs q (fun _ _ => 0) - linSq env dvs q z =
        - (2 * ∑ v ∈ Finset.range q.1.dim, ∑ v' ∈ Finset.range q.1.dim, lin env dvs q.2 z v * weight q.1 v v' * q.1.error v') -
        ∑ v ∈ Finset.range q.1.dim, ∑ v' ∈ Finset.range q.1.dim, lin env dvs q.2 z v * weight q.1 v v' * lin env dvs q.2 z v' := by
      intro q
      have hsw : ∑ v ∈ Finset.range q.1.dim, ∑ v' ∈ Finset.range q.1.dim, q.1.error v * weight q.1 v v' * lin env dvs q.2 z v' =
          ∑ v ∈ Finset.range q.1.dim, ∑ v' ∈ Finset.range q.1.dim, lin env dvs q.2 z v * weight q.1 v v' * q.1.error v' := by
        rw [Finset.sum_comm]
        refine Finset.sum_congr rfl fun v _ => Finset.sum_congr rfl fun v' _ => ?_
        rw [weight_symm q.1 v' v]
        ring
      have hzero : ∀ v, lin env dvs q.2 (fun _ _ => (0 : R)) v = 0 := fun v => by simp [lin]
      have hexp : linSq env dvs q z = linSq env dvs q (fun _ _ => 0) + ∑ v ∈ Finset.range q.1.dim, ∑ v' ∈ Finset.range q.1.dim, lin env dvs q.2 z v * weight q.1 v v' * q.1.error v' +
          ∑ v ∈ Finset.range q.1.dim, ∑ v' ∈ Finset.range q.1.dim, q.1.error v * weight q.1 v v' * lin env dvs q.2 z v' +
          ∑ v ∈ Finset.range q.1.dim, ∑ v' ∈ Finset.range q.1.dim, lin env dvs q.2 z v * weight q.1 v v' * lin env dvs q.2 z v' := by
        unfold linSq
        simp only [hzero, add_zero, ← Finset.sum_add_distrib]
        exact Finset.sum_congr rfl fun v _ => Finset.sum_congr rfl fun v' _ => by ring
      rw [hexp, hsw]
      ring
    clear h1 h2 h3 hz
    induction ts with
    | nil => simp
    | cons q ts ih =>
      simp only [List.map_cons, List.sum_cons]
      linear_combination ih + key q
  rw [h4]
  rw [h1] at h2
  rw [h3] at h2 ⊢
  linear_combination h2

theorem sum_take (env : Env R) (dvs : List Nat) (m : Nat) (hm : m ≤ dvs.length) (f : Nat → R) :
    ∑ j ∈ Finset.range (dvLayout env (dvs.take m)).total, f j = ∑ c ∈ Finset.range m, ∑ b ∈ Finset.range (env.dim (dvs.getD c 0)), f ((dvLayout env dvs).base c + b) := by
  rw [Layout.sum_blocks (dvLayout_mono env (dvs.take m))]
  have hn : (dvLayout env (dvs.take m)).n = m := by simp [dvLayout]; omega
  rw [hn]
  refine Finset.sum_congr rfl fun c hc => ?_
  have hc' := Finset.mem_range.1 hc
  have hb : (dvLayout env (dvs.take m)).base c = (dvLayout env dvs).base c := by
    rw [base_eq, base_eq]
    refine Finset.sum_congr rfl fun k hk => ?_
    have := Finset.mem_range.1 hk
    simp only [List.getD_eq_getElem?_getD]
    rw [List.getElem?_take_of_lt (by omega)]
  rw [hb, dvLayout_size]
  simp only [List.getD_eq_getElem?_getD]
  rw [List.getElem?_take_of_lt hc']

theorem mulLhs_sub (env : Env R) (dvs : List Nat) (ts : List (Term R × List (Event R))) (lambda : R) (z w : Nat → Nat → R) (i a : Nat) :
    mulLhs env dvs ts lambda (fun c b => z c b - w c b) i a = mulLhs env dvs ts lambda z i a - mulLhs env dvs ts lambda w i a := by
  unfold mulLhs
  simp only [mul_sub, Finset.sum_sub_distrib]

end ring

section field
variable {K : Type} [Field K] [LinearOrder K] [IsStrictOrderedRing K]

/-- The quadratic form of the damped normal equations is at least `λ` times the square of the step. -/
theorem form_ge (env : Env K) (dvs : List Nat) (hnd : dvs.Nodup) (ts : List (Term K × List (Event K))) (lambda : K) (z : Nat → Nat → K) : lambda * dot env dvs z z ≤ dot env dvs z (mulLhs env dvs ts lambda z) := by
  rw [dot_mulLhs env dvs hnd]
  have : 0 ≤ (ts.map fun q => ∑ v ∈ Finset.range q.1.dim, ∑ v' ∈ Finset.range q.1.dim, lin env dvs q.2 z v * weight q.1 v v' * lin env dvs q.2 z v').sum := by
    apply List.sum_nonneg
    intro x hx
    obtain ⟨q, -, rfl⟩ := List.mem_map.1 hx
    have : ∑ v ∈ Finset.range q.1.dim, ∑ v' ∈ Finset.range q.1.dim, lin env dvs q.2 z v * weight q.1 v v' * lin env dvs q.2 z v' =
        ∑ u ∈ Finset.range q.1.sqrtInvR.cols, (q.1.sqrtWeight * ∑ v ∈ Finset.range q.1.dim, lin env dvs q.2 z v * q.1.sqrtInvR.e v u) ^ 2 := by
      unfold weight
      simp only [pow_two, Finset.mul_sum, Finset.sum_mul]
      rw [Finset.sum_congr rfl fun v _ => Finset.sum_comm, Finset.sum_comm]
      refine Finset.sum_congr rfl fun u _ => ?_
      rw [Finset.sum_comm]
      exact Finset.sum_congr rfl fun v _ => Finset.sum_congr rfl fun v' _ => by ring
    rw [this]
    exact Finset.sum_nonneg fun u _ => sq_nonneg _
  linarith

/-- **C120** (partial). In the setting of `C119_step` with Levenberg-Marquardt damping `λ ≥ 0`: let `d2` be the reduction that the optimizer divides the actual reduction of the cost by. It is at least `2 λ ‖dx‖²`, so it is positive unless the part of
the step that is solved for is zero; and it is at most the reduction of the cost of the linearised problem for the step that is applied, even after adding `λ` times the square of the step of the marginalised variables. If no variable is marginalised
it is exactly that reduction. Missing: equality with marginalised variables, which is false, `C120_marginalised_counterexample`. -/
theorem C120_gain_partial (debug : Bool) (align : Nat) (ha : 0 < align) (inv : DMat K → DMat K) (env : Env K) (dvs : List Nat) (hnd : dvs.Nodup) (hix : Indexed env dvs) (ts : List (Term K × List (Event K)))
    (ht : ∀ q ∈ ts, Hessian.Legal env align q.1 q.2) (lambda : K) (hlam : 0 ≤ lambda) (m p : Nat) (hmp : dvs.length = m + p) (hun : Uncoupled ts (dvs.drop m)) (hinv : Inverts env ts true lambda inv (dvs.drop m))
    (s : Sys K) (hs : SysOk (dvLayout env dvs) s) (A : SBM K) (hA : Solver.Square A) (hAl : A.rl = dvLayout env (dvs.take m)) :
    ∃ s' r, reduce debug align inv env (ts.map Prod.fst) lambda m p true s A = .ok (s', r) ∧
      ∀ dx : Nat → K, (∀ i, i < (dvLayout env (dvs.take m)).total → ∑ j ∈ Finset.range (dvLayout env (dvs.take m)).total, upper r.A.toDense.e i j * dx j = r.b i) →
        ∃ z : Nat → Nat → K,
          (applyStateUpdate env dvs m r.H s'.rhs r.invV dx).map Prod.fst = dvs ∧
          (∀ (i : Nat) (u : Nat × (Nat → K)), (applyStateUpdate env dvs m r.H s'.rhs r.invV dx)[i]? = some u → ∀ a, a < env.dim u.1 → u.2 a = z i a * env.scaling u.1) ∧
          2 * (lambda * ∑ j ∈ Finset.range (dvLayout env (dvs.take m)).total, dx j ^ 2) ≤ lmDen lambda dx r.b (dvLayout env (dvs.take m)).total ∧
          lmDen lambda dx r.b (dvLayout env (dvs.take m)).total + lambda * ∑ i ∈ Finset.range p, ∑ b ∈ Finset.range (env.dim (dvs.getD (m + i) 0)), z (m + i) b ^ 2 ≤
            linCost env dvs ts (fun _ _ => 0) - linCost env dvs ts z ∧
          (p = 0 → lmDen lambda dx r.b (dvLayout env (dvs.take m)).total = linCost env dvs ts (fun _ _ => 0) - linCost env dvs ts z) := by
  obtain ⟨s', r, h1, h2⟩ := step_full debug align ha inv env dvs hnd hix ts ht lambda true m p hmp hun hinv s hs A hA hAl
  refine ⟨s', r, h1, fun dx hdx => ?_⟩
  obtain ⟨z, h3, h4, h5, hlow, W, hW, hprod⟩ := h2 dx hdx
  set G : K := ∑ i ∈ Finset.range p, ∑ a ∈ Finset.range (env.dim (dvs.getD (m + i) 0)), ∑ t ∈ Finset.range (env.dim (dvs.getD (m + i) 0)),
                grad env ts (dvs.getD (m + i) 0) a * (W (m + i) a t * grad env ts (dvs.getD (m + i) 0) t) with hG
  set g : Nat → Nat → K := fun c b => grad env ts (dvs.getD c 0) b with hg
  have hzg : ∀ i a, i < dvs.length → a < env.dim (dvs.getD i 0) → mulLhs env dvs ts lambda z i a = g i a := h5
  have hsplit : ∀ f : Nat → K, ∑ c ∈ Finset.range dvs.length, f c = ∑ c ∈ Finset.range m, f c + ∑ i ∈ Finset.range p, f (m + i) := by
    intro f; rw [hmp, Finset.sum_range_add]
  -- the step of the marginalised variables alone
  set u : Nat → Nat → K := fun c b => if c < m then 0 else ∑ t ∈ Finset.range (env.dim (dvs.getD c 0)), W c b t * g c t with hu
  have hulow : ∀ c b, c < m → u c b = 0 := fun c b h => by simp only [hu, if_pos h]
  have huhigh : ∀ i b, u (m + i) b = ∑ t ∈ Finset.range (env.dim (dvs.getD (m + i) 0)), W (m + i) b t * g (m + i) t := fun i b => by simp only [hu, if_neg (show ¬ m + i < m by omega)]
  have hmem : ∀ i, i < p → dvs.getD (m + i) 0 ∈ dvs.drop m := by
    intro i h2
    rw [List.mem_drop_iff_getElem]
    exact ⟨i, by omega, by rw [List.getD_eq_getElem _ _ (by omega)]⟩
  have hmulu : ∀ i a, i < p → a < env.dim (dvs.getD (m + i) 0) → mulLhs env dvs ts lambda u (m + i) a = g (m + i) a := by
    intro i a hi ha'
    unfold mulLhs
    rw [hsplit, Finset.sum_eq_zero (s := Finset.range m) (fun c hc => Finset.sum_eq_zero fun b _ => by rw [hulow c b (Finset.mem_range.1 hc), mul_zero]), zero_add, Finset.sum_eq_single i]
    · simp only [huhigh, Finset.mul_sum]
      rw [Finset.sum_comm]
      have : ∀ t ∈ Finset.range (env.dim (dvs.getD (m + i) 0)), ∑ b ∈ Finset.range (env.dim (dvs.getD (m + i) 0)), lhs env ts true lambda (dvs.getD (m + i) 0) (dvs.getD (m + i) 0) a b * (W (m + i) b t * g (m + i) t) =
          if a = t then g (m + i) t else 0 := by
        intro t ht'
        rw [show (if a = t then g (m + i) t else 0) = (if a = t then 1 else 0) * g (m + i) t by split_ifs <;> simp, ← hW (m + i) (by omega) (by omega) a t ha' (Finset.mem_range.1 ht'), Finset.sum_mul]
        exact Finset.sum_congr rfl fun b _ => by ring
      rw [Finset.sum_congr rfl this, Finset.sum_ite_eq, if_pos (Finset.mem_range.2 ha')]
    · intro c hc hne
      have hc' := Finset.mem_range.1 hc
      have hne' : dvs.getD (m + i) 0 ≠ dvs.getD (m + c) 0 := by
        rw [List.getD_eq_getElem _ _ (by omega), List.getD_eq_getElem _ _ (by omega)]
        intro h
        have := (List.Nodup.getElem_inj_iff hnd).1 h
        omega
      refine Finset.sum_eq_zero fun b _ => ?_
      unfold lhs
      rw [uncoupled_zero env hun (hmem i hi) (hmem c hc') hne', if_neg (by rintro ⟨-, h, -⟩; exact hne' h)]
      ring
    · intro h; exact absurd (Finset.mem_range.2 hi) h
  have hdotu : ∀ w : Nat → Nat → K, dot env dvs u w = ∑ i ∈ Finset.range p, ∑ b ∈ Finset.range (env.dim (dvs.getD (m + i) 0)), u (m + i) b * w (m + i) b := by
    intro w
    unfold dot
    rw [hsplit, Finset.sum_eq_zero (s := Finset.range m) (fun c hc => Finset.sum_eq_zero fun b _ => by rw [hulow c b (Finset.mem_range.1 hc), zero_mul]), zero_add]
  have hug : dot env dvs u g = G := by
    rw [hdotu, hG]
    refine Finset.sum_congr rfl fun i _ => Finset.sum_congr rfl fun a _ => ?_
    rw [huhigh, Finset.sum_mul]
    exact Finset.sum_congr rfl fun t _ => by simp only [hg]; ring
  have huu : dot env dvs u (mulLhs env dvs ts lambda u) = G := by
    rw [← hug, hdotu, hdotu]
    refine Finset.sum_congr rfl fun i hi => Finset.sum_congr rfl fun b hb => ?_
    rw [hmulu i b (Finset.mem_range.1 hi) (Finset.mem_range.1 hb)]
  have huz : dot env dvs u (mulLhs env dvs ts lambda z) = G := by rw [dot_congr hzg, hug]
  have hzu : dot env dvs z (mulLhs env dvs ts lambda u) = G := by rw [dot_mulLhs_comm env dvs hnd, huz]
  have hzz : dot env dvs z (mulLhs env dvs ts lambda z) = dot env dvs z g := dot_congr hzg
  set w : Nat → Nat → K := fun c b => z c b - u c b with hw
  have hww : dot env dvs w (mulLhs env dvs ts lambda w) = dot env dvs z g - G := by
    have hl : ∀ v x, dot env dvs v (mulLhs env dvs ts lambda (fun c b => z c b - x c b)) = dot env dvs v (mulLhs env dvs ts lambda z) - dot env dvs v (mulLhs env dvs ts lambda x) := by
      intro v x
      unfold dot
      simp only [mulLhs_sub, mul_sub, Finset.sum_sub_distrib]
    have hr : ∀ x, dot env dvs w x = dot env dvs z x - dot env dvs u x := by
      intro x
      unfold dot
      simp only [hw, sub_mul, Finset.sum_sub_distrib]
    rw [hw, hl, ← hw, hr, hr, hzz, huz, hzu, huu]
    ring
  have hG0 : 0 ≤ G := by
    rw [← huu]
    refine le_trans ?_ (form_ge env dvs hnd ts lambda u)
    exact mul_nonneg hlam (Finset.sum_nonneg fun _ _ => Finset.sum_nonneg fun _ _ => mul_self_nonneg _)
  -- the sums over the first part of the step
  set n := (dvLayout env (dvs.take m)).total with hn
  have hdx : ∑ j ∈ Finset.range n, dx j ^ 2 = ∑ c ∈ Finset.range m, ∑ b ∈ Finset.range (env.dim (dvs.getD c 0)), z c b ^ 2 := by
    rw [hn, sum_take env dvs m (by omega)]
    exact Finset.sum_congr rfl fun c hc => Finset.sum_congr rfl fun b hb => by rw [hlow c b (Finset.mem_range.1 hc) (Finset.mem_range.1 hb)]
  have hden : lmDen lambda dx r.b n = lambda * ∑ j ∈ Finset.range n, dx j ^ 2 + ∑ j ∈ Finset.range n, dx j * r.b j := by
    unfold lmDen
    rw [Finset.mul_sum, ← Finset.sum_add_distrib]
    exact Finset.sum_congr rfl fun j _ => by ring
  have hxb : ∑ j ∈ Finset.range n, dx j * r.b j = dot env dvs z g - G := by
    have : dot env dvs z g = _ := hprod
    rw [this]; ring
  have hzz2 : dot env dvs z z = ∑ j ∈ Finset.range n, dx j ^ 2 + ∑ i ∈ Finset.range p, ∑ b ∈ Finset.range (env.dim (dvs.getD (m + i) 0)), z (m + i) b ^ 2 := by
    unfold dot
    rw [hsplit, hdx]
    simp only [pow_two]
  have hlw : ∑ j ∈ Finset.range n, dx j ^ 2 ≤ dot env dvs w w := by
    rw [hdx]
    unfold dot
    rw [hsplit]
    have e1 : ∑ c ∈ Finset.range m, ∑ b ∈ Finset.range (env.dim (dvs.getD c 0)), w c b * w c b = ∑ c ∈ Finset.range m, ∑ b ∈ Finset.range (env.dim (dvs.getD c 0)), z c b ^ 2 := by
      refine Finset.sum_congr rfl fun c hc => Finset.sum_congr rfl fun b _ => ?_
      simp only [hw, hulow c b (Finset.mem_range.1 hc)]
      ring
    rw [e1]
    have : 0 ≤ ∑ i ∈ Finset.range p, ∑ b ∈ Finset.range (env.dim (dvs.getD (m + i) 0)), w (m + i) b * w (m + i) b := Finset.sum_nonneg fun _ _ => Finset.sum_nonneg fun _ _ => mul_self_nonneg _
    linarith
  have hred := linCost_sub env dvs hnd ts lambda z hzg
  refine ⟨z, h3, h4, ?_, ?_, ?_⟩
  · have h6 := form_ge env dvs hnd ts lambda w
    have h7 := mul_le_mul_of_nonneg_left hlw hlam
    rw [hden, hxb]
    rw [hww] at h6
    linarith
  · rw [hred, hden, hxb, hzz2]
    change _ ≤ dot env dvs z g + _
    linarith
  · intro hp
    have hG' : G = 0 := by rw [hG, hp]; simp
    rw [hred, hden, hxb, hzz2, hG', hp]
    change _ = dot env dvs z g + _
    simp
    ring

end field

/-- The hypotheses of `C120_gain_partial` are met by the example of C119. -/
example : ∃ s' r, reduce true 1 demoInv demoEnv ([demoTerm [0, 1], demoTerm [0, 2]].map Prod.fst) 1 1 2 true demoSys demoA = .ok (s', r) := by
  obtain ⟨h1, h2, h3, h4, h5, h6, h7, h8⟩ := demo_meets
  obtain ⟨s', r, h, -⟩ := C120_gain_partial true 1 (by decide) demoInv demoEnv [0, 1, 2] h1 h2 _ h3 1 (by norm_num) 1 2 rfl h4 h5 demoSys h6 demoA h7 h8
  exact ⟨s', r, h⟩

/-- **C120** (with marginalised variables the prediction is too small). Two terms, error 1 and Jacobian 1 each: one on variable 0, one on the marginalised variable 1; scaling 1, λ = 1. The cost is quadratic, so the reduction is what the linearisation
predicts and the ratio should be one. The optimizer divides the reduction by half of it. -/
theorem C120_marginalised_counterexample :
    let env : Env ℚ := ⟨fun d => d, fun _ => 0, fun _ => 1, fun d => decide (d < 2), fun _ => 1⟩
    let ts := [demoTerm [0], demoTerm [1]]
    let s : Sys ℚ := ⟨new (dvLayout env [0, 1]) (dvLayout env [0, 1]), fun _ => 0, 2⟩
    ∃ s' r, reduce true 1 demoInv env (ts.map Prod.fst) 1 1 1 true s (new (dvLayout env [0]) (dvLayout env [0])) = .ok (s', r) ∧
      upper r.A.toDense.e 0 0 * (-1 / 2) = r.b 0 ∧
      (applyStateUpdate env [0, 1] 1 r.H s'.rhs r.invV (fun _ => -1 / 2)).map (fun u => (u.1, u.2 0)) = [(0, -1 / 2), (1, -1 / 2)] ∧
      linCost env [0, 1] ts (fun _ _ => 0) - linCost env [0, 1] ts (fun _ _ => -1 / 2) = 3 / 2 ∧
      lmDen 1 (fun _ => -1 / 2) r.b 1 = 3 / 4 := by
  refine ⟨_, _, rfl, ?_, ?_, ?_, ?_⟩
  · decide +kernel
  · decide +kernel
  · decide +kernel
  · decide +kernel

end Verif.LegacyStep
