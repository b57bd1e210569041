import Verif.Solver.Rebuild
import Verif.LegacyStep.Props

/-!
C46, continued: the first solve after `buildSystem`, at any point of the life of a block solver (`aslam_backend/src/BlockCholeskyLinearSystemSolver.cpp`).
-/
namespace Verif.Solver
open Verif.MatrixStack (DMat)
open Verif.SBM Verif.Hessian Verif.Jacobian Verif.Jacobian.Spec

variable {K : Type} [Field K]

/-- The order of coefficients is that of their blocks. -/
theorem block_le (env : Env K) (dvs : List Nat) {r a c b : Nat} (hr : r < dvs.length) (hb : b < env.dim (dvs.getD c 0)) (hc : c < dvs.length)
    (h : (dvLayout env dvs).base r + a ≤ (dvLayout env dvs).base c + b) : r ≤ c := by
  by_contra hn
  have hm := dvLayout_mono env dvs
  have h1 := Layout.base_add_size hm (r := c) hc
  have h2 := Layout.base_le hm (r := c + 1) (s := r) (by omega) (Nat.le_of_lt hr)
  rw [dvLayout_size] at h1
  omega

/-- **C46, first solve in any history.** Whatever was called on the solver before, with exceptions caught by the caller: after `buildSystem` and `setConditioner(d)` a solve returns normally, and a vector
it returns solves the damped normal equations of the terms, `(∑ JᵀWJ + diag(d)²) x = -∑ JᵀWe`. `A` and `g` are any matrix and vector with these sums in the blocks of the variables. -/
theorem C46_block_history (debug : Bool) (align : Nat) (ha : 0 < align) (env : Env K) (dvs : List Nat) (hix : Indexed env dvs) (lib : SBM K → (Nat → K) → Option (Nat → K)) (hlib : SolvesUpper lib)
    (cs : List (Call K)) (hc : ∀ c ∈ cs, c.Legal env align) (ts : List (Term K × List (Event K))) (ht : ∀ p ∈ ts, Hessian.Legal env align p.1 p.2) (d : Nat → K) (s : Blk K) (hs : BlkOk s)
    (hL : s.H.rl = dvLayout env dvs) (hu : s.useCond = true) (A : Nat → Nat → K) (g : Nat → K)
    (hA : ∀ r a c b, r < dvs.length → a < env.dim (dvs.getD r 0) → c < dvs.length → b < env.dim (dvs.getD c 0) →
      A ((dvLayout env dvs).base r + a) ((dvLayout env dvs).base c + b) = (ts.map fun p => JtWJ env p.1 p.2 (dvs.getD r 0) (dvs.getD c 0) a b).sum)
    (hg : ∀ r a, r < dvs.length → a < env.dim (dvs.getD r 0) → g ((dvLayout env dvs).base r + a) = - (ts.map fun p => JtWe env p.1 p.2 (dvs.getD r 0) a).sum) :
    ∃ s1 s2 y, Res.run (Blk.call debug align env) s (cs ++ [.build ts, .cond d (dvLayout env dvs).total]) = .ok s1 ∧ s1.solve debug lib = .ok (s2, y) ∧
      ∀ x, y = some x → ∀ i, i < (dvLayout env dvs).total → ∑ j ∈ Finset.range (dvLayout env dvs).total, A i j * x j + d i * d i * x i = g i := by
  obtain ⟨s0, e0, k0, u0⟩ := calls_ready debug align ha env dvs hix cs hc s ⟨hs, hL⟩
  obtain ⟨s1, e1, k1, u1, hv⟩ := call_build debug align ha env dvs hix ts ht s0 k0
  have hcl : s1.H.cl = dvLayout env dvs := k1.ok.sq.sq.trans k1.rl
  have e2 : s1.call debug align env (.cond d (dvLayout env dvs).total) = .ok { s1 with cond := d, condLen := (dvLayout env dvs).total } := by
    unfold Blk.call Blk.setConditioner
    simp only [hcl, if_true]
  have k2 : BlkOk { s1 with cond := d, condLen := (dvLayout env dvs).total } := ⟨k1.ok.sq, by simp only [k1.rl]⟩
  obtain ⟨H1, s2, e3, -, -, -, -, -, q1, r1, d1, -⟩ := solve_spec debug lib _ k2 (u1.trans (u0.trans hu))
  refine ⟨_, s2, _, ?_, e3, ?_⟩
  · rw [run_append, e0, Res.bind_ok, Res.run_cons, e1, Res.bind_ok, Res.run_cons, e2, Res.bind_ok]
    rfl
  intro x hx i hi
  have hr1 : H1.rl = dvLayout env dvs := r1.trans k1.rl
  have hsol := hlib H1 _ x q1 hx i (by rw [hr1]; exact hi)
  rw [hr1] at hsol
  simp only [k1.rl] at d1
  have hm := dvLayout_mono env dvs
  have hup : ∀ i j, i < (dvLayout env dvs).total → j < (dvLayout env dvs).total → i ≤ j → H1.toDense.e i j = A i j + if i = j then d i * d i else 0 := by
    intro i j hi hj hij
    rw [d1 i j hi hj]
    congr 1
    obtain ⟨r, hr, a, har, rfl⟩ := Layout.locate hm hi
    obtain ⟨c, hcn, b, hb, rfl⟩ := Layout.locate hm hj
    rw [dvLayout_size] at har hb
    show s1.H.toDense.e _ _ = _
    rw [(hv r a hr har).2 c b hcn hb, if_pos (block_le env dvs hr hb hcn hij), hA r a c b hr har hcn hb]
  have hsym : ∀ i j, i < (dvLayout env dvs).total → j < (dvLayout env dvs).total → A i j = A j i := by
    intro i j hi hj
    obtain ⟨r, hr, a, har, rfl⟩ := Layout.locate hm hi
    obtain ⟨c, hcn, b, hb, rfl⟩ := Layout.locate hm hj
    rw [dvLayout_size] at har hb
    rw [hA r a c b hr har hcn hb, hA c b r a hcn hb hr har, LegacyStep.sum_JtWJ_symm]
  have hrhs : s1.rhs i = g i := by
    obtain ⟨r, hr, a, har, rfl⟩ := Layout.locate hm hi
    rw [dvLayout_size] at har
    rw [(hv r a hr har).1, hg r a hr har]
  have hterm : ∀ j ∈ Finset.range (dvLayout env dvs).total, (if i ≤ j then H1.toDense.e i j else H1.toDense.e j i) * x j = A i j * x j + if i = j then d i * d i * x i else 0 := by
    intro j hj
    have hj' := Finset.mem_range.1 hj
    by_cases hij : i ≤ j
    · rw [if_pos hij, hup i j hi hj' hij]
      by_cases h2 : i = j
      · subst h2; simp only [if_true]; ring
      · simp only [if_neg h2, add_zero]
    · rw [if_neg hij, hup j i hj' hi (by omega), if_neg (by omega : ¬ j = i), if_neg (by omega : ¬ i = j), hsym j i hj' hi, add_zero, add_zero]
  rw [Finset.sum_congr rfl hterm, Finset.sum_add_distrib, Finset.sum_ite_eq, if_pos (Finset.mem_range.2 hi)] at hsol
  exact hsol.trans hrhs

/-! ### A concrete history -/

/-- One active variable of dimension 1. -/
def oneEnv : Env ℚ where
  blockIndex d := if d = 0 then 0 else -1
  columnBase d := if d = 0 then 0 else -1
  dim _ := 1
  active d := d == 0
  scaling _ := 1

/-- A term with Jacobian 2 and error 1. -/
def oneTerm : Term ℚ := ⟨1, [.add 0 ⟨1, 1, fun _ _ => 2⟩], fun _ => 1, ⟨1, 1, fun _ _ => 1⟩, 1⟩

/-- What its evaluation adds. -/
def oneEv : List (Event ℚ) := record oneEnv [] 0 (contribution [] ⟨1, 1, fun _ _ => 2⟩)

theorem one_indexed : Indexed oneEnv [0] where
  block i hi := by
    have : i = 0 := by simpa using hi
    subst this; rfl
  mem d h := ⟨0, by decide, by simpa [oneEnv] using (Eq.symm (by simpa [oneEnv] using h : d = 0))⟩

/-- A solver for the variable, with an arbitrary system. -/
def oneBlk : Blk ℚ := ⟨new (dvLayout oneEnv [0]) (dvLayout oneEnv [0]), fun _ => 7, fun _ => 2, 1, true⟩

theorem oneBlk_ok : BlkOk oneBlk :=
  ⟨⟨new_WF _ _ (dvLayout_mono _ _) (dvLayout_mono _ _) _, rfl, rfl⟩, by simp [oneBlk, new, Layout.total, dvLayout, oneEnv]⟩

/-- A failed covariance, then a build, conditioner 3 and a solve: the solution satisfies `(4 + 9) x = -2`. -/
example : ∃ s1 s2 y, Res.run (Blk.call false 1 oneEnv) oneBlk [.cov fun _ => none, .build [(oneTerm, oneEv)], .cond (fun _ => 3) 1] = .ok s1 ∧ s1.solve false lib1 = .ok (s2, y) ∧
    ∀ x, y = some x → 4 * x 0 + 9 * x 0 = -2 := by
  have hl : Hessian.Legal oneEnv 1 oneTerm oneEv := ⟨by decide, rfl, [], .cons rfl (by simp [MatrixStack.Spec.Fits]) (.nil _)⟩
  have ht : (dvLayout oneEnv [0]).total = 1 := by simp [Layout.total, dvLayout, oneEnv]
  have hb : (dvLayout oneEnv [0]).base 0 = 0 := rfl
  obtain ⟨s1, s2, y, h1, h2, h3⟩ := C46_block_history false 1 (by decide) oneEnv [0] one_indexed lib1 lib1_solves [.cov fun _ => none] (by simp [Call.Legal]) [(oneTerm, oneEv)]
    (by intro p hp; simp only [List.mem_singleton] at hp; subst hp; exact hl) (fun _ => 3) oneBlk oneBlk_ok rfl rfl (fun _ _ => 4) (fun _ => -2)
    (by
      intro r a c b hr har hc hb
      have e1 : r = 0 := by simpa using hr
      have e2 : c = 0 := by simpa using hc
      have e3 : a = 0 := by simpa [oneEnv] using har
      have e4 : b = 0 := by simpa [oneEnv] using hb
      subst e1 e2 e3 e4
      decide +kernel)
    (by
      intro r a hr har
      have e1 : r = 0 := by simpa using hr
      have e3 : a = 0 := by simpa [oneEnv] using har
      subst e1 e3
      decide +kernel)
  rw [ht] at h1 h3
  refine ⟨s1, s2, y, h1, h2, fun x hx => ?_⟩
  have := h3 x hx 0 (by decide)
  norm_num at this
  linarith

end Verif.Solver
