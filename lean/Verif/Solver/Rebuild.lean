import Verif.Solver.Props
import Verif.Hessian.Props

/-!
C45, continued: the changes which solves and covariances leave in the system of the block solver (`aslam_backend/src/BlockCholeskyLinearSystemSolver.cpp`, B) last until the next `buildSystem` and no
longer. A history is any sequence of calls of `buildSystem`, `setConditioner`, `solveSystem` and `computeCovarianceBlocks` on one solver; exceptions of the last three are caught by the caller.
-/
namespace Verif.Solver
open Verif.MatrixStack (DMat)
open Verif.SBM Verif.Hessian Verif.Jacobian Verif.Jacobian.Spec

variable {R : Type} [CommRing R]

/-- A call on the solver. The events next to a term are what its Jacobian evaluation adds; they are used in statements only. Not code: the calls of LinearSystemSolver.hpp:26-66. -/
inductive Call (R : Type) where
  | build (ts : List (Term R × List (Event R)))
  | cond (d : Nat → R) (len : Nat)
  | solve (lib : SBM R → (Nat → R) → Option (Nat → R))
  | cov (pat : SBM R → Option Unit)

/-- What a call leaves behind. `buildSystem`, B:60-74; `setConditioner`, LinearSystemSolver.cpp:85-89, whose exception leaves the solver as it was; `solveSystem`, B:76-108; `computeCovarianceBlocks`,
B:124-150, whose exception leaves the augmented system. The length of `_rhs` is that of the matrix
(LinearSystemSolver.cpp:115, B:54-56). -/
def Blk.call (debug : Bool) (align : Nat) (env : Env R) (s : Blk R) : Call R → Res (Blk R)
  | .build ts => (buildSystem debug align env (ts.map Prod.fst) ⟨s.H, s.rhs, s.H.rl.total⟩).bind fun t => .ok { s with H := t.H, rhs := t.rhs }
  | .cond d len =>
    match s.setConditioner d len with
    | .ok s' => .ok s'
    | .exc => .ok s
    | .ub => .ub
  | .solve lib => (s.solve debug lib).bind fun r => .ok r.1
  | .cov pat => (s.covariance debug pat).bind fun o => .ok o.s

/-- The terms of a call evaluate their Jacobians by legal calls of the container. -/
def Call.Legal (env : Env R) (align : Nat) : Call R → Prop
  | .build ts => ∀ p ∈ ts, Hessian.Legal env align p.1 p.2
  | _ => True

/-- A legal state of a solver whose matrix has the layout of the design variables. -/
structure Ready (L : Layout) (s : Blk R) : Prop where
  ok : BlkOk s
  rl : s.H.rl = L

omit [CommRing R] in
theorem Ready.sys {L : Layout} {s : Blk R} (h : Ready L s) : SysOk L ⟨s.H, s.rhs, s.H.rl.total⟩ :=
  ⟨h.ok.sq.wf, h.rl, h.ok.sq.sq.trans h.rl, h.ok.sq.own, by rw [h.rl]⟩

theorem call_build (debug : Bool) (align : Nat) (ha : 0 < align) (env : Env R) (dvs : List Nat) (hix : Indexed env dvs) (ts : List (Term R × List (Event R)))
    (ht : ∀ p ∈ ts, Hessian.Legal env align p.1 p.2) (s : Blk R) (h : Ready (dvLayout env dvs) s) :
    ∃ s', s.call debug align env (.build ts) = .ok s' ∧ Ready (dvLayout env dvs) s' ∧ s'.useCond = s.useCond ∧
      ∀ r a, r < dvs.length → a < env.dim (dvs.getD r 0) →
        s'.rhs ((dvLayout env dvs).base r + a) = - (ts.map fun p => JtWe env p.1 p.2 (dvs.getD r 0) a).sum ∧
        ∀ c b, c < dvs.length → b < env.dim (dvs.getD c 0) →
          s'.H.toDense.e ((dvLayout env dvs).base r + a) ((dvLayout env dvs).base c + b) =
            if r ≤ c then (ts.map fun p => JtWJ env p.1 p.2 (dvs.getD r 0) (dvs.getD c 0) a b).sum else 0 := by
  obtain ⟨t, e, k, hv⟩ := C07_normal_equations debug align ha env dvs hix ts ht _ h.sys
  refine ⟨{ s with H := t.H, rhs := t.rhs }, by unfold Blk.call; simp only [e]; rfl, ⟨⟨⟨k.wf, k.cl.trans k.rl.symm, k.st⟩, ?_⟩, k.rl⟩, rfl, hv⟩
  show s.condLen = t.H.rl.total
  rw [h.ok.len, h.rl, k.rl]

theorem call_ready (debug : Bool) (align : Nat) (ha : 0 < align) (env : Env R) (dvs : List Nat) (hix : Indexed env dvs) (c : Call R) (hc : c.Legal env align) (s : Blk R)
    (h : Ready (dvLayout env dvs) s) : ∃ s', s.call debug align env c = .ok s' ∧ Ready (dvLayout env dvs) s' ∧ s'.useCond = s.useCond := by
  cases c with
  | build ts =>
    obtain ⟨s', e, k, u, -⟩ := call_build debug align ha env dvs hix ts hc s h
    exact ⟨s', e, k, u⟩
  | cond d len =>
    unfold Blk.call Blk.setConditioner
    by_cases hl : len = s.H.cl.total
    · simp only [if_pos hl]
      exact ⟨_, rfl, ⟨⟨h.ok.sq, by simp only [hl, h.ok.sq.sq]⟩, h.rl⟩, rfl⟩
    · simp only [if_neg hl]
      exact ⟨s, rfl, h, rfl⟩
  | solve lib =>
    by_cases hu : s.useCond = true
    · obtain ⟨H1, s', e, k, u, -, r, -⟩ := solve_spec debug lib s h.ok hu
      exact ⟨s', by unfold Blk.call; simp only [e]; rfl, ⟨k, r.trans h.rl⟩, u.trans hu.symm⟩
    · refine ⟨s, ?_, h, rfl⟩
      unfold Blk.call Blk.solve
      simp only [if_neg hu]
      rfl
  | cov pat =>
    obtain ⟨H1, o, e, -, -, -, k, r, h0, -⟩ := C45_covariance_partial debug pat s h.ok
    refine ⟨o.s, by unfold Blk.call; simp only [e]; rfl, ⟨k, r.trans h.rl⟩, ?_⟩
    unfold Blk.covariance at e
    split_ifs at e with hu
    · cases h1 : augment debug (fun i => s.cond i * s.cond i) s.condLen s.H with
      | exc => rw [h1] at e; cases e
      | ub => rw [h1] at e; cases e
      | ok H1 =>
        rw [h1, Res.bind_ok] at e
        split at e
        · injection e with e; rw [← e]
        · cases h2 : augment debug (fun i => -s.cond i) s.condLen H1 with
          | exc => rw [h2] at e; cases e
          | ub => rw [h2] at e; cases e
          | ok H2 => rw [h2, Res.bind_ok] at e; injection e with e; rw [← e]
    · injection e with e; rw [← e]

theorem run_append {σ ω : Type} (f : σ → ω → Res σ) (s : σ) (xs ys : List ω) : Res.run f s (xs ++ ys) = (Res.run f s xs) >>= fun t => Res.run f t ys := by
  induction xs generalizing s with
  | nil => rfl
  | cons x xs ih =>
    rw [List.cons_append, Res.run_cons, Res.run_cons]
    cases f s x with
    | ok t => exact ih t
    | exc => rfl
    | ub => rfl

theorem calls_ready (debug : Bool) (align : Nat) (ha : 0 < align) (env : Env R) (dvs : List Nat) (hix : Indexed env dvs) (cs : List (Call R)) (hc : ∀ c ∈ cs, c.Legal env align) (s : Blk R)
    (h : Ready (dvLayout env dvs) s) : ∃ s', Res.run (Blk.call debug align env) s cs = .ok s' ∧ Ready (dvLayout env dvs) s' ∧ s'.useCond = s.useCond := by
  induction cs generalizing s with
  | nil => exact ⟨s, rfl, h, rfl⟩
  | cons c cs ih =>
    obtain ⟨s1, e1, k1, u1⟩ := call_ready debug align ha env dvs hix c (hc c (by simp)) s h
    obtain ⟨s2, e2, k2, u2⟩ := ih (fun c hc' => hc c (by simp [hc'])) s1 k1
    exact ⟨s2, by rw [Res.run_cons, e1, Res.bind_ok, e2], k2, u2.trans u1⟩

/-- Without conditioner a damped solve leaves the system alone. -/
theorem damped_off (debug : Bool) (s : Blk R) (hu : s.useCond = false) (l : List ((Nat → R) × (SBM R → (Nat → R) → Option (Nat → R)))) :
    ∃ s', Res.run (Blk.damped debug) s l = .ok s' ∧ s'.H = s.H ∧ s'.rhs = s.rhs := by
  induction l generalizing s with
  | nil => exact ⟨s, rfl, rfl, rfl⟩
  | cons a l ih =>
    obtain ⟨s', e, k1, k2⟩ := ih { s with cond := a.1, condLen := s.H.cl.total } hu
    refine ⟨s', ?_, k1, k2⟩
    have e1 : s.damped debug a = .ok { s with cond := a.1, condLen := s.H.cl.total } := by
      unfold Blk.damped Blk.setConditioner Blk.solve
      rw [if_pos rfl, Res.bind_ok, if_neg (by simp [hu]), Res.bind_ok]
    rw [Res.run_cons, e1, Res.bind_ok, e]

/-- **C45, rebuilding.** Whatever was called on the solver before, with whatever answers of the library and however many exceptions: `buildSystem` gives the normal equations of its terms, and damped
solves after it change the diagonal by their own conditioners only (and not at all if the solver uses none). So nothing that solves or covariances leave in the system survives the next build. -/
theorem C45_block_rebuild (debug : Bool) (align : Nat) (ha : 0 < align) (env : Env R) (dvs : List Nat) (hix : Indexed env dvs) (cs : List (Call R)) (hc : ∀ c ∈ cs, c.Legal env align)
    (ts : List (Term R × List (Event R))) (ht : ∀ p ∈ ts, Hessian.Legal env align p.1 p.2) (l : List ((Nat → R) × (SBM R → (Nat → R) → Option (Nat → R)))) (s : Blk R) (hs : BlkOk s)
    (hL : s.H.rl = dvLayout env dvs) :
    ∃ s1 s2, Res.run (Blk.call debug align env) s (cs ++ [.build ts]) = .ok s1 ∧ Res.run (Blk.damped debug) s1 l = .ok s2 ∧
      ∀ r a, r < dvs.length → a < env.dim (dvs.getD r 0) →
        s2.rhs ((dvLayout env dvs).base r + a) = - (ts.map fun p => JtWe env p.1 p.2 (dvs.getD r 0) a).sum ∧
        ∀ c b, c < dvs.length → b < env.dim (dvs.getD c 0) →
          s2.H.toDense.e ((dvLayout env dvs).base r + a) ((dvLayout env dvs).base c + b) =
            (if r ≤ c then (ts.map fun p => JtWJ env p.1 p.2 (dvs.getD r 0) (dvs.getD c 0) a b).sum else 0) +
            if s.useCond = true ∧ r = c ∧ a = b then
              (l.map fun q => q.1 ((dvLayout env dvs).base r + a) * q.1 ((dvLayout env dvs).base r + a) - q.1 ((dvLayout env dvs).base r + a)).sum else 0 := by
  obtain ⟨s0, e0, k0, u0⟩ := calls_ready debug align ha env dvs hix cs hc s ⟨hs, hL⟩
  obtain ⟨s1, e1, k1, u1, hv⟩ := call_build debug align ha env dvs hix ts ht s0 k0
  have e : Res.run (Blk.call debug align env) s (cs ++ [.build ts]) = .ok s1 := by
    rw [run_append, e0, Res.bind_ok, Res.run_cons, e1, Res.bind_ok]
    rfl
  by_cases hu : s.useCond = true
  · obtain ⟨s2, e2, k2, b2, r2, d2⟩ := C45_block_drift debug s1 k1.ok (u1.trans (u0.trans hu)) l
    refine ⟨s1, s2, e, e2, fun r a hr har => ⟨by rw [b2]; exact (hv r a hr har).1, fun c b hcn hb => ?_⟩⟩
    have hm := dvLayout_mono env dvs
    have hi : (dvLayout env dvs).base r + a < (dvLayout env dvs).total := by
      have := Layout.base_add_size_le_total hm (r := r) hr
      rw [dvLayout_size] at this
      omega
    have hj : (dvLayout env dvs).base c + b < (dvLayout env dvs).total := by
      have := Layout.base_add_size_le_total hm (r := c) hcn
      rw [dvLayout_size] at this
      omega
    rw [d2 _ _ (by rw [k1.rl]; exact hi) (by rw [k1.rl]; exact hj), (hv r a hr har).2 c b hcn hb]
    congr 1
    by_cases hrc : r = c ∧ a = b
    · obtain ⟨rfl, rfl⟩ := hrc
      rw [if_pos rfl, if_pos ⟨hu, rfl, rfl⟩]
    · rw [if_neg (fun h : s.useCond = true ∧ r = c ∧ a = b => hrc h.2), if_neg]
      intro he
      have hrc' : r = c := Layout.unique hm (i := (dvLayout env dvs).base r + a) hr hcn (by omega) (by rw [dvLayout_size]; omega) (by omega) (by rw [dvLayout_size]; omega)
      subst hrc'
      exact hrc ⟨rfl, by omega⟩
  · obtain ⟨s2, e2, h2, b2⟩ := damped_off debug s1 (by rw [u1, u0]; simpa using hu) l
    refine ⟨s1, s2, e, e2, fun r a hr har => ⟨by rw [b2]; exact (hv r a hr har).1, fun c b hcn hb => ?_⟩⟩
    rw [h2, (hv r a hr har).2 c b hcn hb, if_neg (fun h : s.useCond = true ∧ r = c ∧ a = b => hu h.1), add_zero]

/-! ### A concrete history -/

/-- A solver for the variables of `demoEnv` with rubbish in its right-hand side and conditioner 2. -/
def demoBlk : Blk Int := ⟨new (dvLayout demoEnv [1, 0]) (dvLayout demoEnv [1, 0]), fun _ => 7, fun _ => 2, 3, true⟩

theorem demoBlk_ok : BlkOk demoBlk :=
  ⟨⟨new_WF _ _ (dvLayout_mono _ _) (dvLayout_mono _ _) _, rfl, rfl⟩, by simp [demoBlk, new, Layout.total, dvLayout, Finset.sum_range_succ, demoEnv]⟩

/-- A covariance that fails, a conditioner of the wrong length, a solve and a build lie before the build: the hypotheses of `C45_block_rebuild` hold. -/
example : ∃ ev, Hessian.Legal demoEnv 2 demoTerm ev ∧ ev.map Prod.fst = [0, 1, 0] ∧
    ∀ c ∈ [.cov fun _ => none, .cond (fun _ => 5) 1, .solve fun _ b => some b, .build [(demoTerm, ev)]], Call.Legal demoEnv 2 c := by
  have hl : Hessian.Legal demoEnv 2 demoTerm _ := ⟨by decide, rfl, [], .cons rfl (by simp [MatrixStack.Spec.Fits])
    (.cons rfl (by simp [MatrixStack.Spec.Fits]) (.cons rfl (by simp [MatrixStack.Spec.Fits]) (.nil _)))⟩
  refine ⟨_, hl, rfl, ?_⟩
  intro c hc
  simp only [List.mem_cons, List.not_mem_nil, or_false] at hc
  rcases hc with rfl | rfl | rfl | rfl
  · trivial
  · trivial
  · trivial
  · intro p hp
    simp only [List.mem_cons, List.not_mem_nil, or_false] at hp
    subst hp
    exact hl

example (ts : List (Term Int × List (Event Int))) (ht : ∀ p ∈ ts, Hessian.Legal demoEnv 2 p.1 p.2) :=
  C45_block_rebuild true 2 (by decide) demoEnv [1, 0] demo_indexed [.cov fun _ => none, .build ts] (by intro c hc; simp at hc; rcases hc with rfl | rfl; exacts [trivial, ht]) ts ht
    [(fun _ => 3, fun _ _ => none)] demoBlk demoBlk_ok rfl

end Verif.Solver
