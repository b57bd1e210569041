import Verif.BFGS.Props

/-!
C145: calling `optimize()` of the BFGS optimizer again. `OptimizerBase::optimize` (`aslam_backend/src/OptimizerBase.cpp:122-127`) initializes only an
optimizer that is not initialized, so a further call starts `optimizeImplementation` (`OptimizerBFGS.cpp:80-175`, O below) on the members the last call left.
-/
namespace Verif.BFGS
open LineSearch Matrix

section again
variable {K : Type} [LinearOrder K] [Field K] [IsStrictOrderedRing K] [FloatLike.Sq K] {X : Type} {n : Nat}

/-- What a call leaves behind in the optimizer: everything but the local variable `gfk` of O:87. -/
def State.members (s : State K X n) : State K X n := { s with g := fun _ => 0 }

/-- `OptimizerBase::optimize`, OptimizerBase.cpp:122-127, called once for each entry of a list of options and iteration limits; every call returns, none with FAILURE. -/
inductive Calls (E : Env K X n) : List (Opts K × Nat) → State K X n → State K X n → Prop where
  | nil (s : State K X n) : Calls E [] s s
  | cons {o : Opts K} {k : Nat} {r : List (Opts K × Nat)} {s s1 s2 : State K X n} :
      optimize E o k s = .ok s1 → s1.conv ≠ .failure → Calls E r s1 s2 → Calls E ((o, k) :: r) s s2

omit [IsStrictOrderedRing K] in
theorem iteration_kept {E : Env K X n} {o : Opts K} {s s1 : State K X n} {b : Bool} (h : iteration E o s = .ok (s1, b)) :
    s1.gNorm = E.norm s1.ls.grad ∧ s1.error = s1.ls.err ∧ (b = true → s1.g = s1.ls.grad) := by
  unfold iteration at h
  cases hd : direction E s with
  | exc => rw [hd] at h; cases h
  | ub => rw [hd] at h; cases h
  | ok r =>
    rw [hd] at h
    simp only [Res.bind] at h
    split at h
    · cases h
    · cases h
    · rename_i l c hw
      cases hg : getError l with
      | exc => rw [hg] at h; cases h
      | ub => rw [hg] at h; cases h
      | ok e =>
        rw [hg] at h
        simp only at h
        split_ifs at h with hstop
        · simp only [Res.ok.injEq, Prod.mk.injEq] at h
          obtain ⟨rfl, rfl⟩ := h
          exact ⟨rfl, rfl, fun h => absurd h (by simp)⟩
        · simp only [Res.ok.injEq, Prod.mk.injEq] at h
          obtain ⟨rfl, rfl⟩ := h
          exact ⟨rfl, rfl, fun _ => rfl⟩

omit [IsStrictOrderedRing K] [FloatLike.Sq K] in
/-- `start` changes nothing but the local gradient of a state whose status belongs to it. -/
theorem start_kept {E : Env K X n} {o : Opts K} {s : State K X n} (h1 : s.gNorm = E.norm s.ls.grad) (h2 : s.error = s.ls.err) (h3 : s.conv = convergence o s.gNorm s.dErr s.dX) :
    start E o s = { s with g := s.ls.grad } := by
  have : start E o s = { s with g := s.ls.grad, gNorm := E.norm s.ls.grad, error := s.ls.err, conv := convergence o (E.norm s.ls.grad) s.dErr s.dX } := rfl
  rw [this, ← h1, ← h2, ← h3]

omit [IsStrictOrderedRing K] [FloatLike.Sq K] in
theorem convergence_cases (o : Opts K) (a : K) (b c : Option K) : convergence o a b c = .inProgress ∨ (convergence o a b c).success = true := by
  unfold convergence
  split_ifs <;> simp [Conv.success]

omit [IsStrictOrderedRing K] in
theorem optimize_kept {E : Env K X n} {o : Opts K} (b : Nat) {s : State K X n} (h1 : s.gNorm = E.norm s.ls.grad) (h2 : s.error = s.ls.err)
    (h3 : s.conv = convergence o s.gNorm s.dErr s.dX) : optimize E o b s = if s.conv.success then .ok { s with g := s.ls.grad } else loop E o b { s with g := s.ls.grad } := by
  unfold optimize
  rw [start_kept h1 h2 h3]

theorem loop_split {E : Env K X n} {o : Opts K} (b : Nat) : ∀ (a : Nat) (s s1 : State K X n), s.gNorm = E.norm s.ls.grad → s.error = s.ls.err → s.g = s.ls.grad →
    s.conv = .inProgress → s.conv = convergence o s.gNorm s.dErr s.dX → loop E o a s = .ok s1 → s1.conv ≠ .failure →
    (optimize E o b s1).bind (fun t => .ok t.members) = (loop E o (a + b) s).bind (fun t => .ok t.members) := by
  intro a
  induction a with
  | zero =>
    intro s s1 h1 h2 h3 h4 h5 h _
    simp only [loop, Res.ok.injEq] at h
    subst h
    rw [optimize_kept b h1 h2 h5, if_neg (by rw [h4]; decide), Nat.zero_add, ← h3]
  | succ a ih =>
    intro s s1 h1 h2 h3 h4 h5 h hf
    rw [show a + 1 + b = (a + b) + 1 by omega]
    unfold loop at h ⊢
    cases hi : iteration E o s with
    | exc => rw [hi] at h; cases h
    | ub => rw [hi] at h; cases h
    | ok r =>
      obtain ⟨s2, c⟩ := r
      rw [hi] at h
      simp only [Res.bind] at h
      obtain ⟨a1, a2⟩ := iteration_conv hi
      obtain ⟨b1, b2, b3⟩ := iteration_kept hi
      cases c with
      | false =>
        simp only [Bool.false_eq_true, if_false, Res.ok.injEq] at h
        subst h
        have h6 := a2 hf
        have h7 : s2.conv.success = true := by
          rcases convergence_cases o s2.gNorm s2.dErr s2.dX with h | h
          · exact absurd (a1.2 (h6.trans h)) (by simp)
          · rw [h6]; exact h
        rw [optimize_kept b b1 b2 h6, if_pos h7]
        rfl
      | true =>
        simp only [if_true] at h
        have h6 := a1.1 rfl
        have := ih s2 s1 b1 b2 (b3 rfl) h6 (a2 (by rw [h6]; simp)) h hf
        rw [this]
        rfl

/-- **C145, BFGS.** A run may be cut in two: if a call with limit `a` returned without FAILURE, a further call with limit `b` and the same options behaves like one call with limit `a + b`
from the start: same exception, or same design variables, inverse Hessian, status and counters. -/
theorem C145_split (E : Env K X n) (o : Opts K) (a b : Nat) (s s1 : State K X n) (h : optimize E o a s = .ok s1) (hf : s1.conv ≠ .failure) :
    (optimize E o b s1).bind (fun t => .ok t.members) = (optimize E o (a + b) s).bind (fun t => .ok t.members) := by
  have hs : (start E o s).conv = convergence o (start E o s).gNorm (start E o s).dErr (start E o s).dX := rfl
  unfold optimize at h
  split_ifs at h with hc
  · simp only [Res.ok.injEq] at h
    subst h
    rw [optimize_kept b rfl rfl hs, if_pos hc]
    unfold optimize
    rw [if_pos hc]
    rfl
  · have hin : (start E o s).conv = .inProgress := by
      rcases convergence_cases o (start E o s).gNorm (start E o s).dErr (start E o s).dX with h | h
      · exact hs.trans h
      · exact absurd (hs ▸ h) hc
    rw [loop_split b a _ _ rfl rfl rfl hin hs h hf]
    conv_rhs => unfold optimize
    rw [if_neg hc]

/-- The line search holds error and gradient of the design variables. -/
structure Held (E : Env K X n) (s : State K X n) : Prop where
  errOut : s.ls.errOut = false
  err : s.ls.err = E.err s.ls.x
  grad : s.ls.grad = E.grad s.ls.x

omit [IsStrictOrderedRing K] [FloatLike.Sq K] in
theorem start_held {E : Env K X n} {o : Opts K} {s : State K X n} (h : Held E s) : Fresh E (start E o s) := ⟨h.errOut, h.err, h.grad, rfl, rfl⟩

theorem iteration_held (hr : Root K) {E : Env K X n} {o : Opts K} (ho : o.ls.check = true) {s s' : State K X n} {b : Bool} (hs : Fresh E s)
    (h : iteration E o s = .ok (s', b)) (hne : s'.conv ≠ .failure) : Held E s' := by
  obtain ⟨-, a2, a3, -⟩ := iteration_spec hr ho hs h
  obtain ⟨-, b2, -⟩ := iteration_kept h
  refine ⟨?_, b2 ▸ a2, (a3 hne).2.1⟩
  unfold iteration at h
  cases hd : direction E s with
  | exc => rw [hd] at h; cases h
  | ub => rw [hd] at h; cases h
  | ok r =>
    rw [hd] at h
    simp only [Res.bind] at h
    split at h
    · cases h
    · cases h
    · rename_i l c hw
      have he : l.errOut = false := (wolfe12_errOut (direction_current hs hd).1 hw).1
      unfold getError at h
      rw [he] at h
      simp only [Bool.false_eq_true, if_false] at h
      split_ifs at h with hstop <;>
      · simp only [Res.ok.injEq, Prod.mk.injEq] at h
        obtain ⟨rfl, rfl⟩ := h
        exact he

theorem loop_held (hr : Root K) {E : Env K X n} {o : Opts K} (ho : o.ls.check = true) : ∀ (k : Nat) (s s' : State K X n), Fresh E s → loop E o k s = .ok s' →
    s'.conv ≠ .failure → Held E s' := by
  intro k
  induction k with
  | zero =>
    intro s s' hs h _
    simp only [loop, Res.ok.injEq] at h
    subst h
    exact ⟨hs.errOut, hs.err, hs.grad⟩
  | succ k ih =>
    intro s s' hs h hne
    unfold loop at h
    cases hi : iteration E o s with
    | exc => rw [hi] at h; cases h
    | ub => rw [hi] at h; cases h
    | ok r =>
      obtain ⟨s1, b⟩ := r
      rw [hi] at h
      simp only [Res.bind] at h
      cases b with
      | false =>
        simp only [Bool.false_eq_true, if_false, Res.ok.injEq] at h
        subst h
        exact iteration_held hr ho hs hi hne
      | true =>
        simp only [if_true] at h
        obtain ⟨-, -, -, a4, -⟩ := iteration_spec hr ho hs hi
        exact ih s1 s' (a4 rfl).1 h hne

/-- One call from a state in which the line search is up to date. -/
theorem optimize_spec (hr : Root K) {E : Env K X n} {o : Opts K} (ho : o.ls.check = true) {k : Nat} {s s' : State K X n} (hs : Held E s) (h : optimize E o k s = .ok s') :
    s'.error = E.err s'.ls.x ∧ s'.iters ≤ s.iters + k ∧ (s'.conv = .inProgress → s'.iters = s.iters + k) ∧
    (s'.conv ≠ .inProgress → s'.iters < s.iters + k ∨ s'.iters = s.iters ∧ s'.ls.x = s.ls.x) ∧
    (s'.conv ≠ .failure → Held E s' ∧ E.err s'.ls.x ≤ E.err s.ls.x ∧ s'.gNorm = E.norm (E.grad s'.ls.x) ∧ (s'.conv = .gradientNorm ↔ E.norm (E.grad s'.ls.x) < o.cGrad)) := by
  have hf := start_held (o := o) hs
  have hst : (start E o s).conv = convergence o (start E o s).gNorm (start E o s).dErr (start E o s).dX := rfl
  have hgn : (start E o s).gNorm = E.norm (E.grad (start E o s).ls.x) := by rw [← hf.grad]; rfl
  have iff : ∀ t : State K X n, t.gNorm = E.norm (E.grad t.ls.x) → t.conv = convergence o t.gNorm t.dErr t.dX →
      (t.conv = .gradientNorm ↔ E.norm (E.grad t.ls.x) < o.cGrad) := by
    intro t h1 h2
    rw [← h1, h2]
    unfold convergence
    split_ifs <;> simp_all
  unfold optimize at h
  split_ifs at h with hc
  · simp only [Res.ok.injEq] at h
    subst h
    refine ⟨hf.error.trans hf.err, Nat.le_add_right _ _, fun h => ?_, fun _ => .inr ⟨rfl, rfl⟩, fun _ => ⟨⟨hf.errOut, hf.err, hf.grad⟩, le_rfl, hgn, iff _ hgn hst⟩⟩
    rw [h] at hc
    exact absurd hc (by decide)
  · have hin : (start E o s).conv = .inProgress := by
      rcases convergence_cases o (start E o s).gNorm (start E o s).dErr (start E o s).dX with h | h
      · exact hst.trans h
      · exact absurd (hst ▸ h) hc
    obtain ⟨a1, a2, a3⟩ := loop_spec hr ho k _ _ hf hgn h
    obtain ⟨b1, b2, b3⟩ := loop_conv hr ho k _ _ hf hin hst h
    refine ⟨a1, a2, b1, fun h => .inl (b2 h), fun hne => ?_⟩
    obtain ⟨c1, c2⟩ := a3 (by rw [hin]; simp) hne
    exact ⟨loop_held hr ho k _ _ hf h hne, c1, c2, iff _ c2 (b3 hne)⟩

theorem calls_held (hr : Root K) {E : Env K X n} {cs : List (Opts K × Nat)} {s s' : State K X n} (h : Calls E cs s s') (ho : ∀ c ∈ cs, c.1.ls.check = true)
    (hs : Held E s) : Held E s' ∧ E.err s'.ls.x ≤ E.err s.ls.x ∧ s'.iters ≤ s.iters + (cs.map Prod.snd).sum := by
  induction h with
  | nil s => exact ⟨hs, le_rfl, by simp⟩
  | cons h hne _ ih =>
    obtain ⟨-, a2, -, -, a5⟩ := optimize_spec hr (ho _ List.mem_cons_self) hs h
    obtain ⟨b1, b2, -⟩ := a5 hne
    obtain ⟨c1, c2, c3⟩ := ih (fun c hc => ho c (by simp [hc])) b1
    refine ⟨c1, c2.trans b2, ?_⟩
    rw [List.map_cons, List.sum_cons]
    simp only
    omega

/-- **C145, BFGS, any history of calls.** After `reset()` (or the first call) let `optimize()` be called any number of times, each time with other accepted options and limits, none ending
with FAILURE, and the design variables moved by nobody else. The next call has its own budget of `k` iterations on top of those already counted and uses it up exactly if it ends IN_PROGRESS; it
reports the cost of the design variables it leaves; unless it fails this cost is neither above the cost before the call nor above the cost at the reset, and the reported gradient norm is the true
one and decides the status GRADIENT_NORM. -/
theorem C145_again (hr : Root K) (E : Env K X n) (eo : K) (l : LS K X (Fin n → K)) (cs : List (Opts K × Nat)) (ho : ∀ c ∈ cs, c.1.ls.check = true) (s : State K X n)
    (hcs : Calls E cs (reset E eo l) s) (o : Opts K) (hok : o.ls.check = true) (k : Nat) (s' : State K X n) (h : optimize E o k s = .ok s') :
    s'.error = E.err s'.ls.x ∧ s.iters ≤ (cs.map Prod.snd).sum ∧ s'.iters ≤ s.iters + k ∧ (s'.conv = .inProgress → s'.iters = s.iters + k) ∧
    (s'.conv ≠ .inProgress → s'.iters < s.iters + k ∨ s'.iters = s.iters ∧ s'.ls.x = s.ls.x) ∧
    (s'.conv ≠ .failure → E.err s'.ls.x ≤ E.err s.ls.x ∧ E.err s'.ls.x ≤ E.err l.x ∧ s'.gNorm = E.norm (E.grad s'.ls.x) ∧
      (s'.conv = .gradientNorm ↔ E.norm (E.grad s'.ls.x) < o.cGrad)) := by
  have h0 : Held E (reset E eo l) := by
    have := start_fresh E o eo l
    exact ⟨this.errOut, this.err, this.grad⟩
  have hx : (reset E eo l).ls.x = l.x := rfl
  have hi : (reset E eo l).iters = 0 := rfl
  obtain ⟨a1, a2, a3⟩ := calls_held hr hcs ho h0
  obtain ⟨b1, b2, b3, b4, b5⟩ := optimize_spec hr hok a1 h
  rw [hx] at a2
  rw [hi, Nat.zero_add] at a3
  exact ⟨b1, a3, b2, b3, b4, fun hne => ⟨(b5 hne).2.1, (b5 hne).2.1.trans a2, (b5 hne).2.2⟩⟩

/-- **C145 fails if the design variables were moved.** A call never looks at the values of the design variables before its first iteration. After a run that ended with GRADIENT_NORM, whatever
values the user sets, every further call with the same options returns at once with GRADIENT_NORM and the error of the old values, and changes nothing. -/
theorem C145_moved (E : Env K X n) (o : Opts K) (a b : Nat) (s s1 : State K X n) (h : optimize E o a s = .ok s1) (hc : s1.conv = .gradientNorm) (x : X) :
    ∃ s2, optimize E o b { s1 with ls := { s1.ls with x := x } } = .ok s2 ∧ s2.ls.x = x ∧ s2.conv = .gradientNorm ∧ s2.error = s1.error ∧ s2.gNorm = s1.gNorm ∧ s2.iters = s1.iters := by
  have key : s1.gNorm = E.norm s1.ls.grad ∧ s1.error = s1.ls.err ∧ s1.conv = convergence o s1.gNorm s1.dErr s1.dX := by
    have loops : ∀ (k : Nat) (s s1 : State K X n), s.gNorm = E.norm s.ls.grad → s.error = s.ls.err → s.conv = convergence o s.gNorm s.dErr s.dX → loop E o k s = .ok s1 →
        s1.conv = .gradientNorm → s1.gNorm = E.norm s1.ls.grad ∧ s1.error = s1.ls.err ∧ s1.conv = convergence o s1.gNorm s1.dErr s1.dX := by
      intro k
      induction k with
      | zero =>
        intro s s1 h1 h2 h3 h _
        simp only [loop, Res.ok.injEq] at h
        subst h
        exact ⟨h1, h2, h3⟩
      | succ k ih =>
        intro s s1 h1 h2 h3 h hc
        unfold loop at h
        cases hi : iteration E o s with
        | exc => rw [hi] at h; cases h
        | ub => rw [hi] at h; cases h
        | ok r =>
          obtain ⟨s2, c⟩ := r
          rw [hi] at h
          simp only [Res.bind] at h
          obtain ⟨a1, a2⟩ := iteration_conv hi
          obtain ⟨b1, b2, -⟩ := iteration_kept hi
          cases c with
          | false =>
            simp only [Bool.false_eq_true, if_false, Res.ok.injEq] at h
            subst h
            exact ⟨b1, b2, a2 (by rw [hc]; simp)⟩
          | true =>
            simp only [if_true] at h
            exact ih s2 s1 b1 b2 (a2 (by rw [a1.1 rfl]; simp)) h hc
    unfold optimize at h
    split_ifs at h
    · simp only [Res.ok.injEq] at h
      subst h
      exact ⟨rfl, rfl, rfl⟩
    · exact loops a _ _ rfl rfl rfl h hc
  obtain ⟨k1, k2, k3⟩ := key
  have := optimize_kept (E := E) (o := o) b (s := { s1 with ls := { s1.ls with x := x } }) k1 k2 k3
  refine ⟨_, this.trans (if_pos ?_), rfl, hc, rfl, rfl, rfl⟩
  show s1.conv.success = true
  rw [hc]
  rfl

end again

/-! ### Concrete calls over the reals -/
section concreteAgainReal

noncomputable local instance : FloatLike.Sq ℝ := ⟨Real.sqrt⟩

theorem startR_conv : (start envR optsR (reset envR 0 freshR)).conv = .inProgress := by
  simp [start, updateStatus, convergence, optsR, envR, reset, initialize', LineSearch.updateError, updateGradient, Env.ls, freshR]

/-- The hypotheses of `C145_again` and `C145_split`: a call with limit 0 after the reset, then a call with limit 1 that moves the design variable from 1 to the minimum. -/
example : ∃ s s', Calls envR [(optsR, 0)] (reset envR 0 freshR) s ∧ s.ls.x = 1 ∧ optimize envR optsR 1 s = .ok s' ∧ s'.ls.x = 0 := by
  obtain ⟨s', h1, h2⟩ := iterR
  have hn : ¬ (start envR optsR (reset envR 0 freshR)).conv.success = true := by rw [startR_conv]; decide
  refine ⟨start envR optsR (reset envR 0 freshR), s', .cons ?_ (by rw [startR_conv]; simp) (.nil _), rfl, ?_, h2⟩
  · unfold optimize
    rw [if_neg hn]
    rfl
  · rw [optimize_kept 1 rfl rfl rfl, if_neg hn]
    show loop envR optsR 1 (start envR optsR (reset envR 0 freshR)) = _
    unfold loop
    rw [h1]
    rfl

end concreteAgainReal

/-! ### Concrete calls -/
section concreteAgain

/-- A square root that the searches below never call on the way to their result. -/
local instance : FloatLike.Sq ℚ := ⟨fun _ => 0⟩

/-- `x²/2`. -/
def square : Env ℚ ℚ 1 := env (fun x => x * x / 2) (fun x => x)

/-- A first call with limit 0 ends IN_PROGRESS at 1, a second with limit 5 goes on to the minimum. -/
example : (match optimize square (opts 30 10 10) 0 (reset square 0 (fresh 1)) with
      | .ok s1 => decide (s1.conv = .inProgress ∧ s1.ls.x = 1) && (match optimize square (opts 30 10 10) 5 s1 with
        | .ok s2 => decide (s2.conv = .gradientNorm ∧ s2.ls.x = 0)
        | _ => false)
      | _ => false) = true := by decide +kernel

/-- **C145 fails if the design variables were moved, concretely.** On `x²/2` a call reaches the minimum 0. The user sets the design variable to 100 and calls `optimize()` again: it returns
GRADIENT_NORM with error 0 and leaves the design variable at 100, where the cost is 5000. -/
theorem C145_moved_counterexample :
    (match optimize square (opts 30 10 10) 5 (reset square 0 (fresh 1)) with
      | .ok s1 => decide (s1.conv = .gradientNorm ∧ s1.ls.x = 0) && (match optimize square (opts 30 10 10) 5 { s1 with ls := { s1.ls with x := 100 } } with
        | .ok s2 => decide (s2.conv = .gradientNorm ∧ s2.error = 0 ∧ s2.ls.x = 100 ∧ square.err s2.ls.x = 5000)
        | _ => false)
      | _ => false) = true := by decide +kernel

end concreteAgain
end Verif.BFGS
