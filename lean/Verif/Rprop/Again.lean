import Verif.Rprop.Props

/-!
C145: calling `optimize()` of the Rprop optimizer again. `OptimizerBase::optimize` (`aslam_backend/src/OptimizerBase.cpp:122-127`) initializes only an optimizer that is not
initialized, so a further call starts the loop of `OptimizerRprop.cpp:114-267` on the members and the iteration counter the last call left.
-/
namespace Verif.Rprop

section again
variable {K : Type} [LinearOrder K] [Field K] {X : Type} {n : Nat} [NeZero n]

/-- Options that differ in the limit only. OptimizerBase.hpp:57-62. -/
def Opt.limit (o : Opt K) (m : Nat) : Opt K := { o with maxIterations := m }

theorem iter_limit (E : Env K X n) (o : Opt K) (m : Nat) (s : St K X n) : iter E (o.limit m) s = iter E o s := rfl

theorem loop_limit (E : Env K X n) (o : Opt K) (m : Nat) : ∀ (k : Nat) (s : St K X n), loop E (o.limit m) k s = loop E o k s := by
  intro k
  induction k with
  | zero => intro s; rfl
  | succ k ih =>
    intro s
    unfold loop
    simp only [iter_limit, ih]

theorem iter_true {E : Env K X n} {o : Opt K} {s s' : St K X n} (h : iter E o s = (s', true)) : s'.conv = .inProgress ∧ s'.iterations = s.iterations + 1 := by
  unfold iter at h
  simp only at h
  split_ifs at h
  all_goals
    obtain ⟨rfl, hb⟩ := Prod.mk.inj h
    first
    | cases hb; done
    | exact ⟨rfl, rfl⟩

theorem iter_false {E : Env K X n} {o : Opt K} {s s' : St K X n} (h : iter E o s = (s', false)) : s'.conv ≠ .inProgress ∧ s'.iterations = s.iterations := by
  unfold iter at h
  simp only at h
  split_ifs at h
  all_goals
    obtain ⟨rfl, hb⟩ := Prod.mk.inj h
    first
    | cases hb; done
    | exact ⟨by simp, rfl⟩

theorem loop_inProgress (E : Env K X n) (o : Opt K) : ∀ (k : Nat) (s : St K X n), (loop E o k s).conv = .inProgress →
    (loop E o k s).iterations = s.iterations + k ∧ ∀ j, loop E o j (loop E o k s) = loop E o (k + j) s := by
  intro k
  induction k with
  | zero =>
    intro s _
    exact ⟨rfl, fun j => by rw [Nat.zero_add]; rfl⟩
  | succ k ih =>
    intro s h
    cases hi : iter E o s with
    | mk s1 b =>
      have e : ∀ m, loop E o (m + 1) s = if b = true then loop E o m s1 else s1 := by
        intro m
        conv_lhs => unfold loop
        simp only [hi]
      cases b with
      | false =>
        rw [e] at h
        exact absurd h (iter_false hi).1
      | true =>
        rw [e, if_pos rfl] at h ⊢
        obtain ⟨a1, a2⟩ := ih s1 h
        refine ⟨?_, fun j => ?_⟩
        · rw [a1, (iter_true hi).2]; omega
        · rw [a2, show k + 1 + j = (k + j) + 1 by omega, e, if_pos rfl]

/-- **C145, Rprop.** The limit counts the iterations of all calls together: if a call with limit `a` ended IN_PROGRESS (because of the limit) a further call with a limit `m ≥ a` and otherwise
the same options behaves like one call with limit `m` from the start. In particular with `m = a` it does nothing. -/
theorem C145_rprop_split (E : Env K X n) (o : Opt K) (a m : Nat) (ham : a ≤ m) (s : St K X n) (hs : s.iterations ≤ a)
    (hc : (optimize E (o.limit a) s).conv = .inProgress) :
    (optimize E (o.limit a) s).iterations = a ∧ optimize E (o.limit m) (optimize E (o.limit a) s) = optimize E (o.limit m) s := by
  have e : ∀ (m : Nat) (t : St K X n), optimize E (o.limit m) t = loop E o (m - t.iterations) t := fun m t => loop_limit E o m _ t
  rw [e a s] at hc ⊢
  obtain ⟨a1, a2⟩ := loop_inProgress E o _ s hc
  have a3 : (loop E o (a - s.iterations) s).iterations = a := by rw [a1]; omega
  refine ⟨a3, ?_⟩
  rw [e, e, a3, a2]
  congr 1
  omega

theorem loop_gradient (E : Env K X n) (o : Opt K) : ∀ (k : Nat) (s : St K X n), s.conv = .inProgress → (loop E o k s).conv = .gradientNorm →
    E.norm (E.gradient (loop E o k s).x) < o.gradientNorm := by
  intro k
  induction k with
  | zero =>
    intro s h h'
    rw [show loop E o 0 s = s from rfl, h] at h'
    cases h'
  | succ k ih =>
    intro s _ h
    cases hi : iter E o s with
    | mk s1 b =>
      have e : loop E o (k + 1) s = if b = true then loop E o k s1 else s1 := by
        conv_lhs => unfold loop
        simp only [hi]
      rw [e] at h ⊢
      cases b with
      | true => exact ih s1 (iter_true hi).1 h
      | false =>
        rw [if_neg (by simp)] at h ⊢
        unfold iter at hi
        simp only at hi
        split_ifs at hi with h1
        all_goals
          obtain ⟨rfl, hb⟩ := Prod.mk.inj hi
          first
          | cases hb; done
          | cases h; done
          | exact h1

/-- **C145, Rprop, after GRADIENT_NORM.** If a call that started IN_PROGRESS (as after `reset()`) ended with GRADIENT_NORM, any further call with any limit and the same thresholds changes nothing. -/
theorem C145_rprop_gradient (E : Env K X n) (o : Opt K) (m : Nat) (s : St K X n) (hs : s.conv = .inProgress) (hc : (optimize E o s).conv = .gradientNorm) :
    optimize E (o.limit m) (optimize E o s) = optimize E o s := by
  have hg : E.norm (E.gradient (optimize E o s).x) < o.gradientNorm := loop_gradient E o _ s hs hc
  generalize optimize E o s = t at hc hg
  show loop E (o.limit m) (m - t.iterations) t = t
  rw [loop_limit]
  cases m - t.iterations with
  | zero => rfl
  | succ k =>
    have hi : iter E o t = (t, false) := by
      unfold iter
      simp only
      rw [if_pos hg, ← hc]
    unfold loop
    simp only [hi]
    rfl

end again

/-- **C145 fails for Rprop after DX.** On `(x - 3)²` a call converges with DX; a further call with the same options does not keep the result but makes further iterations and
leaves another value. -/
theorem C145_rprop_dx_counterexample :
    let o : Opt Rat := { defaults .rpropPlus with gradientNorm := 0, deltaX := 1 / 8 }
    let r := optimize parabola o (start o 0)
    r.conv = .dx ∧ (optimize parabola o r).x ≠ r.x := by
  refine ⟨?_, ?_⟩ <;> decide +kernel

/-- The hypotheses of `C145_rprop_split` and `C145_rprop_gradient`: a run of three iterations, and one that ends with GRADIENT_NORM. -/
example : (optimize parabola ((defaults .rpropPlus).limit 3) (start (defaults .rpropPlus) 0)).conv = .inProgress ∧
    (optimize parabola { defaults .rpropPlus with gradientNorm := 1 / 2 } (start (defaults .rpropPlus) 0)).conv = .gradientNorm := by
  refine ⟨?_, ?_⟩ <;> decide +kernel

end Verif.Rprop
