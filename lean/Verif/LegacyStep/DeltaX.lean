import Verif.LegacyStep.Props
import Mathlib.Algebra.Order.Field.Basic
import Mathlib.Algebra.Order.BigOperators.Group.Finset

/-!
C121: the size of a step that the optimizers compare with `convergenceDeltaX` and report as `dXFinal`. Optimizer.cpp is LO below, Optimizer2.cpp O2.
-/
namespace Verif.LegacyStep
open Verif.MatrixStack (DMat)
open Verif.Jacobian (Env)
open Verif.SBM Verif.Hessian Verif.Schur

variable {K : Type} [Field K] [LinearOrder K] [IsStrictOrderedRing K]

/-- `v.array().abs().maxCoeff()` of a vector of length `n`, LO:632, 643 and O2:289. Eigen does not define it for an empty vector. -/
def maxAbs (f : Nat → K) : Nat → Res K
  | 0 => .ub
  | n + 1 => .ok ((List.range n).foldl (fun v j => max v |f (j + 1)|) |f 0|)

/-- LO:636-645: the maximum over the marginalised variables. -/
def sparseMax (env : Env K) : List (Nat × (Nat → K)) → K → Res K
  | [], v => .ok v
  | u :: us, v => maxAbs u.2 (env.dim u.1) >>= fun x => sparseMax env us (max v x)

/-- What `applyStateUpdate` returns, LO:632-646; `n` is the length of `dx`. With no marginalised variables (`invV` empty) it is also what that of `Optimizer2` returns, O2:287-290. -/
def deltaX (env : Env K) (dvs : List Nat) (m : Nat) (H : SBM K) (rhs : Nat → K) (invV : List (DMat K)) (dx : Nat → K) (n : Nat) : Res K :=
  maxAbs dx n >>= fun v => sparseMax env (sparseUpdates env dvs m H rhs dx invV 0) v

theorem foldl_max (f : Nat → K) (n : Nat) (v : K) :
    let r := (List.range n).foldl (fun v j => max v |f (j + 1)|) v
    v ≤ r ∧ (∀ j, j < n → |f (j + 1)| ≤ r) ∧ (r = v ∨ ∃ j, j < n ∧ |f (j + 1)| = r) := by
  induction n with
  | zero => simp
  | succ n ih =>
    rw [List.range_succ, List.foldl_append]
    simp only [List.foldl_cons, List.foldl_nil]
    obtain ⟨h1, h2, h3⟩ := ih
    refine ⟨h1.trans (le_max_left _ _), ?_, ?_⟩
    · intro j hj
      rcases Nat.lt_succ_iff_lt_or_eq.1 hj with h | rfl
      · exact (h2 j h).trans (le_max_left _ _)
      · exact le_max_right _ _
    · rcases max_choice ((List.range n).foldl (fun v j => max v |f (j + 1)|) v) |f (n + 1)| with h | h
      · rw [h]
        rcases h3 with h3 | ⟨j, hj, h3⟩
        · exact .inl h3
        · exact .inr ⟨j, by omega, h3⟩
      · exact .inr ⟨n, by omega, h.symm⟩

theorem maxAbs_spec (f : Nat → K) (n : Nat) (hn : 0 < n) : ∃ v, maxAbs f n = .ok v ∧ (∀ j, j < n → |f j| ≤ v) ∧ ∃ j, j < n ∧ |f j| = v := by
  obtain ⟨n, rfl⟩ : ∃ k, n = k + 1 := ⟨n - 1, by omega⟩
  obtain ⟨h1, h2, h3⟩ := foldl_max f n |f 0|
  refine ⟨_, rfl, ?_, ?_⟩
  · intro j hj
    cases j with
    | zero => exact h1
    | succ j => exact h2 j (by omega)
  · rcases h3 with h3 | ⟨j, hj, h3⟩
    · exact ⟨0, by omega, h3.symm⟩
    · exact ⟨j + 1, by omega, h3⟩

theorem sparseMax_spec (env : Env K) (us : List (Nat × (Nat → K))) (h : ∀ u ∈ us, 0 < env.dim u.1) : ∀ v, ∃ r, sparseMax env us v = .ok r ∧ v ≤ r ∧
    (∀ u ∈ us, ∀ a, a < env.dim u.1 → |u.2 a| ≤ r) ∧ (r = v ∨ ∃ u ∈ us, ∃ a, a < env.dim u.1 ∧ |u.2 a| = r) := by
  induction us with
  | nil => intro v; exact ⟨v, rfl, le_rfl, by simp, .inl rfl⟩
  | cons u us ih =>
    intro v
    obtain ⟨x, e, h1, j, hj, h2⟩ := maxAbs_spec u.2 (env.dim u.1) (h u (by simp))
    obtain ⟨r, e', h3, h4, h5⟩ := ih (fun u hu => h u (by simp [hu])) (max v x)
    refine ⟨r, ?_, (le_max_left _ _).trans h3, ?_, ?_⟩
    · rw [sparseMax, e, Res.bind_ok, e']
    · intro u' hu' a ha
      rcases List.mem_cons.1 hu' with rfl | hu'
      · exact ((h1 a ha).trans (le_max_right _ _)).trans h3
      · exact h4 u' hu' a ha
    · rcases h5 with h5 | ⟨u', hu', h5⟩
      · rcases max_choice v x with hm | hm
        · exact .inl (h5.trans hm)
        · exact .inr ⟨u, by simp, j, hj, by rw [h2, h5, hm]⟩
      · exact .inr ⟨u', by simp [hu'], h5⟩

/-- **C121** (partial). Let all variables have positive dimension, the first `m ≥ 1` not being marginalised. The size of the step is defined; it bounds the change of every coordinate of every marginalised variable, and the change of a coordinate
of any other variable divided by the scaling of the variable; one of these bounds is attained. So if the scaling of the variables that are not marginalised is one, it is exactly the largest change of a coordinate. Missing: other scalings, for which it is
false, `C121_scaling_counterexample`. -/
theorem C121_deltaX_partial (env : Env K) (dvs : List Nat) (m : Nat) (hm : 0 < m) (H : SBM K) (rhs : Nat → K) (invV : List (DMat K)) (hlen : dvs.length = m + invV.length) (dx : Nat → K)
    (hdim : ∀ d ∈ dvs, 0 < env.dim d) :
    ∃ v, deltaX env dvs m H rhs invV dx (dvLayout env (dvs.take m)).total = .ok v ∧
      (∀ (i : Nat) (u : Nat × (Nat → K)), (applyStateUpdate env dvs m H rhs invV dx)[i]? = some u → ∀ a, a < env.dim u.1 → |u.2 a| ≤ v * if i < m then |env.scaling u.1| else 1) ∧
      (∃ (i : Nat) (u : Nat × (Nat → K)), (applyStateUpdate env dvs m H rhs invV dx)[i]? = some u ∧ ∃ a, a < env.dim u.1 ∧ |u.2 a| = v * if i < m then |env.scaling u.1| else 1) ∧
      ((∀ d ∈ dvs.take m, env.scaling d = 1) →
        (∀ u ∈ applyStateUpdate env dvs m H rhs invV dx, ∀ a, a < env.dim u.1 → |u.2 a| ≤ v) ∧ ∃ u ∈ applyStateUpdate env dvs m H rhs invV dx, ∃ a, a < env.dim u.1 ∧ |u.2 a| = v) := by
  set L := dvLayout env (dvs.take m) with hL
  have hLn : L.n = m := by simp [hL, dvLayout]; omega
  have mono : L.Mono := dvLayout_mono env (dvs.take m)
  have hsize : ∀ i, L.size i = env.dim ((dvs.take m).getD i 0) := fun i => dvLayout_size env (dvs.take m) i
  have hgm : ∀ i, i < m → (dvs.take m).getD i 0 ∈ dvs := by
    intro i hi
    rw [List.getD_eq_getElem _ _ (by simp; omega)]
    exact List.mem_of_mem_take (List.getElem_mem _)
  have hn : 0 < L.total := by
    have := Layout.base_add_size_le_total mono (show 0 < L.n by omega)
    have h0 := hdim _ (hgm 0 hm)
    rw [hsize] at this
    omega
  have hslen := sparseUpdates_length env dvs m H rhs dx invV 0
  have hsp : ∀ (i : Nat) (u : Nat × (Nat → K)), (sparseUpdates env dvs m H rhs dx invV 0)[i]? = some u → u.1 ∈ dvs := by
    intro i u hu
    have hi : i < invV.length := by rw [← hslen]; exact (List.getElem?_eq_some_iff.1 hu).1
    rw [sparseUpdates_spec env dvs m H rhs dx invV 0 i invV[i] (List.getElem?_eq_getElem hi)] at hu
    cases hu
    rw [List.getD_eq_getElem _ _ (by omega)]
    exact List.getElem_mem _
  obtain ⟨v0, e0, h1, j, hj, h2⟩ := maxAbs_spec dx L.total hn
  obtain ⟨v, e, h3, h4, h5⟩ := sparseMax_spec env (sparseUpdates env dvs m H rhs dx invV 0) (fun u hu => by
    obtain ⟨i, hi⟩ := List.mem_iff_getElem?.1 hu
    exact hdim _ (hsp i u hi)) v0
  have hd : ∀ i, i < m → (applyStateUpdate env dvs m H rhs invV dx)[i]? = some ((dvs.take m).getD i 0, fun a => dx (L.base i + a) * env.scaling ((dvs.take m).getD i 0)) := by
    intro i hi
    unfold applyStateUpdate
    rw [List.getElem?_append_left (by rw [denseUpdates_length, List.length_take]; omega), denseUpdates_spec env dx _ 0 i (by rw [List.length_take]; omega), hL, base_eq]
    simp
  have hsnd : ∀ i, ¬ i < m → (applyStateUpdate env dvs m H rhs invV dx)[i]? = (sparseUpdates env dvs m H rhs dx invV 0)[i - m]? := by
    intro i hi
    unfold applyStateUpdate
    rw [List.getElem?_append_right (by rw [denseUpdates_length, List.length_take]; omega), denseUpdates_length, List.length_take, show min m dvs.length = m by omega]
  have hub : ∀ (i : Nat) (u : Nat × (Nat → K)), (applyStateUpdate env dvs m H rhs invV dx)[i]? = some u → ∀ a, a < env.dim u.1 → |u.2 a| ≤ v * if i < m then |env.scaling u.1| else 1 := by
    intro i u hu a ha
    by_cases hi : i < m
    · rw [hd i hi] at hu
      cases hu
      rw [if_pos hi]
      dsimp only at ha ⊢
      rw [abs_mul]
      refine mul_le_mul_of_nonneg_right ((h1 _ ?_).trans h3) (abs_nonneg _)
      have := Layout.base_add_size_le_total mono (show i < L.n by omega)
      rw [hsize] at this
      omega
    · rw [hsnd i hi] at hu
      rw [if_neg hi, mul_one]
      exact h4 u (List.mem_of_getElem? hu) a ha
  have hatt : ∃ (i : Nat) (u : Nat × (Nat → K)), (applyStateUpdate env dvs m H rhs invV dx)[i]? = some u ∧ ∃ a, a < env.dim u.1 ∧ |u.2 a| = v * if i < m then |env.scaling u.1| else 1 := by
    rcases h5 with h5 | ⟨u, hu, a, ha, h5⟩
    · obtain ⟨i, hi, a, ha, rfl⟩ := Layout.locate mono hj
      rw [hLn] at hi
      rw [hsize] at ha
      refine ⟨i, _, hd i hi, a, ha, ?_⟩
      rw [if_pos hi, abs_mul, h2, h5]
    · obtain ⟨i, hi⟩ := List.mem_iff_getElem?.1 hu
      refine ⟨m + i, u, ?_, a, ha, ?_⟩
      · rw [hsnd _ (by omega), show m + i - m = i by omega, hi]
      · rw [if_neg (by omega), mul_one, h5]
  refine ⟨v, ?_, hub, hatt, ?_⟩
  · unfold deltaX
    rw [e0, Res.bind_ok, e]
  · intro hsc
    have hone : ∀ (i : Nat) (u : Nat × (Nat → K)), (applyStateUpdate env dvs m H rhs invV dx)[i]? = some u → (if i < m then |env.scaling u.1| else 1) = 1 := by
      intro i u hu
      by_cases hi : i < m
      · rw [hd i hi] at hu
        cases hu
        rw [if_pos hi, hsc _ (by rw [List.getD_eq_getElem _ _ (by simp; omega)]; exact List.getElem_mem _), abs_one]
      · rw [if_neg hi]
    constructor
    · intro u hu a ha
      obtain ⟨i, hi⟩ := List.mem_iff_getElem?.1 hu
      have := hub i u hi a ha
      rwa [hone i u hi, mul_one] at this
    · obtain ⟨i, u, hi, a, ha, h⟩ := hatt
      rw [hone i u hi, mul_one] at h
      exact ⟨u, List.mem_of_getElem? hi, a, ha, h⟩

/-- **C121** (scaling). A variable with scaling 1000 moves by 1000 in a step whose size is reported as one: with `convergenceDeltaX = 1` the run ends as converged. Another, with scaling 1/1000, moves by 1/1000 and keeps the run going. -/
theorem C121_scaling_counterexample :
    let env : Rat → Env Rat := fun sc => ⟨fun d => d, fun _ => 0, fun _ => 1, fun _ => true, fun _ => sc⟩
    let H : SBM Rat := new (dvLayout (env 1) [0]) (dvLayout (env 1) [0])
    deltaX (env 1000) [0] 1 H (fun _ => 0) [] (fun _ => 1) 1 = .ok 1 ∧
    (applyStateUpdate (env 1000) [0] 1 H (fun _ => 0) [] (fun _ => 1)).map (fun u => u.2 0) = [1000] ∧
    deltaX (env (1 / 1000)) [0] 1 H (fun _ => 0) [] (fun _ => 1) 1 = .ok 1 ∧
    (applyStateUpdate (env (1 / 1000)) [0] 1 H (fun _ => 0) [] (fun _ => 1)).map (fun u => u.2 0) = [1 / 1000] := by
  refine ⟨?_, ?_, ?_, ?_⟩ <;> decide +kernel

/-- A concrete case of `C121_deltaX_partial`: one variable of dimension two and one marginalised variable. -/
example : let env : Env Rat := ⟨fun d => d, fun _ => 0, fun d => if d = 0 then 2 else 1, fun _ => true, fun _ => 1⟩
    deltaX env [0, 1] 1 (new (dvLayout env [0, 1]) (dvLayout env [0, 1])) (fun _ => 6) [⟨1, 1, fun _ _ => 1 / 2⟩] (fun j => if j = 0 then 1 else -2) 2 = .ok 3 := by
  decide +kernel

end Verif.LegacyStep
