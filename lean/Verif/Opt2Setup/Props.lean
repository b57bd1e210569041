import Verif.Opt2Setup.Model

/-!
C118: an optimizer that was initialised on its problem runs with the solver and the policy its options named, with matrices made for that problem, and damps its steps exactly when the policy asks for it.
-/
namespace Verif.Opt2Setup

/-! ### Specification -/

/-- What a user expects of an optimization of problem `q`: the system is built for the active variables and the terms of the problem; the variables updated are those; `sparse_qr`, which cannot damp, is not
combined with Levenberg-Marquardt; and, for a solver other than `dense_qr`, steps are damped exactly if the policy is Levenberg-Marquardt. -/
structure Good (r : Run) (q : Problem) : Prop where
  built : r.built = some ((q.dvs.filter (·.2)).map (·.1), q.terms)
  updated : r.updated = (q.dvs.filter (·.2)).map (·.1)
  compatible : r.solver = .sparseQr → r.policy ≠ .levenbergMarquardt
  damped : r.solver ≠ .denseQr → r.damped = some (decide (r.policy = .levenbergMarquardt))

/-- The run uses what the options `s`, `p` named when the world was `w`: the named solver, or sparse Cholesky; the named policy, or Levenberg-Marquardt, or dog-leg in place of Levenberg-Marquardt for `sparse_qr`. -/
def Asked (w : World) (s p : Option Nat) (r : Run) : Prop :=
  (match s with
    | none => r.solver = .sparseCholesky
    | some i => w.solvers[i]?.map Solver.kind = some r.solver) ∧
  (let asked := match p with
    | none => some PolicyKind.levenbergMarquardt
    | some i => w.policies[i]?
   asked = some r.policy ∨ (asked = some .levenbergMarquardt ∧ r.solver = .sparseQr ∧ r.policy = .dogLeg))

/-- The call names only objects that exist. -/
def Valid (w : World) : Op → Prop
  | .newSolver _ | .newPolicy _ | .newProblem _ => True
  | .modify p _ => p < w.problems.length
  | .newOptimizer s p => (∀ i ∈ s, i < w.solvers.length) ∧ ∀ i ∈ p, i < w.policies.length
  | .setOptions o s p => o < w.opts.length ∧ (∀ i ∈ s, i < w.solvers.length) ∧ ∀ i ∈ p, i < w.policies.length
  | .setProblem o p => o < w.opts.length ∧ p < w.problems.length
  | .initializeLinearSolver o | .initializeTrustRegionPolicy o | .init o | .optimize o => o < w.opts.length

/-- Every call of the sequence names only objects that exist at that point. -/
def AllValid (w : World) : List Op → Prop
  | [] => True
  | op :: ops => Valid w op ∧ AllValid (step w op).1 ops

/-- The call does not disturb optimizer `o`: it does not replace its solver, policy or problem nor initialise it again, does not change its problem, and initialises no other optimizer whose options name
the solver that `o` uses. Allowed for `o` itself: `setOptions`, `optimize`. -/
def Quiet (w : World) (o : Nat) : Op → Prop
  | .newSolver _ | .newPolicy _ | .newProblem _ | .newOptimizer _ _ | .setOptions _ _ _ => True
  | .modify p _ => ∀ x, w.opts[o]? = some x → x.problem ≠ some p
  | .setProblem o' _ | .initializeLinearSolver o' | .initializeTrustRegionPolicy o' => o' ≠ o
  | .init o' => o' ≠ o ∧ ∀ x y, w.opts[o]? = some x → w.opts[o']? = some y → y.optSolver ≠ some x.solver
  | .optimize o' => o' ≠ o → ∀ x y, w.opts[o]? = some x → w.opts[o']? = some y → y.optSolver ≠ some x.solver

/-- No call of the sequence disturbs `o`. -/
def AllQuiet (w : World) (o : Nat) : List Op → Prop
  | [] => True
  | op :: ops => Quiet w o op ∧ AllQuiet (step w op).1 o ops

/-! ### No null pointer -/

/-- Every object an object refers to exists. -/
structure WF (w : World) : Prop where
  ok : ∀ x ∈ w.opts, (∀ i ∈ x.optSolver, i < w.solvers.length) ∧ (∀ i ∈ x.optPolicy, i < w.policies.length) ∧
    x.solver < w.solvers.length ∧ x.policy < w.policies.length ∧ ∀ i ∈ x.problem, i < w.problems.length

/-- The part of `WF` about one optimizer. -/
def WFO (w : World) (x : Optimizer) : Prop :=
  (∀ i ∈ x.optSolver, i < w.solvers.length) ∧ (∀ i ∈ x.optPolicy, i < w.policies.length) ∧
    x.solver < w.solvers.length ∧ x.policy < w.policies.length ∧ ∀ i ∈ x.problem, i < w.problems.length

/-- `w'` has at least the objects of `w`. -/
def Le (w w' : World) : Prop :=
  w.solvers.length ≤ w'.solvers.length ∧ w.policies.length ≤ w'.policies.length ∧ w.problems.length ≤ w'.problems.length

theorem WFO.mono {w w' : World} {x : Optimizer} (h : WFO w x) (hl : Le w w') : WFO w' x := by
  obtain ⟨h1, h2, h3, h4, h5⟩ := h
  obtain ⟨l1, l2, l3⟩ := hl
  exact ⟨fun i hi => Nat.lt_of_lt_of_le (h1 i hi) l1, fun i hi => Nat.lt_of_lt_of_le (h2 i hi) l2, Nat.lt_of_lt_of_le h3 l1, Nat.lt_of_lt_of_le h4 l2,
    fun i hi => Nat.lt_of_lt_of_le (h5 i hi) l3⟩

/-- What `initializeLinearSolver` does to the world and the optimizer. -/
theorem linear_spec (w : World) (x : Optimizer) :
    ∃ t, (initializeLinearSolver w x).1 = { w with solvers := w.solvers ++ t } ∧
      ∃ i, (initializeLinearSolver w x).2 = { x with solver := i } ∧
        ((x.optSolver = none ∧ i = w.solvers.length ∧ t = [Solver.new .sparseCholesky]) ∨ (x.optSolver = some i ∧ t = [])) := by
  unfold initializeLinearSolver
  cases h : x.optSolver with
  | none => exact ⟨[Solver.new .sparseCholesky], rfl, w.solvers.length, by cases x; cases h; rfl, Or.inl ⟨rfl, rfl, rfl⟩⟩
  | some s => exact ⟨[], by simp, s, by cases x; cases h; rfl, Or.inr ⟨rfl, rfl⟩⟩

/-- What the named policy is, before the check against the solver. -/
theorem named_spec (w : World) (x : Optimizer) (hx : ∀ j ∈ x.optPolicy, j < w.policies.length) :
    ∃ t i, namedPolicy w x = ({ w with policies := w.policies ++ t }, { x with policy := i }) ∧ i < (w.policies ++ t).length ∧
      (match x.optPolicy with
        | none => some PolicyKind.levenbergMarquardt
        | some i => w.policies[i]?) = (w.policies ++ t)[i]? := by
  unfold namedPolicy
  cases h : x.optPolicy with
  | none => exact ⟨[.levenbergMarquardt], w.policies.length, by cases x; cases h; rfl, by simp, by simp⟩
  | some p =>
    have := hx p (by simp [h])
    exact ⟨[], p, by cases x; cases h; simp, by simpa using this, by simp⟩

/-- What `initializeTrustRegionPolicy` does to the world and the optimizer. -/
theorem policy_spec (w : World) (x : Optimizer) (hx : ∀ j ∈ x.optPolicy, j < w.policies.length) :
    ∃ t i, initializeTrustRegionPolicy w x = ({ w with policies := w.policies ++ t }, { x with policy := i }) ∧
      i < (w.policies ++ t).length ∧
      (w.solvers[x.solver]?.map Solver.kind = some .sparseQr → (w.policies ++ t)[i]? ≠ some .levenbergMarquardt) ∧
      ((match x.optPolicy with
        | none => some PolicyKind.levenbergMarquardt
        | some i => w.policies[i]?) = (w.policies ++ t)[i]? ∨
        ((match x.optPolicy with
          | none => some PolicyKind.levenbergMarquardt
          | some i => w.policies[i]?) = some .levenbergMarquardt ∧ w.solvers[x.solver]?.map Solver.kind = some .sparseQr ∧
          (w.policies ++ t)[i]? = some .dogLeg)) := by
  obtain ⟨t, i, e, hi, ha⟩ := named_spec w x hx
  unfold initializeTrustRegionPolicy
  simp only [e]
  by_cases hc : w.solvers[x.solver]?.map Solver.kind = some .sparseQr ∧ (w.policies ++ t)[i]? = some .levenbergMarquardt
  · rw [if_pos hc]
    refine ⟨t ++ [.dogLeg], (w.policies ++ t).length, by simp, by simp, fun _ => ?_, Or.inr ⟨ha.trans hc.2, hc.1, ?_⟩⟩
    · rw [← List.append_assoc, List.getElem?_concat_length]; simp
    · rw [← List.append_assoc, List.getElem?_concat_length]
  · rw [if_neg hc]
    exact ⟨t, i, rfl, hi, fun h1 h2 => hc ⟨h1, h2⟩, Or.inl ha⟩

/-- The manager either fails, and touches only its lists, or succeeds. -/
theorem manager_spec (q : Problem) (x : Optimizer) :
    ((managerInitialize q x).2 = false ∧ ∃ d e, (managerInitialize q x).1 = { x with dvs := d, terms := e }) ∨
    managerInitialize q x = ({ x with dvs := q.active, terms := q.terms, initialized := true }, true) := by
  unfold managerInitialize
  split
  · exact Or.inl ⟨rfl, [], [], rfl⟩
  · split
    · exact Or.inl ⟨rfl, q.active, [], rfl⟩
    · exact Or.inr rfl

/-- The state after a successful initialisation of optimizer `o`, described without the functions that compute it. -/
structure Inited (w : World) (o : Nat) (x : Optimizer) (w' : World) (q : Problem) : Prop where
  ex : ∃ (ts : List Solver) (tp : List PolicyKind) (i j : Nat) (s : Solver) (k : PolicyKind),
    w' = ⟨(w.solvers ++ ts).set i (s.initMatrixStructure q.active q.terms k.requiresAugmentedDiagonal), w.policies ++ tp, w.problems,
      w.opts.set o { x with solver := i, policy := j, dvs := q.active, terms := q.terms, initialized := true }⟩ ∧
    (w.solvers ++ ts)[i]? = some s ∧ (w.policies ++ tp)[j]? = some k ∧
    ((x.optSolver = none ∧ i = w.solvers.length ∧ s.kind = .sparseCholesky ∧ ts = [Solver.new .sparseCholesky]) ∨ (x.optSolver = some i ∧ ts = [])) ∧
    (s.kind = .sparseQr → k ≠ .levenbergMarquardt) ∧
    ((match x.optPolicy with
        | none => some PolicyKind.levenbergMarquardt
        | some i => w.policies[i]?) = some k ∨
        ((match x.optPolicy with
          | none => some PolicyKind.levenbergMarquardt
          | some i => w.policies[i]?) = some .levenbergMarquardt ∧ s.kind = .sparseQr ∧ k = .dogLeg))

/-- `initialize` throws, leaving all but the manager's lists, or leaves the optimizer initialised. -/
theorem init_spec (w : World) (o : Nat) (x : Optimizer) (hx : WFO w x) :
    ((initializeAll w o x).2 = .threw ∧ ((initializeAll w o x).1 = w ∨ ∃ d e, (initializeAll w o x).1 = { w with opts := w.opts.set o { x with dvs := d, terms := e } })) ∨
    ((initializeAll w o x).2 = .done ∧ ∃ p q, x.problem = some p ∧ w.problems[p]? = some q ∧ Inited w o x (initializeAll w o x).1 q) := by
  obtain ⟨h1, h2, h3, h4, h5⟩ := hx
  unfold initializeAll
  cases hp : x.problem with
  | none => exact Or.inl ⟨rfl, Or.inl rfl⟩
  | some p =>
    have hpl := h5 p (by simp [hp])
    have hq : w.problems[p]? = some w.problems[p] := List.getElem?_eq_getElem hpl
    simp only [hq]
    rcases manager_spec w.problems[p] x with ⟨hf, d, e, hm⟩ | hm
    · simp only [hf, hm, if_true]
      exact Or.inl ⟨trivial, Or.inr ⟨d, e, by cases x; cases hp; rfl⟩⟩
    · simp only [hm, Bool.true_eq_false, if_false]
      right
      obtain ⟨ts, e1, i, e2, hi⟩ := linear_spec w { x with dvs := w.problems[p].active, terms := w.problems[p].terms, initialized := true }
      simp only [e1, e2]
      obtain ⟨tp, j, e3, hj, hc, ha⟩ := policy_spec { w with solvers := w.solvers ++ ts }
        { x with solver := i, dvs := w.problems[p].active, terms := w.problems[p].terms, initialized := true } h2
      simp only [e3]
      have hil : i < (w.solvers ++ ts).length := by
        rcases hi with ⟨_, hi, ht⟩ | ⟨hi, ht⟩
        · subst ht; simp [hi]
        · have := h1 i (by simpa using hi); simp; omega
      have hs : (w.solvers ++ ts)[i]? = some (w.solvers ++ ts)[i] := List.getElem?_eq_getElem hil
      have hk : (w.policies ++ tp)[j]? = some (w.policies ++ tp)[j] := List.getElem?_eq_getElem hj
      simp only [hs, hk]
      simp only [hs, Option.map_some, Option.some.injEq] at hc ha
      rw [hk] at hc ha
      refine ⟨trivial, p, w.problems[p], rfl, hq, ⟨ts, tp, i, j, (w.solvers ++ ts)[i], (w.policies ++ tp)[j], rfl, hs, hk, ?_, ?_, ?_⟩⟩
      · rcases hi with ⟨a, b, c⟩ | ⟨a, b⟩
        · refine Or.inl ⟨a, b, ?_, c⟩
          subst c; subst b
          rw [List.getElem_concat_length]; rfl
          rfl
        · exact Or.inr ⟨a, b⟩
      · exact fun h h' => hc h (by rw [h'])
      · rcases ha with ha | ⟨a, b, c⟩
        · exact Or.inl ha
        · exact Or.inr ⟨a, b, by simpa using c⟩

/-- All objects are still there, optimizers keep their references valid. -/
theorem WF.set {w : World} (h : WF w) {w' : World} (hl : Le w w') (o : Nat) (x : Optimizer) (hx : WFO w' x) (he : w'.opts = w.opts.set o x) : WF w' := by
  refine ⟨fun y hy => ?_⟩
  rw [he] at hy
  rcases List.mem_or_eq_of_mem_set hy with hy | rfl
  · exact WFO.mono (h.ok y hy) hl
  · exact hx

theorem WF.same {w : World} (h : WF w) {w' : World} (hl : Le w w') (he : w'.opts = w.opts) : WF w' :=
  ⟨fun y hy => WFO.mono (h.ok y (he ▸ hy)) hl⟩

theorem WF.at {w : World} (h : WF w) {o : Nat} {x : Optimizer} (ho : w.opts[o]? = some x) : WFO w x :=
  h.ok x (List.mem_of_getElem? ho)

/-- Initialisation keeps references valid. -/
theorem init_wf {w : World} (h : WF w) {o : Nat} {x : Optimizer} (ho : w.opts[o]? = some x) : WF (initializeAll w o x).1 := by
  have hx := h.at ho
  rcases init_spec w o x hx with ⟨-, hw | ⟨d, e, hw⟩⟩ | ⟨-, p, q, hp, hq, ⟨ts, tp, i, j, s, k, hw, hs, hk, hi, hc, ha⟩⟩
  · rw [hw]; exact h
  · rw [hw]; exact h.set ⟨Nat.le_refl _, Nat.le_refl _, Nat.le_refl _⟩ o { x with dvs := d, terms := e } hx rfl
  · rw [hw]
    have hi' := (List.getElem?_eq_some_iff.mp hs).1
    have hj' := (List.getElem?_eq_some_iff.mp hk).1
    have hl : Le w ⟨(w.solvers ++ ts).set i (s.initMatrixStructure q.active q.terms k.requiresAugmentedDiagonal), w.policies ++ tp, w.problems,
      w.opts.set o { x with solver := i, policy := j, dvs := q.active, terms := q.terms, initialized := true }⟩ :=
      ⟨by simp, by simp, Nat.le_refl _⟩
    obtain ⟨a, b, c, d, e⟩ := hx.mono hl
    exact h.set hl o { x with solver := i, policy := j, dvs := q.active, terms := q.terms, initialized := true } ⟨a, b, by simpa using hi', hj', e⟩ rfl

/-- Every call that names existing objects keeps references valid. -/
theorem step_wf {w : World} (h : WF w) (op : Op) (hv : Valid w op) : WF (step w op).1 := by
  have rf : ∀ w' : World, w.solvers.length ≤ w'.solvers.length → w.policies.length ≤ w'.policies.length → w.problems.length ≤ w'.problems.length → Le w w' :=
    fun _ a b c => ⟨a, b, c⟩
  cases op with
  | newSolver k => exact h.same (rf _ (by simp [step]) (Nat.le_refl _) (Nat.le_refl _)) rfl
  | newPolicy k => exact h.same (rf _ (Nat.le_refl _) (by simp [step]) (Nat.le_refl _)) rfl
  | newProblem q => exact h.same (rf _ (Nat.le_refl _) (Nat.le_refl _) (by simp [step])) rfl
  | modify p q => exact h.same (rf _ (Nat.le_refl _) (Nat.le_refl _) (by simp [step])) rfl
  | newOptimizer s p =>
    obtain ⟨hs, hp⟩ := hv
    obtain ⟨ts, e1, i, e2, hi⟩ := linear_spec w ⟨s, p, 0, 0, none, false, [], []⟩
    obtain ⟨tp, j, e3, hj, hc, ha⟩ := policy_spec { w with solvers := w.solvers ++ ts } ⟨s, p, i, 0, none, false, [], []⟩ hp
    simp only [step, e1, e2, e3]
    refine ⟨fun y hy => ?_⟩
    rcases List.mem_append.mp hy with hy | hy
    · exact WFO.mono (h.ok y hy) ⟨by simp, by simp, Nat.le_refl _⟩
    · rw [List.mem_singleton] at hy
      subst hy
      refine ⟨fun a hm => ?_, fun a hm => ?_, ?_, hj, by simp⟩
      · have := hs a hm; simp; omega
      · have := hp a hm; simp; omega
      · rcases hi with ⟨-, hi, ht⟩ | ⟨hi, ht⟩
        · subst ht; simp [hi]
        · have := hs i (by simpa using hi); simp; omega
  | setOptions o s p =>
    obtain ⟨ho, hs, hp⟩ := hv
    simp only [step, List.getElem?_eq_getElem ho]
    obtain ⟨-, -, c, d, e⟩ := h.at (List.getElem?_eq_getElem ho)
    exact h.set (rf _ (Nat.le_refl _) (Nat.le_refl _) (Nat.le_refl _)) o { w.opts[o] with optSolver := s, optPolicy := p } ⟨hs, hp, c, d, e⟩ rfl
  | setProblem o p =>
    obtain ⟨ho, hp⟩ := hv
    simp only [step, List.getElem?_eq_getElem ho]
    obtain ⟨a, b, c, d, -⟩ := h.at (List.getElem?_eq_getElem ho)
    exact h.set (rf _ (Nat.le_refl _) (Nat.le_refl _) (Nat.le_refl _)) o { w.opts[o] with problem := some p, initialized := false } ⟨a, b, c, d, by intro i hi; cases hi; exact hp⟩ rfl
  | initializeLinearSolver o =>
    have ho : o < w.opts.length := hv
    obtain ⟨a, b, c, d, e⟩ := h.at (List.getElem?_eq_getElem ho)
    obtain ⟨ts, e1, i, e2, hi⟩ := linear_spec w w.opts[o]
    simp only [step, List.getElem?_eq_getElem ho, e1, e2]
    refine h.set (rf _ (by simp) (Nat.le_refl _) (Nat.le_refl _)) o { w.opts[o] with solver := i } ⟨fun z hz => ?_, b, ?_, d, e⟩ rfl
    · have := a z hz; simp; omega
    · rcases hi with ⟨-, hi, ht⟩ | ⟨hi, ht⟩
      · subst ht; simp [hi]
      · have := a i (by simpa using hi); simp; omega
  | initializeTrustRegionPolicy o =>
    have ho : o < w.opts.length := hv
    obtain ⟨a, b, c, d, e⟩ := h.at (List.getElem?_eq_getElem ho)
    obtain ⟨tp, j, e3, hj, hc, ha⟩ := policy_spec w w.opts[o] b
    simp only [step, List.getElem?_eq_getElem ho, e3]
    refine h.set (rf _ (Nat.le_refl _) (by simp) (Nat.le_refl _)) o { w.opts[o] with policy := j } ⟨a, fun z hz => ?_, c, hj, e⟩ rfl
    have := b z hz; simp; omega
  | init o =>
    have ho : o < w.opts.length := hv
    simp only [step, List.getElem?_eq_getElem ho]
    exact init_wf h (List.getElem?_eq_getElem ho)
  | optimize o =>
    have ho : o < w.opts.length := hv
    simp only [step, List.getElem?_eq_getElem ho, optimize]
    split
    · exact h
    · have := init_wf h (List.getElem?_eq_getElem ho)
      split <;> exact this

theorem run_wf {w : World} (h : WF w) (ops : List Op) (hv : AllValid w ops) : WF (run w ops) := by
  induction ops generalizing w with
  | nil => exact h
  | cons op ops ih => exact ih (step_wf h op hv.1) hv.2

theorem empty_wf : WF World.empty := ⟨by simp [World.empty]⟩

/-- An optimizer whose references exist can run. -/
theorem optimizeImplementation_ran {w : World} (h : WF w) {o : Nat} (ho : o < w.opts.length) : ∃ r, optimizeImplementation w o = .ran r := by
  obtain ⟨-, -, c, d, -⟩ := h.at (List.getElem?_eq_getElem ho)
  unfold optimizeImplementation
  simp only [List.getElem?_eq_getElem ho, List.getElem?_eq_getElem c, List.getElem?_eq_getElem d]
  exact ⟨_, rfl⟩

theorem init_length {w : World} (h : WF w) {o : Nat} {x : Optimizer} (ho : w.opts[o]? = some x) : (initializeAll w o x).1.opts.length = w.opts.length := by
  rcases init_spec w o x (h.at ho) with ⟨-, hw | ⟨d, e, hw⟩⟩ | ⟨-, p, q, hp, hq, ⟨ts, tp, i, j, s, k, hw, -⟩⟩ <;> rw [hw]
  · simp
  · simp

/-- No optimizer ever works with a missing solver, policy or problem: after every history, every call that names existing objects returns, throws the documented exceptions, or optimizes. -/
theorem C118_no_null (ops : List Op) (hv : AllValid World.empty ops) (op : Op) (hop : Valid (run World.empty ops) op) :
    (step (run World.empty ops) op).2 ≠ .ub := by
  have h := run_wf empty_wf ops hv
  generalize run World.empty ops = w at h hop
  cases op with
  | newSolver k => simp [step]
  | newPolicy k => simp [step]
  | newProblem q => simp [step]
  | modify p q => simp [step]
  | newOptimizer s p => simp [step]
  | setOptions o s p => simp [step, List.getElem?_eq_getElem hop.1]
  | setProblem o p => simp [step, List.getElem?_eq_getElem hop.1]
  | initializeLinearSolver o => simp [step, List.getElem?_eq_getElem (show o < w.opts.length from hop)]
  | initializeTrustRegionPolicy o => simp [step, List.getElem?_eq_getElem (show o < w.opts.length from hop)]
  | init o =>
    have ho : o < w.opts.length := hop
    simp only [step, List.getElem?_eq_getElem ho]
    rcases init_spec w o w.opts[o] (h.at (List.getElem?_eq_getElem ho)) with ⟨e, -⟩ | ⟨e, -⟩ <;> rw [e] <;> simp
  | optimize o =>
    have ho : o < w.opts.length := hop
    simp only [step, List.getElem?_eq_getElem ho, optimize]
    split
    · obtain ⟨r, hr⟩ := optimizeImplementation_ran h ho
      simp [hr]
    · have hw := init_wf h (List.getElem?_eq_getElem ho)
      have hl := init_length h (List.getElem?_eq_getElem ho)
      split
      · obtain ⟨r, hr⟩ := optimizeImplementation_ran hw (hl ▸ ho)
        simp [hr]
      · rcases init_spec w o w.opts[o] (h.at (List.getElem?_eq_getElem ho)) with ⟨e, -⟩ | ⟨e, -⟩ <;> rw [e] <;> simp

/-! ### What an initialised optimizer runs with -/

/-- Optimizer `o` is set up for its problem `p` with content `q`: running it gives `r`, which is good. -/
structure Ready (w : World) (o p : Nat) (q : Problem) (r : Run) : Prop where
  ex : ∃ (x : Optimizer) (s : Solver) (k : PolicyKind), w.opts[o]? = some x ∧ x.initialized = true ∧ w.solvers[x.solver]? = some s ∧ w.policies[x.policy]? = some k ∧
    x.problem = some p ∧ w.problems[p]? = some q ∧ r = ⟨s.kind, k, s.cond, s.made, x.dvs⟩ ∧ Good r q

theorem Ready.ran {w : World} {o p : Nat} {q : Problem} {r : Run} (h : Ready w o p q r) : step w (.optimize o) = (w, .ran r) := by
  obtain ⟨x, s, k, ho, hi, hs, hk, -, -, hr, -⟩ := h.ex
  simp [step, ho, optimize, hi, optimizeImplementation, hs, hk, hr]

/-- A successful initialisation makes the optimizer ready, with what its options named. -/
theorem init_ready {w : World} (h : WF w) {o : Nat} {x : Optimizer} (ho : w.opts[o]? = some x) (hd : (initializeAll w o x).2 = .done) :
    ∃ p q r, x.problem = some p ∧ w.problems[p]? = some q ∧ Ready (initializeAll w o x).1 o p q r ∧ Asked w x.optSolver x.optPolicy r := by
  rcases init_spec w o x (h.at ho) with ⟨e, -⟩ | ⟨-, p, q, hp, hq, ⟨ts, tp, i, j, s, k, hw, hs, hk, hi, hc, ha⟩⟩
  · rw [hd] at e; cases e
  · have hil := (List.getElem?_eq_some_iff.mp hs).1
    have hol := (List.getElem?_eq_some_iff.mp ho).1
    have hks : (s.initMatrixStructure q.active q.terms k.requiresAugmentedDiagonal).kind = s.kind := rfl
    refine ⟨p, q, ⟨s.kind, k, (s.initMatrixStructure q.active q.terms k.requiresAugmentedDiagonal).cond, some (q.active, q.terms), q.active⟩, hp, hq, ?_, ?_⟩
    · rw [hw]
      refine ⟨{ x with solver := i, policy := j, dvs := q.active, terms := q.terms, initialized := true }, s.initMatrixStructure q.active q.terms k.requiresAugmentedDiagonal, k,
        by rw [List.getElem?_set_self hol], rfl, by rw [List.getElem?_set_self hil], hk, hp, hq, rfl, ⟨rfl, rfl, hc, ?_⟩⟩
      intro hne
      simp only [Solver.initMatrixStructure]
      cases hkind : s.kind with
      | denseQr => exact absurd hkind hne
      | sparseQr =>
        have := hc hkind
        simp [this]
      | sparseCholesky => cases k <;> rfl
      | blockCholesky => cases k <;> rfl
    · refine ⟨?_, ha⟩
      rcases hi with ⟨a, -, b, -⟩ | ⟨a, b⟩
      · rw [a]; exact b
      · rw [a]
        subst b
        rw [List.append_nil] at hs
        simp [hs]

/-- The same, for the call. -/
theorem C118_first_run (ops : List Op) (hv : AllValid World.empty ops) (o : Nat) (r : Run) (x : Optimizer) (ho : (run World.empty ops).opts[o]? = some x)
    (hi : x.initialized = false) (hr : (step (run World.empty ops) (.optimize o)).2 = .ran r) :
    ∃ p q, x.problem = some p ∧ (run World.empty ops).problems[p]? = some q ∧ Good r q ∧ Asked (run World.empty ops) x.optSolver x.optPolicy r := by
  have h := run_wf empty_wf ops hv
  generalize run World.empty ops = w at h ho hr
  simp only [step, ho, optimize, hi, Bool.false_eq_true, if_false] at hr
  rcases init_spec w o x (h.at ho) with ⟨e, -⟩ | ⟨e, -⟩
  · rw [if_neg (by rw [e]; simp), e] at hr; cases hr
  · rw [if_pos e] at hr
    obtain ⟨p, q, r', hp, hq, hready, hask⟩ := init_ready h ho e
    have : r' = r := by
      obtain ⟨x', s, k, ho', hi', hs, hk, -, -, hr', -⟩ := hready.ex
      simp only [optimizeImplementation, ho', hs, hk, Outcome.ran.injEq] at hr
      rw [hr', hr]
    subst this
    obtain ⟨x', s, k, -, -, -, -, -, -, -, hg⟩ := hready.ex
    exact ⟨p, q, hp, hq, hg, hask⟩

/-- Appending and replacing elsewhere keep an element. -/
theorem get_append {α : Type} {l t : List α} {i : Nat} {a : α} (h : l[i]? = some a) : (l ++ t)[i]? = some a := by
  have := (List.getElem?_eq_some_iff.mp h).1
  rw [List.getElem?_append_left this, h]

/-- Initialising another optimizer with another solver keeps an optimizer ready. -/
theorem init_other {w : World} (h : WF w) {o o' p : Nat} {y : Optimizer} {q : Problem} {r : Run} (hR : Ready w o p q r) (hne : o' ≠ o) (ho' : w.opts[o']? = some y)
    (hs' : ∀ x, w.opts[o]? = some x → y.optSolver ≠ some x.solver) : Ready (initializeAll w o' y).1 o p q r := by
  obtain ⟨x, s, k, ho, hi, hs, hk, hp, hq, hr, hg⟩ := hR.ex
  rcases init_spec w o' y (h.at ho') with ⟨-, hw | ⟨d, e, hw⟩⟩ | ⟨-, p', q', hp', hq', ⟨ts, tp, i, j, s', k', hw, hss, hkk, hii, hc, ha⟩⟩
  · rw [hw]; exact hR
  · rw [hw]
    exact ⟨x, s, k, by rw [List.getElem?_set_ne hne, ho], hi, hs, hk, hp, hq, hr, hg⟩
  · rw [hw]
    have hsl := (List.getElem?_eq_some_iff.mp hs).1
    have hix : i ≠ x.solver := by
      rcases hii with ⟨-, a, -⟩ | ⟨a, -⟩
      · omega
      · intro hh
        exact hs' x ho (by rw [a, hh])
    exact ⟨x, s, k, by rw [List.getElem?_set_ne hne, ho], hi, by rw [List.getElem?_set_ne hix]; exact get_append hs, get_append hk, hp, hq, hr, hg⟩

/-- Calls that do not disturb a ready optimizer keep it ready, for the same run. -/
theorem step_quiet {w : World} (h : WF w) (op : Op) (hv : Valid w op) {o p : Nat} {q : Problem} {r : Run} (hR : Ready w o p q r) (hq : Quiet w o op) : Ready (step w op).1 o p q r := by
  obtain ⟨x, s, k, ho, hi, hs, hk, hp, hpq, hr, hg⟩ := hR.ex
  have hol := (List.getElem?_eq_some_iff.mp ho).1
  cases op with
  | newSolver k' => exact ⟨x, s, k, ho, hi, get_append hs, hk, hp, hpq, hr, hg⟩
  | newPolicy k' => exact ⟨x, s, k, ho, hi, hs, get_append hk, hp, hpq, hr, hg⟩
  | newProblem q' => exact ⟨x, s, k, ho, hi, hs, hk, hp, get_append hpq, hr, hg⟩
  | modify p' q' =>
    have : p' ≠ p := fun e => hq x ho (by rw [hp, e])
    exact ⟨x, s, k, ho, hi, hs, hk, hp, by simp only [step]; rw [List.getElem?_set_ne this, hpq], hr, hg⟩
  | newOptimizer s' p' =>
    obtain ⟨ts, e1, i, e2, hii⟩ := linear_spec w ⟨s', p', 0, 0, none, false, [], []⟩
    obtain ⟨tp, j, e3, -⟩ := policy_spec { w with solvers := w.solvers ++ ts } ⟨s', p', i, 0, none, false, [], []⟩ hv.2
    simp only [step, e1, e2, e3]
    exact ⟨x, s, k, get_append ho, hi, get_append hs, get_append hk, hp, hpq, hr, hg⟩
  | setOptions o' s' p' =>
    have hl : o' < w.opts.length := hv.1
    simp only [step, List.getElem?_eq_getElem hl]
    by_cases e : o' = o
    · subst e
      have hx : w.opts[o'] = x := by rw [List.getElem?_eq_getElem hl] at ho; simpa using ho
      exact ⟨{ x with optSolver := s', optPolicy := p' }, s, k, by rw [List.getElem?_set_self hl, hx], hi, hs, hk, hp, hpq, hr, hg⟩
    · exact ⟨x, s, k, by rw [List.getElem?_set_ne e, ho], hi, hs, hk, hp, hpq, hr, hg⟩
  | setProblem o' p' =>
    have hl : o' < w.opts.length := hv.1
    simp only [step, List.getElem?_eq_getElem hl]
    exact ⟨x, s, k, by rw [List.getElem?_set_ne hq, ho], hi, hs, hk, hp, hpq, hr, hg⟩
  | initializeLinearSolver o' =>
    have hl : o' < w.opts.length := hv
    obtain ⟨ts, e1, i, e2, hii⟩ := linear_spec w w.opts[o']
    simp only [step, List.getElem?_eq_getElem hl, e1, e2]
    exact ⟨x, s, k, by rw [List.getElem?_set_ne hq, ho], hi, get_append hs, hk, hp, hpq, hr, hg⟩
  | initializeTrustRegionPolicy o' =>
    have hl : o' < w.opts.length := hv
    obtain ⟨tp, j, e3, -⟩ := policy_spec w w.opts[o'] (h.at (List.getElem?_eq_getElem hl)).2.1
    simp only [step, List.getElem?_eq_getElem hl, e3]
    exact ⟨x, s, k, by rw [List.getElem?_set_ne hq, ho], hi, hs, get_append hk, hp, hpq, hr, hg⟩
  | init o' =>
    have hl : o' < w.opts.length := hv
    have hl' := List.getElem?_eq_getElem hl
    simp only [step, hl']
    exact init_other h hR hq.1 hl' (fun z hz => hq.2 z _ hz hl')
  | optimize o' =>
    have hl : o' < w.opts.length := hv
    have hl' := List.getElem?_eq_getElem hl
    by_cases e : o' = o
    · subst e
      rw [hR.ran]; exact hR
    · simp only [step, hl', optimize]
      split
      · exact hR
      · have := init_other h hR e hl' (fun z hz => hq e z _ hz hl')
        split <;> exact this

/-- An optimizer that was initialised without an exception, after any history whatsoever, and was not disturbed since, optimizes its problem as it is: the system is built for the active variables and the
terms of the problem, those variables are updated, the solver and the policy are those its options named when it was initialised, the two are compatible, and steps are damped exactly if the policy is
Levenberg-Marquardt. Missing (false of the code, see the counterexamples below): the same after the public `initializeLinearSolver`/`initializeTrustRegionPolicy`, with a solver shared between
optimizers, after an `initialize` that threw, and damping with `dense_qr`. -/
theorem C118_setup_partial (h1 : List Op) (hv1 : AllValid World.empty h1) (o : Nat) (x : Optimizer) (ho : (run World.empty h1).opts[o]? = some x)
    (hd : (step (run World.empty h1) (.init o)).2 = .done)
    (h2 : List Op) (hv2 : AllValid (step (run World.empty h1) (.init o)).1 h2) (hq2 : AllQuiet (step (run World.empty h1) (.init o)).1 o h2) :
    ∃ p q r, x.problem = some p ∧ (run World.empty h1).problems[p]? = some q ∧ (run (step (run World.empty h1) (.init o)).1 h2).problems[p]? = some q ∧
      (step (run (step (run World.empty h1) (.init o)).1 h2) (.optimize o)).2 = .ran r ∧ Good r q ∧ Asked (run World.empty h1) x.optSolver x.optPolicy r := by
  have h := run_wf empty_wf h1 hv1
  generalize run World.empty h1 = w at h ho hd hv2 hq2
  have hw' : WF (step w (.init o)).1 := by
    simp only [step, ho]; exact init_wf h ho
  have hst : step w (.init o) = initializeAll w o x := by simp only [step, ho]
  rw [hst] at hd hv2 hq2 hw' ⊢
  obtain ⟨p, q, r, hp, hq, hR, hA⟩ := init_ready h ho hd
  clear hd hst
  generalize (initializeAll w o x).1 = w1 at hv2 hq2 hw' hR ⊢
  have hfin : Ready (run w1 h2) o p q r := by
    induction h2 generalizing w1 with
    | nil => exact hR
    | cons op ops ih => exact ih (step w1 op).1 hv2.2 hq2.2 (step_wf hw' op hv2.1) (step_quiet hw' op hv2.1 hR hq2.1)
  obtain ⟨x', s, k, -, -, -, -, -, hq', -, hg⟩ := hfin.ex
  exact ⟨p, q, r, hp, hq, hq', by rw [hfin.ran], hg, hA⟩

/-! ### The dense QR solver -/

/-- No dense QR solver ever gets its flag written. -/
def DenseUnset (w : World) : Prop := ∀ s ∈ w.solvers, s.kind = .denseQr → s.cond = none

theorem DenseUnset.append {w w' : World} (h : DenseUnset w) (k : SolverKind) (he : w'.solvers = w.solvers ++ [Solver.new k]) : DenseUnset w' := by
  intro s hs hk
  rw [he] at hs
  rcases List.mem_append.mp hs with hs | hs
  · exact h s hs hk
  · rw [List.mem_singleton] at hs; subst hs; rfl

theorem DenseUnset.linear {w : World} (h : DenseUnset w) (x : Optimizer) : DenseUnset (initializeLinearSolver w x).1 := by
  obtain ⟨t, e, i, -, ⟨-, -, ht⟩ | ⟨-, ht⟩⟩ := linear_spec w x
  · exact h.append .sparseCholesky (by rw [e, ht])
  · rw [e, ht]; simpa [DenseUnset] using h

theorem init_solvers (w : World) (o : Nat) (x : Optimizer) (hx : WFO w x) (h : DenseUnset w) : DenseUnset (initializeAll w o x).1 := by
  rcases init_spec w o x hx with ⟨-, hw | ⟨d, e, hw⟩⟩ | ⟨-, p, q, hp, hq, ⟨ts, tp, i, j, s, k, hw, hs, hk, hi, hc, ha⟩⟩
  · rw [hw]; exact h
  · rw [hw]; exact h
  · rw [hw]
    intro s' hs' hk'
    rcases List.mem_or_eq_of_mem_set hs' with hm | rfl
    · rcases List.mem_append.mp hm with hm | hm
      · exact h s' hm hk'
      · rcases hi with ⟨-, -, -, ht⟩ | ⟨-, ht⟩
        · subst ht
          rw [List.mem_singleton] at hm; subst hm; rfl
        · subst ht; cases hm
    · have hk2 : s.kind = .denseQr := hk'
      have hm := List.mem_of_getElem? hs
      simp only [Solver.initMatrixStructure, hk2]
      rcases List.mem_append.mp hm with hm | hm
      · exact h s hm hk2
      · rcases hi with ⟨-, -, hsk, -⟩ | ⟨-, ht⟩
        · rw [hsk] at hk2; cases hk2
        · subst ht; cases hm

theorem step_dense {w : World} (hw : WF w) (h : DenseUnset w) (op : Op) (hv : Valid w op) : DenseUnset (step w op).1 := by
  cases op with
  | newSolver k => exact h.append k rfl
  | newPolicy k => exact h
  | newProblem q => exact h
  | modify p q => exact h
  | newOptimizer s p =>
    have hl := h.linear ⟨s, p, 0, 0, none, false, [], []⟩
    obtain ⟨ts, e1, i, e2, hi⟩ := linear_spec w ⟨s, p, 0, 0, none, false, [], []⟩
    obtain ⟨tp, j, e3, -⟩ := policy_spec { w with solvers := w.solvers ++ ts } ⟨s, p, i, 0, none, false, [], []⟩ hv.2
    simp only [step, e1, e2, e3]
    rw [e1] at hl
    exact hl
  | setOptions o s p => simp only [step, List.getElem?_eq_getElem hv.1]; exact h
  | setProblem o p => simp only [step, List.getElem?_eq_getElem hv.1]; exact h
  | initializeLinearSolver o =>
    have ho : o < w.opts.length := hv
    have hl := h.linear w.opts[o]
    simp only [step, List.getElem?_eq_getElem ho]
    exact hl
  | initializeTrustRegionPolicy o =>
    have ho : o < w.opts.length := hv
    obtain ⟨tp, j, e3, -⟩ := policy_spec w w.opts[o] (hw.at (List.getElem?_eq_getElem ho)).2.1
    simp only [step, List.getElem?_eq_getElem ho, e3]
    exact h
  | init o =>
    have ho : o < w.opts.length := hv
    simp only [step, List.getElem?_eq_getElem ho]
    exact init_solvers w o _ (hw.at (List.getElem?_eq_getElem ho)) h
  | optimize o =>
    have ho : o < w.opts.length := hv
    simp only [step, List.getElem?_eq_getElem ho, optimize]
    split
    · exact h
    · have := init_solvers w o _ (hw.at (List.getElem?_eq_getElem ho)) h
      split <;> exact this

theorem run_dense {w : World} (hw : WF w) (h : DenseUnset w) (ops : List Op) (hv : AllValid w ops) : DenseUnset (run w ops) := by
  induction ops generalizing w with
  | nil => exact h
  | cons op ops ih => exact ih (step_wf hw op hv.1) (step_dense hw h op hv.1) hv.2

/-- In no program does an optimization with the `dense_qr` solver have a defined damping: the flag `solveSystem` reads was never written. -/
theorem C118_dense_qr_undefined (ops : List Op) (hv : AllValid World.empty ops) (o : Nat) (ho : o < (run World.empty ops).opts.length) (r : Run)
    (hr : (step (run World.empty ops) (.optimize o)).2 = .ran r) (hk : r.solver = .denseQr) : r.damped = none := by
  have hw := run_wf empty_wf ops hv
  have hd := run_dense empty_wf (by simp [DenseUnset, World.empty]) ops hv
  generalize run World.empty ops = w at hw hd ho hr
  have key : ∀ w' : World, DenseUnset w' → optimizeImplementation w' o = .ran r → r.damped = none := by
    intro w' h' hr'
    unfold optimizeImplementation at hr'
    split at hr'
    · cases hr'
    · split at hr'
      · rename_i s k hs hk'
        cases hr'
        exact h' s (List.mem_of_getElem? hs) hk
      · cases hr'
  have hd2 := step_dense hw hd (.optimize o) ho
  simp only [step, List.getElem?_eq_getElem ho, optimize] at hr hd2
  by_cases hi : w.opts[o].initialized = true
  · rw [if_pos hi] at hr; exact key w hd hr
  · rw [if_neg hi] at hr hd2
    rcases init_spec w o w.opts[o] (hw.at (List.getElem?_eq_getElem ho)) with ⟨e, -⟩ | ⟨e, -⟩
    · rw [if_neg (by rw [e]; simp), e] at hr; cases hr
    · rw [if_pos e] at hr hd2
      exact key _ hd2 hr

/-! ### Concrete programs -/

/-- Two variables, of which the first is active, and one error term. -/
def demo : Problem := ⟨[(7, true), (8, false)], [3], 0⟩

/-- The hypotheses of `C118_no_null`, `C118_first_run`, `C118_setup_partial` are met by a program with two optimizers; the first uses `sparse_qr` and is asked for Levenberg-Marquardt, which becomes dog-leg. -/
def prog : List Op := [.newSolver .sparseQr, .newPolicy .levenbergMarquardt, .newProblem demo, .newOptimizer (some 0) (some 0), .newOptimizer none none, .setProblem 0 0, .setProblem 1 0]

example : AllValid World.empty prog := by
  simp [prog, AllValid, Valid, step, World.empty, initializeLinearSolver, initializeTrustRegionPolicy, namedPolicy, Solver.new]
example : (run World.empty prog).opts[0]?.map Optimizer.initialized = some false := by decide +kernel
example : (step (run World.empty prog) (.optimize 0)).2 = .ran ⟨.sparseQr, .dogLeg, some false, some ([7], [3]), [7]⟩ := by decide +kernel
example : (step (run World.empty prog) (.optimize 1)).2 = .ran ⟨.sparseCholesky, .levenbergMarquardt, some true, some ([7], [3]), [7]⟩ := by decide +kernel
example : (step (run World.empty prog) (.init 1)).2 = .done := by decide +kernel
example : AllValid (step (run World.empty prog) (.init 1)).1 [.init 0, .optimize 1, .setOptions 1 (some 0) none, .optimize 0] := by
  simp [AllValid, Valid]; decide +kernel
example : AllQuiet (step (run World.empty prog) (.init 1)).1 1 [.init 0, .optimize 1, .setOptions 1 (some 0) none, .optimize 0] := by
  refine ⟨⟨by decide, ?_⟩, by simp [Quiet], trivial, ?_, trivial⟩
  · intro x y hx hy
    have e1 : (step (run World.empty prog) (.init 1)).1.opts[1]?.map Optimizer.solver = some 2 := by decide +kernel
    have e2 : (step (run World.empty prog) (.init 1)).1.opts[0]?.map Optimizer.optSolver = some (some 0) := by decide +kernel
    rw [hx] at e1; rw [hy] at e2
    simp at e1 e2
    rw [e1, e2]; decide
  · intro _ x y hx hy
    have e1 : (run (step (run World.empty prog) (.init 1)).1 [.init 0, .optimize 1, .setOptions 1 (some 0) none]).opts[1]?.map Optimizer.solver = some 2 := by decide +kernel
    have e2 : (run (step (run World.empty prog) (.init 1)).1 [.init 0, .optimize 1, .setOptions 1 (some 0) none]).opts[0]?.map Optimizer.optSolver = some (some 0) := by decide +kernel
    have hx' : (run (step (run World.empty prog) (.init 1)).1 [.init 0, .optimize 1, .setOptions 1 (some 0) none]).opts[1]? = some x := hx
    have hy' : (run (step (run World.empty prog) (.init 1)).1 [.init 0, .optimize 1, .setOptions 1 (some 0) none]).opts[0]? = some y := hy
    rw [hx'] at e1; rw [hy'] at e2
    simp at e1 e2
    rw [e1, e2]; decide

/-- The hypotheses of `C118_dense_qr_undefined` are met, for a Levenberg-Marquardt optimizer with `dense_qr`. -/
example : (step (run World.empty [.newSolver .denseQr, .newProblem demo, .newOptimizer (some 0) none, .setProblem 0 0]) (.optimize 0)).2 =
    .ran ⟨.denseQr, .levenbergMarquardt, none, some ([7], [3]), [7]⟩ := by decide +kernel

/-- Changing the policy with the public `initializeTrustRegionPolicy` after initialisation: Levenberg-Marquardt runs without damping. -/
theorem C118_policy_switch_counterexample :
    (step (run World.empty [.newPolicy .gaussNewton, .newProblem demo, .newOptimizer none (some 0), .setProblem 0 0, .init 0, .setOptions 0 none none, .initializeTrustRegionPolicy 0]) (.optimize 0)).2 =
      .ran ⟨.sparseCholesky, .levenbergMarquardt, some false, some ([7], [3]), [7]⟩ := by decide +kernel

/-- The public `initializeLinearSolver` after initialisation: the next optimization uses a solver whose matrices were never set up and whose flag was never written. -/
theorem C118_solver_switch_counterexample :
    (step (run World.empty [.newProblem demo, .newOptimizer none none, .setProblem 0 0, .init 0, .initializeLinearSolver 0]) (.optimize 0)).2 =
      .ran ⟨.sparseCholesky, .levenbergMarquardt, none, none, [7]⟩ := by decide +kernel

/-- A solver in the options of two optimizers: initialising the second one changes what the first one solves, silently. -/
theorem C118_shared_solver_counterexample :
    (step (run World.empty [.newSolver .sparseCholesky, .newPolicy .gaussNewton, .newProblem demo, .newProblem ⟨[(1, true), (2, true)], [4, 5], 0⟩, .newOptimizer (some 0) none,
        .newOptimizer (some 0) (some 0), .setProblem 0 0, .setProblem 1 1, .init 0, .init 1]) (.optimize 0)).2 =
      .ran ⟨.sparseCholesky, .levenbergMarquardt, some false, some ([1, 2], [4, 5]), [7]⟩ := by decide +kernel

/-- `initialize` that throws because no variable is active leaves the optimizer marked as initialised: the next `optimize` computes steps from the old matrices and updates no variable. -/
theorem C118_failed_initialize_counterexample :
    let w := run World.empty [.newProblem demo, .newOptimizer none none, .setProblem 0 0, .init 0, .modify 0 ⟨[(7, false), (8, false)], [3], 0⟩]
    (step w (.init 0)).2 = .threw ∧
    (step (step w (.init 0)).1 (.optimize 0)).2 = .ran ⟨.sparseCholesky, .levenbergMarquardt, some true, some ([7], [3]), []⟩ := by decide +kernel

end Verif.Opt2Setup
