import Verif.PCG.Props

/-!
Property theorems C83: one solver object used over a history of calls.
-/
namespace Verif.PCG
open Verif.MatrixStack (DMat)
open Verif.SBM (SBM Layout WF)

set_option linter.unusedSectionVars false

variable {K : Type} [Field K] [LinearOrder K] [IsStrictOrderedRing K]

/-! ### C83: histories -/

/-- Two matrices have the same layout and the same set of blocks. -/
def SamePattern (A A' : SBM K) : Prop :=
  A.rl = A'.rl ∧ A.cl = A'.cl ∧ ∀ c, (A.col c).map Prod.fst = (A'.col c).map Prod.fst

theorem above_keys (A : SBM K) (c : Nat) :
    (above A c).map Prod.fst = ((A.col c).map Prod.fst).takeWhile fun r => r != c := by
  unfold above
  induction A.col c with
  | nil => rfl
  | cons p ps ih =>
    by_cases h : p.1 = c
    · simp [h]
    · simp [h, ih]

theorem SamePattern.above {A A' : SBM K} (h : SamePattern A A') (c : Nat) :
    (above A c).map Prod.fst = (PCG.above A' c).map Prod.fst := by
  rw [above_keys, above_keys, h.2.2 c]

theorem SamePattern.indices {A A' : SBM K} (h : SamePattern A A') : indicesOf A = indicesOf A' := by
  have e : ∀ B : SBM K, indicesOf B = (List.range B.cl.n).flatMap fun c =>
      ((PCG.above B c).map Prod.fst).map fun r => (B.rl.base r, B.cl.base c) := by
    intro B; simp [indicesOf, List.map_map, Function.comp_def]
  rw [e, e]
  simp only [h.above, h.1, h.2.1]

theorem SamePattern.pointers {A A' : SBM K} (h : SamePattern A A') (id gen : Nat) :
    pointersOf id gen A = pointersOf id gen A' := by
  have e : ∀ B : SBM K, pointersOf id gen B = (List.range B.cl.n).flatMap fun c =>
      ((PCG.above B c).map Prod.fst).map fun r => ⟨id, gen, r, c⟩ := by
    intro B; simp [pointersOf, List.map_map, Function.comp_def]
  rw [e, e]
  simp only [h.above, h.2.1]

theorem SamePattern.indexed {A A' : SBM K} (h : SamePattern A A') {s : St K} {id gen : Nat}
    (hs : Indexed s id gen A) : Indexed s id gen A' := by
  rcases hs with hs | hs
  · exact Or.inl hs
  · exact Or.inr ⟨hs.1.trans h.indices, hs.2.trans (h.pointers id gen)⟩

theorem clear_pattern (A : SBM K) : SamePattern A (A.clear false) :=
  ⟨rfl, rfl, fun c => by simp [SBM.SBM.clear, List.map_map, Function.comp_def]⟩

theorem upd_pattern {A A' : SBM K} {debug : Bool} {r c : Nat} {f : DMat K → DMat K}
    (hb : (A.block r c).isSome = true) (h : A.upd debug r c f = .ok A') : SamePattern A A' := by
  obtain ⟨B, hB⟩ := Option.isSome_iff_exists.1 hb
  unfold SBM.SBM.upd at h
  split at h
  · split at h <;> cases h
  · rw [hB] at h
    simp only [Res.ok.injEq] at h
    subst h
    refine ⟨rfl, rfl, fun c' => ?_⟩
    by_cases hc : c' = c
    · subst hc
      simp only [Function.update_self, List.map_map]
      congr 1
      funext p
      simp only [Function.comp]
      split <;> rfl
    · simp [Function.update_of_ne hc]

/-- A call that does not pull matrix object `id` from under the solver: settings, restarts, anything on
other objects but solving, and on `id` itself solving, clearing without deallocating, and writing to
blocks that exist. -/
def Calm (id : Nat) (w : World K) : Op K → Prop
  | .write id' r c _ => id' = id → ∃ m, w.heap id = some m ∧ (m.A.block r c).isSome = true
  | .clear id' d => id' = id → d = false
  | .rebuild id' _ => id' ≠ id
  | .solve id' _ => id' = id
  | _ => True

/-- Every call of a history is calm when it is made. -/
def CalmRun (debug : Bool) (inv : DMat K → DMat K) (id : Nat) : World K → List (Op K) → Prop
  | _, [] => True
  | w, o :: os => Calm id w o ∧ ∀ w', w.step debug inv o = .ok w' → CalmRun debug inv id w' os

/-- What holds between calls. -/
def HInv (id : Nat) (w : World K) : Prop := ∃ m, w.heap id = some m ∧ Indexed w.st id m.gen m.A

theorem bind_eq_ok {α β : Type} {r : Res α} {f : α → Res β} {b : β} (h : r.bind f = .ok b) :
    ∃ a, r = .ok a ∧ f a = .ok b := by
  cases r with
  | ok a => exact ⟨a, rfl, h⟩
  | exc => cases h
  | ub => cases h

theorem solve_state {debug : Bool} {inv : DMat K → DMat K} {hh : Heap K} {s s' : St K} {id : Nat}
    {m : Mat K} (hid : hh id = some m) {b x : Nat → K}
    (h : solve debug inv hh s id b = .ok (some (s', x))) :
    ∃ e, s' = { s.index id m with residual := e } := by
  unfold solve at h
  rw [hid] at h
  simp only at h
  split at h
  · split at h <;> cases h
  · obtain ⟨d, _, h⟩ := bind_eq_ok h
    obtain ⟨l, _, h⟩ := bind_eq_ok h
    cases l with
    | none => cases h
    | some l =>
      simp only [Res.ok.injEq, Option.some.injEq, Prod.mk.injEq] at h
      exact ⟨_, h.1.symm⟩

theorem hinv_step {debug : Bool} {inv : DMat K → DMat K} {id : Nat} {w w' : World K} {o : Op K}
    (h : HInv id w) (hc : Calm id w o) (hs : w.step debug inv o = .ok w') : HInv id w' := by
  obtain ⟨m, hm, hi⟩ := h
  cases o with
  | init => cases hs; exact ⟨m, hm, Or.inl ⟨rfl, rfl⟩⟩
  | setTolerance t => cases hs; exact ⟨m, hm, hi⟩
  | setMaxIterations t => cases hs; exact ⟨m, hm, hi⟩
  | setAbsoluteTolerance t => cases hs; exact ⟨m, hm, hi⟩
  | write id' r c f =>
    simp only [World.step] at hs
    cases hm' : w.heap id' with
    | none => rw [hm'] at hs; cases hs
    | some m' =>
      rw [hm'] at hs
      obtain ⟨A, hA, hs⟩ := bind_eq_ok hs
      cases hs
      by_cases he : id' = id
      · subst he
        obtain ⟨m2, hm2, hb⟩ := hc rfl
        rw [hm] at hm' hm2
        cases hm'; cases hm2
        exact ⟨⟨m.gen, A⟩, by simp, (upd_pattern hb hA).indexed hi⟩
      · exact ⟨m, by simpa [Function.update_of_ne (fun h => he h.symm)] using hm, hi⟩
  | clear id' d =>
    simp only [World.step] at hs
    cases hm' : w.heap id' with
    | none => rw [hm'] at hs; cases hs
    | some m' =>
      rw [hm'] at hs
      cases hs
      by_cases he : id' = id
      · subst he
        have hd := hc rfl
        subst hd
        rw [hm] at hm'
        cases hm'
        exact ⟨⟨m.gen, m.A.clear false⟩, by simp, (clear_pattern m.A).indexed hi⟩
      · exact ⟨m, by simpa [Function.update_of_ne (fun h => he h.symm)] using hm, hi⟩
  | rebuild id' A =>
    cases hs
    have he : id' ≠ id := hc
    exact ⟨m, by simpa [Function.update_of_ne he.symm] using hm, hi⟩
  | solve id' b =>
    have he : id' = id := hc
    subst he
    simp only [World.step] at hs
    obtain ⟨o, ho, hs⟩ := bind_eq_ok hs
    cases o with
    | none => cases hs
    | some p =>
      obtain ⟨s, x⟩ := p
      cases hs
      obtain ⟨e, rfl⟩ := solve_state hm ho
      have := index_spec hi
      refine ⟨m, hm, ?_⟩
      rw [show m = ⟨m.gen, m.A⟩ from rfl] at *
      simp only [this]
      exact Or.inr ⟨rfl, rfl⟩

theorem hinv_run {debug : Bool} {inv : DMat K → DMat K} {id : Nat} (os : List (Op K)) {w w' : World K}
    (h : HInv id w) (hc : CalmRun debug inv id w os) (hs : Res.run (World.step debug inv) w os = .ok w') :
    HInv id w' := by
  induction os generalizing w with
  | nil => cases hs; exact h
  | cons o os ih =>
    obtain ⟨w1, e1, e2⟩ := bind_eq_ok hs
    exact ih (hinv_step h hc.1 e1) (hc.2 w1 e1) e2

/-- Two outcomes report the same `x`. -/
def sameX (a b : Res (Option (St K × (Nat → K)))) : Prop :=
  match a, b with
  | .ok (some p), .ok (some q) => p.2 = q.2
  | .ok none, .ok none => True
  | .exc, .exc => True
  | .ub, .ub => True
  | _, _ => False

/-- **C83** (partial: reuse on one matrix object). After every history of calls that leaves the block
pattern of one matrix object alone, from a restarted solver on, with any number of solves and value
changes in between, a solve on that object does exactly what a solver that has not collected anything
yet would do with the same settings and the same carried threshold, including its undefined behaviour.
Missing from the full property "earlier use never matters": the carried threshold, and histories that
change the pattern or the object; these are false of the code, see the counterexamples. -/
theorem C83_reuse_partial (debug : Bool) (inv : DMat K → DMat K) (id : Nat) (w : World K)
    (hlive : (w.heap id).isSome = true) (os : List (Op K))
    (hc : CalmRun debug inv id { w with st := w.st.init } os) (w' : World K)
    (hs : Res.run (World.step debug inv) { w with st := w.st.init } os = .ok w') (b : Nat → K) :
    solve debug inv w'.heap w'.st id b =
      solve debug inv w'.heap { w'.st with indices := [], sparse := [] } id b := by
  obtain ⟨m, hm⟩ := Option.isSome_iff_exists.1 hlive
  obtain ⟨m', hm', hi⟩ := hinv_run os (w := { w with st := w.st.init })
    ⟨m, hm, Or.inl ⟨rfl, rfl⟩⟩ hc hs
  have e1 := index_spec hi
  have e2 := index_spec (s := { w'.st with indices := [], sparse := [] }) (id := id) (gen := m'.gen)
    (A := m'.A) (Or.inl ⟨rfl, rfl⟩)
  unfold solve
  rw [hm']
  rw [show m' = ⟨m'.gen, m'.A⟩ from rfl] at *
  simp only [e1, e2]

theorem solve_sameX (debug : Bool) (inv : DMat K → DMat K) (hh : Heap K) (id : Nat) (s1 s2 : St K)
    (i1 : s1.indices = []) (i2 : s2.indices = []) (p1 : s1.sparse = []) (p2 : s2.sparse = [])
    (ht : s1.tol = s2.tol) (a1 : s1.absTol = false) (a2 : s2.absTol = false)
    (hm : s1.maxIter = s2.maxIter) (b : Nat → K) :
    sameX (solve debug inv hh s1 id b) (solve debug inv hh s2 id b) := by
  unfold solve
  cases hh id with
  | none => trivial
  | some m =>
    simp only
    by_cases hsq : m.A.rl.total ≠ m.A.cl.total
    · rw [if_pos hsq, if_pos hsq]
      cases debug <;> trivial
    · rw [if_neg hsq, if_neg hsq]
      have em : mult debug m.A.rl.total m.A.cl hh (diagOf m.A) (s1.index id m) =
          mult debug m.A.rl.total m.A.cl hh (diagOf m.A) (s2.index id m) := by
        unfold mult
        simp [St.index, i1, i2, p1, p2]
      have et : ∀ dn, threshold (s1.index id m) dn = threshold (s2.index id m) dn := by
        intro dn
        simp [threshold, St.index, i1, i2, a1, a2, ht]
      have eb : ∀ n, budget (s1.index id m) n = budget (s2.index id m) n := by
        intro n
        simp [budget, St.index, i1, i2, hm]
      simp only [em, et, eb]
      generalize multDiag debug m.A.rl.total m.A.cl ((diagOf m.A).map inv) b (fun _ => 0) = r1
      cases r1 with
      | exc => trivial
      | ub => trivial
      | ok d =>
        simp only [Res.bind]
        generalize loop (K := K) m.A.rl.total _ _ _ _ _ = r2
        cases r2 with
        | exc => trivial
        | ub => trivial
        | ok l =>
          cases l with
          | none => trivial
          | some l => exact rfl

/-- **C83** (partial: same answer as a new solver). With the absolute tolerance switched off, the same
histories end in a solve that reports the same `x` as a solver built for this one call with the same
settings. -/
theorem C83_like_new_partial (debug : Bool) (inv : DMat K → DMat K) (id : Nat) (w : World K)
    (hlive : (w.heap id).isSome = true) (os : List (Op K))
    (hc : CalmRun debug inv id { w with st := w.st.init } os) (w' : World K)
    (hs : Res.run (World.step debug inv) { w with st := w.st.init } os = .ok w')
    (habs : w'.st.absTol = false) (b : Nat → K) :
    sameX (solve debug inv w'.heap w'.st id b)
      (solve debug inv w'.heap
        { (new : St K) with tol := w'.st.tol, absTol := false, maxIter := w'.st.maxIter } id b) := by
  rw [C83_reuse_partial debug inv id w hlive os hc w' hs b]
  exact solve_sameX debug inv w'.heap id { w'.st with indices := [], sparse := [] }
    { (new : St K) with tol := w'.st.tol, absTol := false, maxIter := w'.st.maxIter }
    rfl rfl rfl rfl rfl habs rfl rfl b

/-- **C83** (the carried threshold). For a positive definite system, a solve on a solver whose lists
belong to this matrix object meets the larger of the relative tolerance and the carried threshold, and
leaves as the carried threshold half the size of its final residual. -/
theorem C83_threshold (debug : Bool) {inv : DMat K → DMat K} {A : SBM K} {S : Nat → Nat → K}
    (h : Describes A S) (hi : InvOk inv A) (hp : PosDef A.cl.total S) {hh : Heap K} {id gen : Nat}
    (hid : hh id = some ⟨gen, A⟩) {s : St K} (hs : Indexed s id gen A) (ht : 0 ≤ s.tol)
    (hm : s.maxIter < 0 ∨ (A.cl.total : Int) ≤ s.maxIter) (b : Nat → K) :
    ∃ s' x e0 e, solve debug inv hh s id b = .ok (some (s', x)) ∧ Size A.cl S b e0 ∧
      Size A.cl S (resid A.cl.total S b x) e ∧
      e ≤ (if s.absTol then max (s.tol * e0) s.residual else s.tol * e0) ∧ s'.residual = e / 2 := by
  obtain ⟨m, x, e, hx, h1, h2, h3⟩ := solve_spec debug h hi hp hid hs ht b
  have hbud : A.cl.total ≤ budget s A.cl.total := by
    unfold budget
    split
    · exact le_refl _
    · omega
  refine ⟨_, x, _, _, e, size_seq h hi hp b b 0 rfl,
    size_seq h hi hp b _ m (resid_seq h hi hp b x m hx), ?_, by ring⟩
  have := dn_le_threshold h hi hp ht b m hbud h1 h2 h3
  unfold threshold at this
  by_cases ha : s.absTol = true
  · rw [if_pos ha]
    split at this
    · exact this.trans (le_max_right _ _)
    · exact this.trans (le_max_left _ _)
  · rw [if_neg ha]
    rwa [if_neg (fun hc => ha hc.1)] at this

/-! ### witnesses -/

/-- A right-hand side. -/
def rhs (a b : ℚ) (i : Nat) : ℚ := if i = 0 then a else if i = 1 then b else 0

/-- A world with matrix objects 0 and 1. -/
def world (A B : SBM ℚ) : World ℚ :=
  ⟨fun i => if i = 0 then some ⟨0, A⟩ else if i = 1 then some ⟨0, B⟩ else none, new, []⟩

/-- The results of a history, newest first. -/
def outs : Res (World ℚ) → Option (List (ℚ × ℚ))
  | .ok w => some (w.out.map fun x => (x 0, x 1))
  | _ => none

/-- A calm history with two solves and a value change between them: the second solve is that of the new
values. -/
example : CalmRun true inv1 0 (world (mat2 2 1 2) (mat2 1 0 1))
      [.solve 0 (rhs 1 0), .write 0 0 1 (fun _ => one (-1)), .setAbsoluteTolerance false,
        .solve 0 (rhs 1 0)] ∧
    outs (Res.run (World.step true inv1) (world (mat2 2 1 2) (mat2 1 0 1))
      [.solve 0 (rhs 1 0), .write 0 0 1 (fun _ => one (-1)), .setAbsoluteTolerance false,
        .solve 0 (rhs 1 0)]) = some [(2 / 3, 1 / 3), (2 / 3, -1 / 3)] := by
  refine ⟨⟨rfl, fun w1 h1 => ⟨fun _ => ?_, fun w2 _ => ⟨trivial, fun w3 _ => ⟨rfl, fun _ _ => trivial⟩⟩⟩⟩,
    by decide +kernel⟩
  obtain ⟨o, ho, h1⟩ := bind_eq_ok h1
  cases o with
  | none => cases h1
  | some p => cases h1; exact ⟨_, rfl, rfl⟩

/-- **C83** (counterexample: another matrix). A solver used on one matrix and then, without a restart, on
another one solves neither: the second answer is that of the second diagonal with the first
off-diagonal blocks. Both systems are positive definite, and a new solver gets the second right. -/
theorem C83_other_matrix_counterexample :
    PosDef 2 (dense2 2 1 2) ∧ PosDef 2 (dense2 4 (-1) 4) ∧
    outs (Res.run (World.step true inv1) (world (mat2 2 1 2) (mat2 4 (-1) 4))
      [.solve 0 (rhs 1 0), .setAbsoluteTolerance false, .solve 1 (rhs 15 0)]) =
      some [(4, -1), (2 / 3, -1 / 3)] ∧
    outs (Res.run (World.step true inv1) (world (mat2 2 1 2) (mat2 4 (-1) 4))
      [.setAbsoluteTolerance false, .solve 1 (rhs 15 0)]) = some [(4, 1)] :=
  ⟨mat2_posDef (by norm_num) (by norm_num), mat2_posDef (by norm_num) (by norm_num),
    by decide +kernel, by decide +kernel⟩

/-- **C83** (counterexample: a new block). Adding an off-diagonal block after a first solve, without a
restart, is not noticed by the second. -/
theorem C83_new_block_counterexample :
    outs (Res.run (World.step true inv1)
      ⟨fun _ => some ⟨0, ⟨⟨3, fun i => i + 1⟩, ⟨3, fun i => i + 1⟩, true, fun k =>
        if k = 0 then [(0, one 1)] else if k = 1 then [(0, one 0), (1, one 1)]
        else if k = 2 then [(2, one 1)] else []⟩⟩, new, []⟩
      [.solve 0 (rhs 1 0), .write 0 0 2 (fun _ => one (1 / 2)), .solve 0 (rhs 1 0)]) =
      some [(1, 0), (1, 0)] ∧
    outs (Res.run (World.step true inv1)
      ⟨fun _ => some ⟨0, ⟨⟨3, fun i => i + 1⟩, ⟨3, fun i => i + 1⟩, true, fun k =>
        if k = 0 then [(0, one 1)] else if k = 1 then [(0, one 0), (1, one 1)]
        else if k = 2 then [(2, one 1)] else []⟩⟩, new, []⟩
      [.solve 0 (rhs 1 0), .write 0 0 2 (fun _ => one (1 / 2)), .init, .solve 0 (rhs 1 0)]) =
      some [(4 / 3, 0), (1, 0)] := by
  constructor <;> decide +kernel

/-- **C83** (counterexample: dangling blocks). Clearing the matrix with deallocation and refilling it with
the same blocks leaves the solver with dangling pointers: the next solve without a restart is undefined
behaviour. -/
theorem C83_dangling_counterexample :
    Res.run (World.step true inv1) (world (mat2 2 1 2) (mat2 1 0 1))
      [.solve 0 (rhs 1 0), .rebuild 0 (mat2 2 1 2), .solve 0 (rhs 1 0)] = .ub := by
  have h : (match Res.run (World.step true inv1) (world (mat2 2 1 2) (mat2 1 0 1))
      [.solve 0 (rhs 1 0), .rebuild 0 (mat2 2 1 2), .solve 0 (rhs 1 0)] with
      | .ub => true | _ => false) = true := by decide +kernel
  generalize Res.run (World.step true inv1) (world (mat2 2 1 2) (mat2 1 0 1))
      [.solve 0 (rhs 1 0), .rebuild 0 (mat2 2 1 2), .solve 0 (rhs 1 0)] = o at h ⊢
  match o, h with
  | .ub, _ => rfl

/-- **C83** (counterexample: a small right-hand side after a large one). With all settings at their
defaults, one matrix and two solves, the second solve returns zero, although its right-hand side is not
zero and the tolerance is `1e-6`: the threshold left by the first solve is larger than the whole second
right-hand side. -/
theorem C83_threshold_counterexample :
    PosDef 2 (dense2 1 (1 / 2000) 1) ∧
    (outs (Res.run (World.step true inv1) (world (mat2 1 (1 / 2000) 1) (mat2 1 0 1))
      [.solve 0 (rhs 1 0), .solve 0 (rhs (1 / 10000) 0)])).map List.head? = some (some (0, 0)) :=
  ⟨mat2_posDef (by norm_num) (by norm_num), by decide +kernel⟩

end Verif.PCG
