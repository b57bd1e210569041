import Verif.LegacyInit.Model
import Verif.Problem.Props
import Mathlib.Data.List.Perm.Basic
import Mathlib.Algebra.BigOperators.Group.List.Lemmas
import Mathlib.Tactic.Abel

/-!
Claim C115: which variables and which terms the legacy `Optimizer` works on.
-/
namespace Verif.LegacyInit
open Verif.Problem (State World Reach Op C09_indices_consistent_partial)

theorem setBlocks_notMem (ds : List Nat) : ∀ (b : Nat → Int) (i d : Nat), d ∉ ds → setBlocks b ds i d = b d := by
  induction ds with
  | nil => intro b i d _; rfl
  | cons x xs ih =>
    intro b i d h
    simp only [List.mem_cons, not_or] at h
    rw [setBlocks, ih _ _ _ h.2, Function.update_of_ne h.1]

theorem setBlocks_get (ds : List Nat) : ∀ (b : Nat → Int) (i : Nat), ds.Nodup → ∀ j (hj : j < ds.length), setBlocks b ds i ds[j] = (i + j : Nat) := by
  induction ds with
  | nil => intro b i _ j hj; simp at hj
  | cons x xs ih =>
    intro b i hn j hj
    rw [List.nodup_cons] at hn
    rw [setBlocks]
    cases j with
    | zero => rw [List.getElem_cons_zero, setBlocks_notMem _ _ _ _ hn.1]; simp
    | succ k =>
      rw [List.getElem_cons_succ, ih _ _ hn.2 k (by simpa using hj)]
      congr 1; omega

theorem partialSums_length (ns : List Nat) : ∀ a, (partialSums a ns).length = ns.length := by
  induction ns with
  | nil => intro a; rfl
  | cons n ns ih => intro a; simp [partialSums, ih]

theorem partialSums_get (ns : List Nat) : ∀ (a i : Nat), i < ns.length → (partialSums a ns).getD i 0 = a + (ns.take (i + 1)).sum := by
  induction ns with
  | nil => intro a i h; simp at h
  | cons n ns ih =>
    intro a i h
    cases i with
    | zero => simp [partialSums]
    | succ k =>
      simp only [partialSums, List.getD_cons_succ, List.take_succ_cons, List.sum_cons]
      rw [ih (a + n) k (by simpa using h)]
      omega

theorem baseOf_partialSums (ns : List Nat) (i : Nat) (h : i ≤ ns.length) : baseOf (partialSums 0 ns) i = (ns.take i).sum := by
  unfold baseOf
  split_ifs with h0
  · subst h0; simp
  · rw [partialSums_get ns 0 (i - 1) (by omega)]
    rw [show i - 1 + 1 = i from by omega, Nat.zero_add]

theorem baseOf_take (l : List Nat) (n i : Nat) (h : i ≤ n) : baseOf (l.take n) i = baseOf l i := by
  unfold baseOf
  split_ifs with h0
  · rfl
  · simp only [List.getD_eq_getElem?_getD]
    rw [List.getElem?_take_of_lt (by omega)]

theorem insert_fold (xs : List Nat) : ∀ ts : List Nat, ts.Nodup →
    (xs.foldl (fun ts t => if t ∈ ts then ts else ts ++ [t]) ts).Nodup ∧ ∀ t, t ∈ xs.foldl (fun ts t => if t ∈ ts then ts else ts ++ [t]) ts ↔ t ∈ ts ∨ t ∈ xs := by
  induction xs with
  | nil => intro ts h; exact ⟨h, by simp⟩
  | cons x xs ih =>
    intro ts h
    rw [List.foldl_cons]
    split_ifs with hx
    · refine ⟨(ih ts h).1, fun t => ?_⟩
      rw [(ih ts h).2 t, List.mem_cons]
      constructor
      · tauto
      · rintro (h | rfl | h) <;> tauto
    · have hn : (ts ++ [x]).Nodup := by
        rw [List.nodup_append]
        exact ⟨h, by simp, by intro a ha b hb; simp at hb; subst hb; rintro rfl; exact hx ha⟩
      refine ⟨(ih _ hn).1, fun t => ?_⟩
      rw [(ih _ hn).2 t]
      simp; tauto

theorem insertErrors_spec (s : State) (d : Nat) (ts : List Nat) (h : ts.Nodup) :
    (insertErrors s d ts).Nodup ∧ ∀ t, t ∈ insertErrors s d ts ↔ t ∈ ts ∨ (d, t) ∈ s.emap := by
  have := insert_fold ((s.emap.filter fun p => p.1 == d).map Prod.snd) ts h
  refine ⟨this.1, fun t => ?_⟩
  unfold insertErrors
  rw [this.2 t]
  simp only [List.mem_map, List.mem_filter, beq_iff_eq, Prod.exists, exists_eq_right]

theorem terms_spec (s : State) (ds : List Nat) : ∀ ts : List Nat, ts.Nodup →
    (ds.foldl (fun ts d => insertErrors s d ts) ts).Nodup ∧ ∀ t, t ∈ ds.foldl (fun ts d => insertErrors s d ts) ts ↔ t ∈ ts ∨ ∃ d ∈ ds, (d, t) ∈ s.emap := by
  induction ds with
  | nil => intro ts h; exact ⟨h, by simp⟩
  | cons d ds ih =>
    intro ts h
    obtain ⟨h1, h2⟩ := insertErrors_spec s d ts h
    refine ⟨(ih _ h1).1, fun t => ?_⟩
    rw [List.foldl_cons, (ih _ h1).2 t, h2 t]
    simp; tauto

/-- **C115** (layout). After every history of a problem, `initialize` throws exactly if every active variable is marginalised (with the Schur complement in use) or none is active. Otherwise the optimizer
works on the active variables of the problem, each once; their block indices are their positions, the variables that are not marginalised come first; the blocks of the Hessian have the sizes of the
variables; the reduced system covers the variables before the first marginalised one; variables that are not active keep their block index. The error terms are those of the problem with at least one
active variable, each once. -/
theorem C115_layout (debug : Bool) (w : World) (ops : List Op) (s : State) (h : Reach debug w ops s) (e : Env) (schur : Bool) (b : Nat → Int) :
    (initOpt e schur s b = .exc ↔ ∀ d ∈ s.dvs, e.active d = true → e.marg d = true ∧ schur = true) ∧
    initOpt e schur s b ≠ .ub ∧
    ∀ l, initOpt e schur s b = .ok l →
      l.dvs.Nodup ∧ (∀ d, d ∈ l.dvs ↔ d ∈ s.dvs ∧ e.active d = true) ∧
      (∀ i (hi : i < l.dvs.length), l.block l.dvs[i] = (i : Nat) ∧ (i < l.start ↔ (e.marg l.dvs[i] && schur) = false) ∧
        baseOf l.hBlocks (i + 1) - baseOf l.hBlocks i = e.dim l.dvs[i]) ∧
      (∀ d, d ∉ l.dvs → l.block d = b d) ∧
      0 < l.start ∧ l.start + l.invVi = l.dvs.length ∧ l.hBlocks.length = l.dvs.length ∧ l.aBlocks.length = l.start ∧
      l.rhsSize = (l.dvs.map e.dim).sum ∧ l.bSize = ((l.dvs.take l.start).map e.dim).sum ∧ l.dxSize = l.bSize ∧
      (∀ i ≤ l.start, baseOf l.aBlocks i = baseOf l.hBlocks i) ∧
      l.terms.Nodup ∧ ∀ t, t ∈ l.terms ↔ t ∈ s.ets ∧ ∃ d ∈ w.dvsOf t, d ∈ s.dvs ∧ e.active d = true := by
  obtain ⟨_, hnd, hge, _⟩ := C09_indices_consistent_partial debug w ops s h
  set act := s.dvs.filter e.active with hact
  set dense := act.filter fun d => !(e.marg d && schur) with hdense
  set sparse := act.filter fun d => e.marg d && schur with hsparse
  refine ⟨?_, ?_, ?_⟩
  · unfold initOpt
    simp only [← hact, ← hdense, ← hsparse]
    rw [show (if dense = [] then Res.exc else _) = Res.exc ↔ dense = [] from by split_ifs with h0 <;> simp [h0]]
    rw [hdense, List.filter_eq_nil_iff]
    simp only [hact, List.mem_filter, and_imp, Bool.not_eq_true', Bool.not_eq_false, Bool.and_eq_true]
  · unfold initOpt
    simp only [← hact, ← hdense, ← hsparse]
    split_ifs <;> simp
  · intro l hl
    unfold initOpt at hl
    simp only [← hact, ← hdense, ← hsparse] at hl
    split_ifs at hl with h0
    simp only [Res.ok.injEq] at hl
    have nact : act.Nodup := hnd.filter _
    have nd : dense.Nodup := nact.filter _
    have ns : sparse.Nodup := nact.filter _
    have disj : ∀ d, d ∈ dense → d ∉ sparse := by
      intro d h1 h2
      simp only [hdense, List.mem_filter, Bool.not_eq_true'] at h1
      simp only [hsparse, List.mem_filter] at h2
      rw [h1.2] at h2; cases h2.2
    have nall : (dense ++ sparse).Nodup := by
      rw [List.nodup_append]
      exact ⟨nd, ns, fun a ha c hc e => disj a ha (e ▸ hc)⟩
    have memall : ∀ d, d ∈ dense ++ sparse ↔ d ∈ s.dvs ∧ e.active d = true := by
      intro d
      simp only [hdense, hsparse, hact, List.mem_append, List.mem_filter, Bool.not_eq_true']
      cases (e.marg d && schur) <;> simp
    have hpos : 0 < dense.length := List.length_pos_iff.2 h0
    have hterms := terms_spec s (dense ++ sparse) [] List.nodup_nil
    subst hl
    have hlen : (partialSums 0 ((dense ++ sparse).map e.dim)).length = (dense ++ sparse).length := by rw [partialSums_length, List.length_map]
    have htake : (List.take dense.length (partialSums 0 ((dense ++ sparse).map e.dim))).length = dense.length := by
      rw [List.length_take, hlen, List.length_append]; omega
    have hb : ∀ i ≤ (dense ++ sparse).length, baseOf (partialSums 0 ((dense ++ sparse).map e.dim)) i = ((((dense ++ sparse).map e.dim)).take i).sum :=
      fun i hi => baseOf_partialSums _ i (by simpa using hi)
    refine ⟨nall, memall, ?_, ?_, hpos, ?_, hlen, htake, ?_, ?_, ?_, ?_, hterms.1, ?_⟩
    · intro i hi
      dsimp only at hi ⊢
      refine ⟨?_, ?_, ?_⟩
      · by_cases hid : i < dense.length
        · rw [List.getElem_append_left hid]
          rw [setBlocks_notMem _ _ _ _ (disj _ (List.getElem_mem hid)), setBlocks_get dense b 0 nd i hid, Nat.zero_add]
        · have hi' : i - dense.length < sparse.length := by rw [List.length_append] at hi; omega
          rw [List.getElem_append_right (by omega), setBlocks_get sparse _ dense.length ns (i - dense.length) hi']
          congr 1; omega
      · by_cases hid : i < dense.length
        · rw [List.getElem_append_left hid]
          have := List.getElem_mem hid
          have hm : dense[i] ∈ act.filter fun d => !(e.marg d && schur) := this
          simp only [List.mem_filter, Bool.not_eq_true'] at hm
          exact ⟨fun _ => hm.2, fun _ => hid⟩
        · have hi' : i - dense.length < sparse.length := by rw [List.length_append] at hi; omega
          rw [List.getElem_append_right (by omega)]
          have hm : sparse[i - dense.length] ∈ act.filter fun d => e.marg d && schur := List.getElem_mem hi'
          simp only [List.mem_filter] at hm
          exact ⟨fun h => absurd h hid, fun h => by rw [hm.2] at h; cases h⟩
      · rw [hb (i + 1) hi, hb i (by omega), List.take_succ_eq_append_getElem (by simpa using hi), List.sum_append, List.getElem_map]
        simp only [List.sum_cons, List.sum_nil, Nat.add_zero, Nat.add_sub_cancel_left]
    · intro d hd
      simp only [List.mem_append, not_or] at hd
      dsimp only
      rw [setBlocks_notMem _ _ _ _ hd.2, setBlocks_notMem _ _ _ _ hd.1]
    · dsimp only; rw [List.length_append]; omega
    · dsimp only
      rw [hlen, hb _ le_rfl, List.take_of_length_le (by simp)]
    · dsimp only
      rw [htake, baseOf_take _ _ _ le_rfl, hb _ (by rw [List.length_append]; omega), List.map_take]
    · dsimp only
      rw [htake, baseOf_take _ _ _ le_rfl]
    · intro i hi
      dsimp only
      exact baseOf_take _ _ _ hi
    · intro t
      dsimp only
      rw [hterms.2 t]
      simp only [List.not_mem_nil, false_or]
      constructor
      · rintro ⟨d, hd, hm⟩
        have := (hge d t).1 hm
        exact ⟨this.1, d, this.2, (memall d).1 hd⟩
      · rintro ⟨ht, d, hd, hd'⟩
        exact ⟨d, (memall d).2 hd', (hge d t).2 ⟨ht, hd⟩⟩

theorem foldl_add_eq_sum {K : Type} [AddCommMonoid K] (l : List K) (a : K) : l.foldl (· + ·) a = a + l.sum := by
  induction l generalizing a with
  | nil => simp
  | cons x xs ih => rw [List.foldl_cons, ih, List.sum_cons, add_assoc]

/-- **C115** (cost; partial: a term that was added twice counts once, `C115_duplicate_counterexample`, and terms that are not squared are left out, `C115_nonsquared_counterexample`). The cost the
optimizer minimises differs from the sum of all squared error terms of the problem by a number that does not depend on the active variables: between two states that agree on all other variables,
both change by the same amount. -/
theorem C115_cost_partial {K V : Type} [AddCommGroup K] (debug : Bool) (w : World) (ops : List Op) (s : State) (h : Reach debug w ops s) (e : Env) (schur : Bool) (b : Nat → Int)
    (l : Layout) (hl : initOpt e schur s b = .ok l) (hd : s.ets.Nodup)
    (err : Nat → (Nat → V) → K) (hloc : ∀ t x y, (∀ d ∈ w.dvsOf t, x d = y d) → err t x = err t y)
    (x y : Nat → V) (hxy : ∀ d, ¬ (d ∈ s.dvs ∧ e.active d = true) → x d = y d) :
    cost err l x - cost err l y = (s.ets.map fun t => err t x).sum - (s.ets.map fun t => err t y).sum := by
  obtain ⟨_, _, hlay⟩ := C115_layout debug w ops s h e schur b
  obtain ⟨_, _, _, _, _, _, _, _, _, _, _, _, hn, hm⟩ := hlay l hl
  have key : ∀ z, cost err l z = ((s.ets.filter fun t => decide (∃ d ∈ w.dvsOf t, d ∈ s.dvs ∧ e.active d = true)).map fun t => err t z).sum := by
    intro z
    unfold cost
    rw [foldl_add_eq_sum, zero_add]
    refine List.Perm.sum_eq (List.Perm.map _ ?_)
    rw [List.perm_ext_iff_of_nodup hn (hd.filter _)]
    intro t
    rw [hm t, List.mem_filter, decide_eq_true_eq]
  rw [key x, key y]
  clear key hm hn hlay hl hd h
  induction s.ets with
  | nil => simp
  | cons t ts ih =>
    by_cases hp : ∃ d ∈ w.dvsOf t, d ∈ s.dvs ∧ e.active d = true
    · rw [List.filter_cons_of_pos (by simpa using hp)]
      simp only [List.map_cons, List.sum_cons]
      rw [add_sub_add_comm, add_sub_add_comm, ih]
    · rw [List.filter_cons_of_neg (by simpa using hp)]
      simp only [List.map_cons, List.sum_cons]
      rw [ih, hloc t x y (fun d hd => hxy d fun hc => hp ⟨d, hd, hc⟩)]
      abel

/-- A world with terms 5 (on variables 0 and 1), 6 (on variable 2) and 7 (on 0), used in examples. -/
def demoWorld : World := ⟨fun t => if t = 5 then [0, 1] else if t = 6 then [2] else [0], fun _ => [0], fun _ => true⟩

/-- A problem with three variables and two terms. -/
theorem demoReach : Reach true demoWorld [.addDV 0, .addDV 1, .addDV 2, .addET 5, .addET 6] ⟨[0, 1, 2], [5, 6], [], [(0, 5), (1, 5), (2, 6)], [], []⟩ :=
  (((((Reach.init.step (o := .addDV 0) rfl (by simp)).step (o := .addDV 1) rfl (by simp)).step (o := .addDV 2) rfl (by simp)).step (o := .addET 5) rfl (by intros; rfl)).step
    (o := .addET 6) rfl (by intros; rfl))

/-- With variable 0 marginalised and variable 2 switched off, the optimizer works on 1 and 0 in this order, and on term 5. -/
example : ∃ l, initOpt ⟨fun d => d != 2, fun d => d == 0, fun d => d + 1⟩ true ⟨[0, 1, 2], [5, 6], [], [(0, 5), (1, 5), (2, 6)], [], []⟩ (fun _ => -1) = .ok l ∧
    l.dvs = [1, 0] ∧ l.start = 1 ∧ l.terms = [5] ∧ l.hBlocks = [2, 3] ∧ l.block 2 = -1 := ⟨_, rfl, rfl, rfl, rfl, rfl, rfl⟩

/-- **C115** (negation). A term that was added twice is enumerated twice by the problem but counts once in the cost. -/
theorem C115_duplicate_counterexample : ∃ (s : State) (l : Layout), Reach true demoWorld [.addDV 0, .addET 7, .addET 7] s ∧
    initOpt ⟨fun _ => true, fun _ => false, fun _ => 1⟩ true s (fun _ => -1) = .ok l ∧ s.ets = [7, 7] ∧ l.terms = [7] :=
  ⟨_, _, ((Reach.init.step (o := .addDV 0) rfl (by simp)).step (o := .addET 7) rfl (by intros; rfl)).step (o := .addET 7) rfl (by intros; rfl), rfl, rfl, rfl⟩

/-- **C115** (negation). A non-squared error term on an active variable is not among the terms of the optimizer, and nothing is thrown. -/
theorem C115_nonsquared_counterexample : ∃ (s : State) (l : Layout), Reach true demoWorld [.addDV 0, .addNS 9] s ∧
    initOpt ⟨fun _ => true, fun _ => false, fun _ => 1⟩ true s (fun _ => -1) = .ok l ∧ s.ns = [9] ∧ l.terms = [] :=
  ⟨_, _, (Reach.init.step (o := .addDV 0) rfl (by simp)).step (o := .addNS 9) rfl (by intros; rfl), rfl, rfl, rfl⟩

/-- **C115** (negation). Block indices do not identify the variables of the problem: after variable 0 has been switched off and `initialize` is called again, variables 0 and 1 have the same one. -/
theorem C115_stale_index_counterexample : ∃ (s : State) (l1 l2 : Layout), Reach true demoWorld [.addDV 0, .addDV 1, .addET 5] s ∧
    initOpt ⟨fun _ => true, fun _ => false, fun _ => 1⟩ true s (fun _ => -1) = .ok l1 ∧
    initOpt ⟨fun d => d != 0, fun _ => false, fun _ => 1⟩ true s l1.block = .ok l2 ∧ l2.block 0 = 0 ∧ l2.block 1 = 0 :=
  ⟨_, _, _, ((Reach.init.step (o := .addDV 0) rfl (by simp)).step (o := .addDV 1) rfl (by simp)).step (o := .addET 5) rfl (by intros; rfl), rfl, rfl, rfl, rfl⟩

end Verif.LegacyInit
