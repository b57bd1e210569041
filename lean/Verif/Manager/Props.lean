import Verif.Manager.Model
import Verif.CCM.Build
import Verif.Hessian.Props
import Mathlib.Data.List.Nodup

/-! Property theorems C20 to C22. -/
namespace Verif.Manager
open Verif.MatrixStack Verif.Jacobian Verif.Jacobian.Spec

variable {R S : Type}

/-! ### C20 -/

/-- Sum of the dimensions of the first `i` variables of a list. -/
def base (w : World R S) (l : List Nat) (i : Nat) : Nat := ((l.take i).map fun d => (w.dv d).kind.dim).sum

theorem modify_same (w : World R S) (d : Nat) (f : DVar R S → DVar R S) : (w.modify d f).dv d = f (w.dv d) := by
  simp [World.modify]

theorem modify_other (w : World R S) (d x : Nat) (f : DVar R S → DVar R S) (h : x ≠ d) : (w.modify d f).dv x = w.dv x := by
  simp [World.modify, h]

theorem assignDvs_spec (l : List Nat) (hn : l.Nodup) (w : World R S) (i0 n0 : Nat) :
    (assignDvs w l i0 n0).2 = n0 + base w l l.length ∧
    (assignDvs w l i0 n0).1.rowBase = w.rowBase ∧
    (∀ x, x ∉ l → (assignDvs w l i0 n0).1.dv x = w.dv x) ∧
    (∀ i (hi : i < l.length), (assignDvs w l i0 n0).1.dv l[i] =
      { w.dv l[i] with block := ((i0 + i : Nat) : Int), colBase := ((n0 + base w l i : Nat) : Int) }) := by
  induction l generalizing w i0 n0 with
  | nil => simp [assignDvs, base]
  | cons d ds ih =>
    rw [List.nodup_cons] at hn
    simp only [assignDvs]
    set w1 := w.modify d fun v => { v with block := i0, colBase := n0 } with hw1
    have hk : ∀ x, (w1.dv x).kind = (w.dv x).kind := by
      intro x
      by_cases h : x = d
      · subst h; rw [hw1, modify_same]
      · rw [hw1, modify_other _ _ _ _ h]
    have hb : ∀ j, base w1 ds j = base w ds j := by
      intro j; unfold base; simp only [hk]
    obtain ⟨h1, h2, h3, h4⟩ := ih hn.2 w1 (i0 + 1) (n0 + (w.dv d).kind.dim)
    have hbs : ∀ j, base w (d :: ds) (j + 1) = (w.dv d).kind.dim + base w ds j := by
      intro j; simp [base]
    refine ⟨?_, ?_, ?_, ?_⟩
    · rw [h1, hb, List.length_cons, hbs]; omega
    · rw [h2]; rfl
    · intro x hx
      rw [h3 x (fun h => hx (List.mem_cons_of_mem _ h)), hw1, modify_other]
      rintro rfl; exact hx List.mem_cons_self
    · intro i hi
      cases i with
      | zero =>
        simp only [List.getElem_cons_zero]
        rw [h3 d hn.1, hw1, modify_same]
        simp [base]
      | succ i =>
        have hi' : i < ds.length := by simpa using hi
        simp only [List.getElem_cons_succ]
        rw [h4 i hi', hb, hbs]
        have hne : ds[i] ≠ d := by rintro h; exact hn.1 (h ▸ List.getElem_mem hi')
        rw [hw1, modify_other _ _ _ _ hne]
        rw [show i0 + 1 + i = i0 + (i + 1) by omega, Nat.add_assoc]

/-- Consecutive ranges of the given lengths cover an initial segment. -/
theorem ranges_cover (l : List Nat) (n0 : Nat) :
    ((List.range l.length).flatMap fun i => List.range' (n0 + (l.take i).sum) (l.getD i 0)) = List.range' n0 l.sum := by
  induction l generalizing n0 with
  | nil => simp
  | cons k l ih =>
    rw [List.length_cons, List.range_succ_eq_map, List.flatMap_cons, List.flatMap_map]
    have := ih (n0 + k)
    simp only [List.take_zero, List.sum_nil, Nat.add_zero, List.getD_cons_zero, List.take_succ_cons, List.sum_cons,
      Nat.succ_eq_add_one, List.getD_cons_succ, ← Nat.add_assoc] at this ⊢
    rw [this, List.range'_append_1]

theorem assignRows_spec (l : List (Nat × Nat)) (hn : (l.map Prod.fst).Nodup) (rb : Nat → Nat) (n0 : Nat) :
    (assignRows rb l n0).2 = n0 + (l.map Prod.snd).sum ∧
    (∀ x, x ∉ l.map Prod.fst → (assignRows rb l n0).1 x = rb x) ∧
    (∀ i (hi : i < l.length), (assignRows rb l n0).1 l[i].1 = n0 + ((l.take i).map Prod.snd).sum) := by
  induction l generalizing rb n0 with
  | nil => simp [assignRows]
  | cons p l ih =>
    obtain ⟨e, k⟩ := p
    simp only [List.map_cons, List.nodup_cons] at hn
    obtain ⟨h1, h2, h3⟩ := ih hn.2 (fun x => if x = e then n0 else rb x) (n0 + k)
    simp only [assignRows]
    refine ⟨by rw [h1]; simp; omega, ?_, ?_⟩
    · intro x hx
      simp only [List.map_cons, List.mem_cons, not_or] at hx
      rw [h2 x hx.2, if_neg hx.1]
    · intro i hi
      cases i with
      | zero => simp only [List.getElem_cons_zero]; rw [h2 e hn.1]; simp
      | succ i =>
        simp only [List.getElem_cons_succ, List.take_succ_cons, List.map_cons, List.sum_cons]
        rw [h3 i (by simpa using hi)]; omega

/-- What `initialize` promises: the active variables in problem order; consecutive block indices; column
ranges `[colBase, colBase + dim)` which, read in order, enumerate `0, ..., numOpt-1`; likewise for the rows
of the squared error terms; nothing else about any design variable or error term changes. -/
structure Layout (w w' : World R S) (p : Problem) (m : Manager R) : Prop where
  dvs : m.dvs = p.dvs.filter fun d => (w.dv d).active
  block : ∀ i (hi : i < m.dvs.length), (w'.dv m.dvs[i]).block = i
  nonneg : ∀ d ∈ m.dvs, 0 ≤ (w'.dv d).colBase
  cover : (m.dvs.flatMap fun d => List.range' (w'.dv d).colBase.toNat (w'.dv d).kind.dim) = List.range m.numOpt
  same : ∀ d, w'.dv d = { w.dv d with block := (w'.dv d).block, colBase := (w'.dv d).colBase }
  others : ∀ d, d ∉ m.dvs → w'.dv d = w.dv d
  rows : (p.sq.flatMap fun e => List.range' (w'.rowBase e.1) e.2) = List.range m.dimS
  otherRows : ∀ e, e ∉ p.sq.map Prod.fst → w'.rowBase e = w.rowBase e
  terms : m.ns = p.ns ∧ m.sq = p.sq.map Prod.fst ∧ m.numTerms = p.ns.length + p.sq.length

theorem filter_nodup {p : Problem} (h : p.dvs.Nodup) (f : Nat → Bool) : (p.dvs.filter f).Nodup := h.filter _

/-- **C20.** For every problem without repeated design variables and error terms that has an active design
variable and an error term, `initialize` succeeds and produces the layout above, whatever indices the
variables had before. Without active variables or without error terms it throws. (Part: inactive variables
keep their old indices instead of -1, see the counterexample.) -/
theorem C20_layout_partial (w : World R S) (p : Problem) (m : Manager R) (hd : p.dvs.Nodup)
    (hs : (p.sq.map Prod.fst).Nodup) :
    ((∃ d ∈ p.dvs, (w.dv d).active = true) → (p.ns ≠ [] ∨ p.sq ≠ []) →
      ∃ w' m', initLayout w p m = .ok (w', m') ∧ Layout w w' p m') ∧
    (¬ ((∃ d ∈ p.dvs, (w.dv d).active = true) ∧ (p.ns ≠ [] ∨ p.sq ≠ [])) → initLayout w p m = .exc) := by
  constructor
  · rintro ⟨d, hdm, hda⟩ he
    have hne : (p.dvs.filter fun d => (w.dv d).active) ≠ [] := List.ne_nil_of_mem (List.mem_filter.2 ⟨hdm, hda⟩)
    have he' : ¬ (p.ns = [] ∧ p.sq = []) := by
      rintro ⟨h1, h2⟩; rcases he with h | h
      · exact h h1
      · exact h h2
    set act := p.dvs.filter fun d => (w.dv d).active with hact
    have hnd : act.Nodup := filter_nodup hd _
    obtain ⟨a1, a2, a3, a4⟩ := assignDvs_spec act hnd w 0 0
    obtain ⟨b1, b2, b3⟩ := assignRows_spec p.sq hs (assignDvs w act 0 0).1.rowBase 0
    refine ⟨{ (assignDvs w act 0 0).1 with rowBase := (assignRows (assignDvs w act 0 0).1.rowBase p.sq 0).1 },
      { m with dvs := act, ns := p.ns, sq := p.sq.map Prod.fst, numOpt := (assignDvs w act 0 0).2, dimS := (assignRows (assignDvs w act 0 0).1.rowBase p.sq 0).2, numTerms := p.ns.length + p.sq.length }, ?_, ?_⟩
    · simp only [initLayout]
      rw [← hact, if_neg hne, if_neg he']
    · simp only [Nat.zero_add] at a1 a4 b1 b3
      refine ⟨rfl, ?_, ?_, ?_, ?_, a3, ?_, ?_, rfl, rfl, rfl⟩
      · intro i hi
        show ((assignDvs w act 0 0).1.dv act[i]).block = _
        rw [a4 i hi]
      · intro d hdm
        obtain ⟨i, hi, rfl⟩ := List.getElem_of_mem hdm
        show 0 ≤ ((assignDvs w act 0 0).1.dv act[i]).colBase
        rw [a4 i hi]
        exact Int.natCast_nonneg _
      · have h0 := ranges_cover (act.map fun d => (w.dv d).kind.dim) 0
        show (act.flatMap fun d => List.range' ((assignDvs w act 0 0).1.dv d).colBase.toNat
          ((assignDvs w act 0 0).1.dv d).kind.dim) = List.range (assignDvs w act 0 0).2
        rw [a1, List.range_eq_range']
        have hb : base w act act.length = (act.map fun d => (w.dv d).kind.dim).sum := by
          unfold base; rw [List.take_length]
        rw [hb, ← h0]
        have h1 : act = (List.range act.length).map fun i => act.getD i 0 := by
          apply List.ext_getElem
          · simp
          · intro i h1 h2
            simp [List.getD_eq_getElem?_getD, h1]
        conv_lhs => rw [h1]
        rw [List.flatMap_map, List.length_map]
        apply List.flatMap_congr
        intro i hi
        have hi' := List.mem_range.1 hi
        have e1 : act.getD i 0 = act[i] := by simp [List.getD_eq_getElem?_getD, hi']
        rw [e1, ← h1, a4 i hi']
        simp only [Int.toNat_natCast, base, Nat.zero_add, List.map_take]
        congr 1
        simp [List.getD_eq_getElem?_getD, hi']
      · intro d
        by_cases hdm : d ∈ act
        · obtain ⟨i, hi, rfl⟩ := List.getElem_of_mem hdm
          show (assignDvs w act 0 0).1.dv act[i] = { w.dv act[i] with
            block := ((assignDvs w act 0 0).1.dv act[i]).block
            colBase := ((assignDvs w act 0 0).1.dv act[i]).colBase }
          rw [a4 i hi]
        · show (assignDvs w act 0 0).1.dv d = { w.dv d with
            block := ((assignDvs w act 0 0).1.dv d).block
            colBase := ((assignDvs w act 0 0).1.dv d).colBase }
          rw [a3 d hdm]
      · have h0 := ranges_cover (p.sq.map Prod.snd) 0
        show (p.sq.flatMap fun e => List.range' ((assignRows (assignDvs w act 0 0).1.rowBase p.sq 0).1 e.1) e.2) =
          List.range (assignRows (assignDvs w act 0 0).1.rowBase p.sq 0).2
        rw [b1, List.range_eq_range', ← h0]
        have h1 : p.sq = (List.range p.sq.length).map fun i => p.sq.getD i (0, 0) := by
          apply List.ext_getElem
          · simp
          · intro i h1 h2
            simp [List.getD_eq_getElem?_getD, h1]
        conv_lhs => rw [h1]
        rw [List.flatMap_map, List.length_map]
        apply List.flatMap_congr
        intro i hi
        have hi' := List.mem_range.1 hi
        have e1 : p.sq.getD i (0, 0) = p.sq[i] := by simp [List.getD_eq_getElem?_getD, hi']
        rw [e1]
        have e2 : (List.range p.sq.length).map (fun i => p.sq.getD i (0, 0)) = p.sq := h1.symm
        rw [e2, b3 i hi']
        simp only [Nat.zero_add, List.map_take]
        congr 1
        simp [List.getD_eq_getElem?_getD, hi']
      · intro e he
        show (assignRows (assignDvs w act 0 0).1.rowBase p.sq 0).1 e = _
        rw [b2 e he, a2]
  · intro h
    by_cases h1 : (p.dvs.filter fun d => (w.dv d).active) = []
    · simp only [initLayout]; rw [if_pos h1]
    · have h2 : p.ns = [] ∧ p.sq = [] := by
        by_contra hc
        apply h
        obtain ⟨d, hd⟩ := List.exists_mem_of_ne_nil _ h1
        refine ⟨⟨d, (List.mem_filter.1 hd).1, (List.mem_filter.1 hd).2⟩, ?_⟩
        by_contra hn
        apply hc
        simpa [not_or] using hn
      simp only [initLayout]
      rw [if_neg h1, if_pos h2]

theorem cover_mem {w' : World R S} {l : List Nat} {n : Nat}
    (h : (l.flatMap fun d => List.range' (w'.dv d).colBase.toNat (w'.dv d).kind.dim) = List.range n)
    {d k : Nat} (hd : d ∈ l) (hk : k < (w'.dv d).kind.dim) : (w'.dv d).colBase.toNat + k < n := by
  have : (w'.dv d).colBase.toNat + k ∈ List.range n := by
    rw [← h, List.mem_flatMap]
    exact ⟨d, hd, by rw [List.mem_range'_1]; omega⟩
  exact List.mem_range.1 this

theorem base_mono (w : World R S) (l : List Nat) {i j : Nat} (hij : i ≤ j) : base w l i ≤ base w l j := by
  obtain ⟨k, rfl⟩ := Nat.exists_eq_add_of_le hij
  unfold base
  rw [List.take_add, List.map_append, List.sum_append]
  omega

/-- Column bases are prefix sums of the dimensions. -/
theorem initLayout_base (w : World R S) (p : Problem) (m : Manager R) (hd : p.dvs.Nodup) (w' : World R S)
    (m' : Manager R) (h : initLayout w p m = .ok (w', m')) (hkind : ∀ d, (w'.dv d).kind = (w.dv d).kind) :
    ∀ i (hi : i < m'.dvs.length), (w'.dv m'.dvs[i]).colBase = ((base w' m'.dvs i : Nat) : Int) := by
  simp only [initLayout] at h
  split at h
  · cases h
  split at h
  · cases h
  obtain ⟨a1, a2, a3, a4⟩ := assignDvs_spec (p.dvs.filter fun d => (w.dv d).active) (filter_nodup hd _) w 0 0
  have hb : ∀ l i, base w' l i = base w l i := by
    intro l i; unfold base; simp only [hkind]
  cases h
  intro i hi
  have := a4 i hi
  simp only [Nat.zero_add] at this
  rw [hb]
  show ((assignDvs w _ 0 0).1.dv _).colBase = _
  rw [this]

/-- The layout is what the other components rely on: if every active design variable belongs to the problem,
the indices after `initialize` satisfy the hypotheses of the theorems about Jacobian containers (C04-C06),
Hessian assembly (C07) and the compressed-column Jacobian (C16). -/
theorem C20_layout_supports_solvers [CommRing R] (w : World R S) (p : Problem) (m : Manager R) (hd : p.dvs.Nodup)
    (hs : (p.sq.map Prod.fst).Nodup) (hall : ∀ d, (w.dv d).active = true → d ∈ p.dvs) (w' : World R S)
    (m' : Manager R) (h : initLayout w p m = .ok (w', m')) :
    EnvOk w'.env ∧ ColumnsOk w'.env m'.numOpt ∧ Hessian.Indexed w'.env m'.dvs ∧ CCM.ColumnLayout w'.env m'.numOpt := by
  obtain ⟨g1, g2⟩ := C20_layout_partial w p m hd hs
  have hok : (∃ d ∈ p.dvs, (w.dv d).active = true) ∧ (p.ns ≠ [] ∨ p.sq ≠ []) := by
    by_contra hc
    rw [g2 hc] at h
    cases h
  obtain ⟨w1, m1, e, L⟩ := g1 hok.1 hok.2
  rw [e] at h
  cases h
  have hact : ∀ d, w'.env.active d = true → d ∈ m'.dvs := by
    intro d hda
    have : (w.dv d).active = true := by
      have h1 : (w'.dv d).active = true := hda
      rw [L.same d] at h1
      exact h1
    rw [L.dvs]
    exact List.mem_filter.2 ⟨hall d this, this⟩
  have hidx : ∀ d, w'.env.active d = true → ∃ i, ∃ hi : i < m'.dvs.length, m'.dvs[i] = d := fun d hda =>
    List.getElem_of_mem (hact d hda)
  have hix : Hessian.Indexed w'.env m'.dvs := by
    constructor
    · intro i hi
      have e1 : m'.dvs.getD i 0 = m'.dvs[i] := by simp [List.getD_eq_getElem?_getD, hi]
      rw [e1]
      exact L.block i hi
    · intro d hda
      obtain ⟨i, hi, rfl⟩ := hidx d hda
      exact ⟨i, hi, by simp [List.getD_eq_getElem?_getD, hi]⟩
  have hpre := initLayout_base w p m hd w' m' e (fun d => by rw [L.same d])
  have hmono : ∀ i j, i ≤ j → base w' m'.dvs i ≤ base w' m'.dvs j := by
    intro i j hij
    unfold base
    rw [← Nat.add_sub_cancel' hij, List.take_add, List.map_append, List.sum_append]
    omega
  have hstep : ∀ i (hi : i < m'.dvs.length), base w' m'.dvs (i + 1) = base w' m'.dvs i + (w'.dv m'.dvs[i]).kind.dim := by
    intro i hi
    unfold base
    rw [List.take_succ_eq_append_getElem hi, List.map_append, List.sum_append]
    simp
  have htot : base w' m'.dvs m'.dvs.length = m'.numOpt := by
    have := congrArg List.length L.cover
    rw [List.length_range, List.length_flatMap] at this
    rw [← this]
    unfold base
    rw [List.take_length]
    congr 1
    simp
  have hfit : ∀ d, w'.env.active d = true → w'.env.columnBase d + w'.env.dim d ≤ m'.numOpt := by
    intro d hda
    obtain ⟨i, hi, rfl⟩ := hidx d hda
    have h1 := hpre i hi
    have h2 := hstep i hi
    have h3 := hmono (i + 1) m'.dvs.length (by omega)
    show (w'.dv m'.dvs[i]).colBase + ((w'.dv m'.dvs[i]).kind.dim : Int) ≤ _
    omega
  have hnn : ∀ d, w'.env.active d = true → 0 ≤ w'.env.columnBase d := fun d hda => L.nonneg d (hact d hda)
  have hordered : ∀ d d', w'.env.active d = true → w'.env.active d' = true → w'.env.blockIndex d < w'.env.blockIndex d' →
      w'.env.columnBase d + w'.env.dim d ≤ w'.env.columnBase d' := by
    intro d d' hda hda' hlt
    obtain ⟨i, hi, rfl⟩ := hidx d hda
    obtain ⟨j, hj, rfl⟩ := hidx d' hda'
    have b1 : (w'.dv m'.dvs[i]).block < (w'.dv m'.dvs[j]).block := hlt
    rw [L.block i hi, L.block j hj] at b1
    have h1 := hpre i hi
    have h2 := hstep i hi
    have h3 := hmono (i + 1) j (by omega)
    have h4 := hpre j hj
    show (w'.dv m'.dvs[i]).colBase + ((w'.dv m'.dvs[i]).kind.dim : Int) ≤ (w'.dv m'.dvs[j]).colBase
    omega
  refine ⟨hix.envOk, ⟨hnn, hfit, ?_⟩, hix, ⟨hix.envOk.nonneg, hnn, hfit, hordered, hix.envOk.inj⟩⟩
  intro d d' hda hda' hne
  have hb : w'.env.blockIndex d ≠ w'.env.blockIndex d' := fun h => hne (hix.envOk.inj d d' hda hda' h)
  rcases Int.lt_or_gt_of_ne hb with h | h
  · exact .inl (hordered d d' hda hda' h)
  · exact .inr (hordered d' d hda' hda h)

/-- A real-vector design variable: the state is the value and the previous value. -/
def vecKind (n : Nat) : Kind Int (List Int × List Int) where
  dim := n
  update s d := (List.zipWith (· + ·) s.1 d, s.1)
  revert s := (s.2, s.2)
  get s := ⟨n, 1, s.1⟩
  set s p := (p.data, s.1)

/-- Three variables of dimensions 1, 2, 3; the second inactive with block index 0 from an earlier run. -/
def demoWorld : World Int (List Int × List Int) where
  dv d := { kind := vecKind (d + 1), state := (List.replicate (d + 1) d, []), active := d == 0 || d == 2,
            block := if d = 1 then 0 else -1, colBase := if d = 1 then 0 else -1, scaling := 2 }
  rowBase _ := 0

def demoProblem : Problem := ⟨[0, 1, 2], [7], [(3, 2), (4, 1)]⟩

/-- What is missing from `C20_layout_partial`: an inactive design variable that took part in an earlier
run keeps its old block index and column base, which now belong to another variable. -/
theorem C20_inactive_keeps_index_counterexample :
    ∃ w' m', initLayout demoWorld demoProblem ⟨[], [], [], 0, 0, 0, []⟩ = .ok (w', m') ∧
      (w'.dv 1).active = false ∧ (w'.dv 1).block = 0 ∧ (w'.dv 1).colBase = 0 ∧
      (w'.dv 0).active = true ∧ (w'.dv 0).block = 0 ∧ (w'.dv 0).colBase = 0 :=
  ⟨_, _, rfl, rfl, rfl, rfl, rfl, rfl, rfl⟩

example : demoProblem.dvs.Nodup ∧ (demoProblem.sq.map Prod.fst).Nodup ∧
    (∃ d ∈ demoProblem.dvs, (demoWorld.dv d).active = true) ∧
    (∀ d, (demoWorld.dv d).active = true → d ∈ demoProblem.dvs) ∧
    ∃ w' m', initLayout demoWorld demoProblem ⟨[], [], [], 0, 0, 0, []⟩ = .ok (w', m') ∧
      m'.numOpt = 4 ∧ m'.dimS = 3 ∧ (w'.dv 2).colBase = 1 := by
  refine ⟨by decide, by decide, ⟨2, by decide, rfl⟩, ?_, _, _, rfl, rfl, rfl, rfl⟩
  intro d h
  have : d = 0 ∨ d = 2 := by simpa [demoWorld] using h
  rcases this with rfl | rfl <;> decide

/-! ### C21 -/

/-- The contract of a design variable class that revert relies on (proved for the concrete classes in
C63): reverting right after an update with a step of the right length gives the old parameters. -/
def Reverts (k : Kind R S) : Prop := ∀ s d, d.length = k.dim → k.get (k.revert (k.update s d)) = k.get s

/-- The variable with its state replaced. -/
def DVar.withState (v : DVar R S) (s : S) : DVar R S := { v with state := s }

theorem modify_rowBase (w : World R S) (d : Nat) (f : DVar R S → DVar R S) : (w.modify d f).rowBase = w.rowBase := rfl

theorem applyUpdate_spec [Mul R] (dx : List R) (l : List Nat) (hn : l.Nodup) (w : World R S) (s0 : Nat)
    (hlen : s0 + base w l l.length ≤ dx.length) :
    ∃ w', applyUpdate w dx l s0 = .ok w' ∧ w'.rowBase = w.rowBase ∧ (∀ x, x ∉ l → w'.dv x = w.dv x) ∧
      ∀ i (hi : i < l.length), w'.dv l[i] = (w.dv l[i]).withState ((w.dv l[i]).kind.update (w.dv l[i]).state
          (((dx.drop (s0 + base w l i)).take (w.dv l[i]).kind.dim).map fun x => x * (w.dv l[i]).scaling)) := by
  induction l generalizing w s0 with
  | nil => exact ⟨w, rfl, rfl, by simp, by simp⟩
  | cons d ds ih =>
    rw [List.nodup_cons] at hn
    have hbs : ∀ j, base w (d :: ds) (j + 1) = (w.dv d).kind.dim + base w ds j := by
      intro j; simp [base]
    rw [List.length_cons, hbs] at hlen
    simp only [applyUpdate]
    rw [if_neg (by omega)]
    change ∃ w', applyUpdate (w.modify d fun v => v.withState (v.kind.update v.state
      (((dx.drop s0).take (w.dv d).kind.dim).map fun x => x * (w.dv d).scaling))) dx ds _ = _ ∧ _
    set w1 := w.modify d fun v => v.withState (v.kind.update v.state
      (((dx.drop s0).take (w.dv d).kind.dim).map fun x => x * (w.dv d).scaling)) with hw1
    have hk : ∀ x, (w1.dv x).kind = (w.dv x).kind := by
      intro x
      by_cases h : x = d
      · subst h; rw [hw1, modify_same]; rfl
      · rw [hw1, modify_other _ _ _ _ h]
    have hb : ∀ j, base w1 ds j = base w ds j := by
      intro j; unfold base; simp only [hk]
    obtain ⟨w', e, h2, h3, h4⟩ := ih hn.2 w1 (s0 + (w.dv d).kind.dim) (by rw [hb]; omega)
    refine ⟨w', e, h2, ?_, ?_⟩
    · intro x hx
      rw [h3 x (fun h => hx (List.mem_cons_of_mem _ h)), hw1, modify_other]
      rintro rfl; exact hx List.mem_cons_self
    · intro i hi
      cases i with
      | zero =>
        simp only [List.getElem_cons_zero]
        rw [h3 d hn.1, hw1, modify_same]
        simp [base]
      | succ i =>
        have hi' : i < ds.length := by simpa using hi
        simp only [List.getElem_cons_succ]
        have hne : ds[i] ≠ d := by rintro h; exact hn.1 (h ▸ List.getElem_mem hi')
        rw [h4 i hi', hb, hbs, hw1, modify_other _ _ _ _ hne, Nat.add_assoc]

theorem revertAll_spec (l : List Nat) (hn : l.Nodup) (w : World R S) :
    (revertAll w l).rowBase = w.rowBase ∧ (∀ x, x ∉ l → (revertAll w l).dv x = w.dv x) ∧
      ∀ x ∈ l, (revertAll w l).dv x = { w.dv x with state := (w.dv x).kind.revert (w.dv x).state } := by
  induction l generalizing w with
  | nil => exact ⟨rfl, fun _ _ => rfl, by simp⟩
  | cons d ds ih =>
    rw [List.nodup_cons] at hn
    simp only [revertAll, List.foldl_cons]
    obtain ⟨h1, h2, h3⟩ := ih hn.2 (w.modify d fun v => { v with state := v.kind.revert v.state })
    simp only [revertAll] at h1 h2 h3
    refine ⟨by rw [h1]; rfl, ?_, ?_⟩
    · intro x hx
      simp only [List.mem_cons, not_or] at hx
      rw [h2 x hx.2, modify_other _ _ _ _ hx.1]
    · intro x hx
      by_cases hxd : x = d
      · subst hxd
        rw [h2 _ hn.1, modify_same]
      · have : x ∈ ds := by
          rcases List.mem_cons.1 hx with h | h
          · exact absurd h hxd
          · exact h
        rw [h3 x this, modify_other _ _ _ _ hxd]

/-- **C21.** After `initialize`, for every step vector of the right length and every state of the variables
(so every history before): the update changes only the active variables of the problem, each by its own
slice `dx[columnBase, columnBase + dim)` times its scaling; reverting afterwards gives every variable its
previous parameters and changes nothing else. -/
theorem C21_update_revert [Mul R] (w0 w : World R S) (p : Problem) (m0 m : Manager R) (hd : p.dvs.Nodup)
    (hs : (p.sq.map Prod.fst).Nodup) (hini : initLayout w0 p m0 = .ok (w, m))
    (st : Nat → S) (dx : List R) (hdx : dx.length = m.numOpt) (hrev : ∀ d ∈ m.dvs, Reverts (w.dv d).kind) :
    let v : World R S := { w with dv := fun d => { w.dv d with state := st d } }
    ∃ v', applyUpdate v dx m.dvs 0 = .ok v' ∧
      (∀ d, d ∉ m.dvs → v'.dv d = v.dv d) ∧
      (∀ d ∈ m.dvs, v'.dv d = (v.dv d).withState ((v.dv d).kind.update (v.dv d).state
        (((dx.drop (v.dv d).colBase.toNat).take (v.dv d).kind.dim).map fun x => x * (v.dv d).scaling))) ∧
      (∀ d, (((revertAll v' m.dvs).dv d).kind.get ((revertAll v' m.dvs).dv d).state = (v.dv d).kind.get (v.dv d).state) ∧
        (revertAll v' m.dvs).dv d = { v.dv d with state := ((revertAll v' m.dvs).dv d).state }) ∧
      (∀ d, d ∉ m.dvs → (revertAll v' m.dvs).dv d = v.dv d) := by
  obtain ⟨g1, g2⟩ := C20_layout_partial w0 p m0 hd hs
  have hok : (∃ d ∈ p.dvs, (w0.dv d).active = true) ∧ (p.ns ≠ [] ∨ p.sq ≠ []) := by
    by_contra hc
    rw [g2 hc] at hini
    cases hini
  obtain ⟨w1, m1, e, L⟩ := g1 hok.1 hok.2
  rw [e] at hini
  cases hini
  have hnd : m.dvs.Nodup := by rw [L.dvs]; exact filter_nodup hd _
  intro v
  have hbase : ∀ i, base v m.dvs i = base w m.dvs i := fun i => rfl
  have htot : base v m.dvs m.dvs.length = m.numOpt := by
    have := congrArg List.length L.cover
    rw [List.length_range, List.length_flatMap] at this
    rw [hbase, ← this]
    unfold base
    rw [List.take_length]
    congr 1
    simp
  have hpre : ∀ i (hi : i < m.dvs.length), (v.dv m.dvs[i]).colBase.toNat = base v m.dvs i := by
    intro i hi
    have := initLayout_base w0 p m0 hd w m e (fun d => by rw [L.same d]) i hi
    show (w.dv m.dvs[i]).colBase.toNat = _
    rw [this]
    rfl
  obtain ⟨v', e', h2, h3, h4⟩ := applyUpdate_spec dx m.dvs hnd v 0 (by omega)
  have hin : ∀ d ∈ m.dvs, v'.dv d = (v.dv d).withState ((v.dv d).kind.update (v.dv d).state
        (((dx.drop (v.dv d).colBase.toNat).take (v.dv d).kind.dim).map fun x => x * (v.dv d).scaling)) := by
    intro d hdm
    obtain ⟨i, hi, rfl⟩ := List.getElem_of_mem hdm
    rw [h4 i hi, hpre i hi, Nat.zero_add]
  obtain ⟨r1, r2, r3⟩ := revertAll_spec m.dvs hnd v'
  refine ⟨v', e', h3, hin, ?_, fun d hdn => by rw [r2 d hdn, h3 d hdn]⟩
  intro d
  by_cases hdm : d ∈ m.dvs
  · rw [r3 d hdm, hin d hdm]
    refine ⟨?_, rfl⟩
    apply hrev d hdm
    rw [List.length_map, List.length_take, List.length_drop]
    obtain ⟨i, hi, rfl⟩ := List.getElem_of_mem hdm
    rw [hpre i hi]
    have hstep : base v m.dvs (i + 1) = base v m.dvs i + (v.dv m.dvs[i]).kind.dim := by
      unfold base
      rw [List.take_succ_eq_append_getElem hi, List.map_append, List.sum_append]
      simp
    have hmono : base v m.dvs (i + 1) ≤ base v m.dvs m.dvs.length := base_mono _ _ hi
    have : (v.dv m.dvs[i]).kind = (w.dv m.dvs[i]).kind := rfl
    rw [this] at hstep ⊢
    omega
  · rw [r2 d hdm, h3 d hdm]
    exact ⟨rfl, rfl⟩

theorem vecKind_reverts (n : Nat) : Reverts (vecKind n) := fun _ _ _ => rfl

/-! ### C22 -/

/-- The contract of a design variable class that restoring relies on (C63): setting parameters that the
variable has reported makes it report them again. -/
def Restores (k : Kind R S) : Prop := ∀ s s', k.get (k.set s (k.get s')) = k.get s'

theorem restoreList_spec (l : List (Nat × PMat R)) (w : World R S) :
    (∀ x, (restoreList w l).dv x = { w.dv x with state := ((restoreList w l).dv x).state }) ∧
    (∀ x, x ∉ l.map Prod.fst → (restoreList w l).dv x = w.dv x) ∧
    (∀ x, x ∈ l.map Prod.fst → ∃ s q, (x, q) ∈ l ∧ ((restoreList w l).dv x).state = (w.dv x).kind.set s q) := by
  induction l generalizing w with
  | nil => exact ⟨fun _ => rfl, fun _ _ => rfl, by simp⟩
  | cons p l ih =>
    simp only [restoreList, List.foldl_cons]
    obtain ⟨h1, h2, h3⟩ := ih (w.modify p.1 fun v => { v with state := v.kind.set v.state p.2 })
    simp only [restoreList] at h1 h2 h3
    have hk : ∀ x, (w.modify p.1 fun v => { v with state := v.kind.set v.state p.2 }).dv x =
        { w.dv x with state := ((w.modify p.1 fun v => { v with state := v.kind.set v.state p.2 }).dv x).state } := by
      intro x
      by_cases h : x = p.1
      · subst h; rw [modify_same]
      · rw [modify_other _ _ _ _ h]
    refine ⟨?_, ?_, ?_⟩
    · intro x
      rw [h1 x, hk x]
    · intro x hx
      simp only [List.map_cons, List.mem_cons, not_or] at hx
      rw [h2 x hx.2, modify_other _ _ _ _ hx.1]
    · intro x hx
      by_cases hl : x ∈ l.map Prod.fst
      · obtain ⟨s, q, hq, e⟩ := h3 x hl
        refine ⟨s, q, List.mem_cons_of_mem _ hq, ?_⟩
        rw [e, hk x]
      · have hxp : x = p.1 := by
          rcases List.mem_cons.1 (by simpa using hx : x ∈ p.1 :: l.map Prod.fst) with h | h
          · exact h
          · exact absurd h hl
        subst hxp
        refine ⟨(w.dv p.1).state, p.2, List.mem_cons_self, ?_⟩
        rw [h2 _ hl, modify_same]

/-- **C22** (save and restore). Whatever happened to the states of the design variables in between (`st`
arbitrary), restoring brings back the saved parameters of every variable of the manager and leaves all
other variables and all flags and indices as they are. -/
theorem C22_save_restore (w : World R S) (m : Manager R) (hres : ∀ d ∈ m.dvs, Restores (w.dv d).kind) (st : Nat → S) :
    let v : World R S := { w with dv := fun d => { w.dv d with state := st d } }
    (∀ d ∈ m.dvs, ((restore v (save w m)).dv d).kind.get ((restore v (save w m)).dv d).state =
      (w.dv d).kind.get (w.dv d).state) ∧
    (∀ d, d ∉ m.dvs → (restore v (save w m)).dv d = v.dv d) ∧
    (∀ d, (restore v (save w m)).dv d = { v.dv d with state := ((restore v (save w m)).dv d).state }) := by
  intro v
  have hfst : ((save w m).saved.map Prod.fst) = m.dvs := by simp [save, Function.comp_def]
  obtain ⟨h1, h2, h3⟩ := restoreList_spec (save w m).saved v
  refine ⟨?_, ?_, h1⟩
  · intro d hd
    obtain ⟨s, q, hq, e⟩ := h3 d (by rw [hfst]; exact hd)
    obtain ⟨d', _, he⟩ := List.mem_map.1 hq
    cases he
    have hk : ((restore v (save w m)).dv d).kind = (w.dv d).kind := by
      unfold restore; rw [h1 d]
    rw [hk]
    unfold restore
    rw [e]
    exact hres d hd _ _
  · intro d hd
    exact h2 d (by rw [hfst]; exact hd)

/-- **C22** (`DesignVariableState`). Saving appends to what was saved before; restoring therefore gives each
variable the parameters of its *latest* save, also when the object is used several times. -/
theorem C22_state_helper_latest (w v : World R S) (st : List (Nat × PMat R)) (dvs : List Nat) (hn : dvs.Nodup)
    (hres : ∀ d ∈ dvs, Restores (w.dv d).kind) (hk : ∀ d, (v.dv d).kind = (w.dv d).kind) :
    ∀ d ∈ dvs, ((restoreList v (stateSave w st dvs)).dv d).kind.get ((restoreList v (stateSave w st dvs)).dv d).state =
      (w.dv d).kind.get (w.dv d).state := by
  intro d hd
  have happ : restoreList v (stateSave w st dvs) =
      restoreList (restoreList v st) (dvs.map fun d => (d, (w.dv d).kind.get (w.dv d).state)) := by
    simp [restoreList, stateSave, List.foldl_append]
  rw [happ]
  obtain ⟨a1, _, _⟩ := restoreList_spec st v
  obtain ⟨h1, h2, h3⟩ := restoreList_spec (dvs.map fun d => (d, (w.dv d).kind.get (w.dv d).state)) (restoreList v st)
  obtain ⟨s, q, hq, e⟩ := h3 d (by simpa [Function.comp_def] using hd)
  obtain ⟨d', _, he⟩ := List.mem_map.1 hq
  cases he
  have hk' : ((restoreList v st).dv d).kind = (w.dv d).kind := by rw [a1 d]; exact hk d
  rw [h1 d, e]
  simp only
  rw [hk']
  exact hres d hd _ _

theorem flattenLoop_ok (f : PMat R → List (Option R)) (min : Nat) (ps : List (PMat R))
    (hf : ∀ p ∈ ps, (f p).length = p.rows * p.cols) (done : List (Option R)) (v : List (Option R)) (cnt : Nat)
    (hc : cnt = done.length) (hv : v = done ++ List.replicate (min - done.length) none) :
    flattenLoop f min ps cnt v = .ok (done ++ ps.flatMap f ++
      List.replicate (min - (done.length + (ps.flatMap f).length)) none) := by
  induction ps generalizing done v cnt with
  | nil => simp [flattenLoop, hv]
  | cons p ps ih =>
    have hp := hf p List.mem_cons_self
    set d := p.rows * p.cols with hd
    have hres : (if min < cnt + d then resizeVec v (cnt + d) else v) =
        done ++ List.replicate (max min (cnt + d) - done.length) none := by
      split
      · rename_i h
        unfold resizeVec
        rw [hv, max_eq_right (by omega)]
        rw [List.take_of_length_le (by simp; omega), List.append_assoc, ← List.replicate_add]
        congr 2
        simp
        omega
      · rw [hv, max_eq_left (by omega)]
    have hset : setSegment (done ++ List.replicate (max min (cnt + d) - done.length) none) cnt (f p) =
        .ok ((done ++ f p) ++ List.replicate (min - (done ++ f p).length) none) := by
      unfold setSegment
      rw [if_neg (by simp [hp]; omega)]
      congr 1
      rw [hc, List.take_left', List.append_assoc, List.append_assoc]
      · congr 2
        rw [List.drop_append, List.drop_replicate, List.drop_eq_nil_of_le (by omega), List.nil_append]
        congr 1
        simp [hp]
        omega
      · rfl
    simp only [flattenLoop]
    rw [← hd, hres, hset, Res.bind_ok, ih (fun q hq => hf q (List.mem_cons_of_mem _ hq)) (done ++ f p) _ _
      (by simp [hp, hc]) rfl]
    congr 1
    simp only [List.flatMap_cons, List.append_assoc, List.length_append, Nat.add_assoc]

/-- A parameter matrix whose data has the right size. -/
def PMat.Valid (p : PMat R) : Prop := p.data.length = p.rows * p.cols

/-- **C22** (flattened parameters, helper in `utils`). For parameter matrices of any shape the result starts
with all parameters of all variables in order; it is exactly that list unless the parameters are fewer
than the minimal dimensions, in which case it is padded with uninitialised elements. -/
theorem C22_flatten_utils (w : World R S) (dvs : List Nat)
    (hv : ∀ d ∈ dvs, ((w.dv d).kind.get (w.dv d).state).Valid) :
    ∃ pad, flattenUtils w dvs = .ok ((dvs.flatMap fun d => ((w.dv d).kind.get (w.dv d).state).data).map some ++
        List.replicate pad none) ∧
      pad = (dvs.map fun d => (w.dv d).kind.dim).sum -
        (dvs.flatMap fun d => ((w.dv d).kind.get (w.dv d).state).data).length := by
  refine ⟨_, ?_, rfl⟩
  unfold flattenUtils
  simp only
  rw [flattenLoop_ok _ _ _ (by
    intro p hp
    obtain ⟨d, hd, rfl⟩ := List.mem_map.1 hp
    rw [List.length_map]; exact hv d hd) [] _ 0 rfl (by simp)]
  rw [List.flatMap_map]
  simp only [List.nil_append, List.length_nil, Nat.zero_add]
  congr 1
  rw [List.map_flatMap]
  congr 2
  rw [List.length_flatMap, List.length_flatMap]
  simp

/-- **C22** (flattened parameters, `ProblemManager`). If all parameter matrices are single columns the result
contains all parameters. (Part: it does not for matrices with more columns, see the counterexample.) -/
theorem C22_flatten_columns_partial (w : World R S) (dvs : List Nat)
    (hv : ∀ d ∈ dvs, ((w.dv d).kind.get (w.dv d).state).Valid)
    (hc : ∀ d ∈ dvs, ((w.dv d).kind.get (w.dv d).state).cols = 1) :
    flatten w dvs = flattenUtils w dvs := by
  have : ∀ p ∈ (dvs.map fun d => (w.dv d).kind.get (w.dv d).state), resizeColumn p = p.data.map some := by
    intro p hp
    obtain ⟨d, hd, rfl⟩ := List.mem_map.1 hp
    have h1 := hv d hd
    have h2 := hc d hd
    unfold PMat.Valid at h1
    rw [h2, Nat.mul_one] at h1
    unfold resizeColumn
    simp only [h2, Nat.mul_one, one_ne_zero, if_false, Nat.sub_self, List.replicate_zero, List.append_nil]
    rw [← h1, List.take_length]
  have key : ∀ (ps : List (PMat R)) (min cnt : Nat) (v : List (Option R)),
      (∀ p ∈ ps, resizeColumn p = p.data.map some) →
      flattenLoop resizeColumn min ps cnt v = flattenLoop (fun p => p.data.map some) min ps cnt v := by
    intro ps
    induction ps with
    | nil => intros; rfl
    | cons p ps ih =>
      intro min cnt v h
      simp only [flattenLoop]
      rw [h p List.mem_cons_self]
      cases setSegment (if min < cnt + p.rows * p.cols then resizeVec v (cnt + p.rows * p.cols) else v) cnt
        (p.data.map some) with
      | ok v' => simp only [Res.bind_ok]; exact ih _ _ _ fun q hq => h q (List.mem_cons_of_mem _ hq)
      | exc => rfl
      | ub => rfl
  exact key _ _ _ _ this

/-- A 2×2 matrix variable: the manager's flattened vector has two uninitialised elements in place of the
second column, the helper in `utils` has all four. -/
theorem C22_flatten_counterexample :
    let w : World Int (PMat Int) := ⟨fun _ => ⟨⟨4, fun s _ => s, fun s => s, fun s => s, fun _ p => p⟩,
      ⟨2, 2, [1, 2, 3, 4]⟩, true, 0, 0, 1⟩, fun _ => 0⟩
    flatten w [0] = .ok [some 1, some 2, none, none] ∧ flattenUtils w [0] = .ok [some 1, some 2, some 3, some 4] :=
  ⟨rfl, rfl⟩

theorem vecKind_restores (n : Nat) : Restores (vecKind n) := fun _ _ => rfl

example : ∀ d ∈ [0, 2], Reverts (demoWorld.dv d).kind ∧ Restores (demoWorld.dv d).kind ∧
    ((demoWorld.dv d).kind.get (demoWorld.dv d).state).Valid ∧ ((demoWorld.dv d).kind.get (demoWorld.dv d).state).cols = 1 := by
  intro d _
  refine ⟨vecKind_reverts _, vecKind_restores _, ?_, rfl⟩
  simp [PMat.Valid, demoWorld, vecKind]

end Verif.Manager
