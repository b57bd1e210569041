import Verif.PCG.Spec
import Verif.PCG.Abstract
import Verif.SBM.Algebra
import Verif.CCM.Assemble

/-! Helper lemmas for the conjugate gradient solver. -/
namespace Verif.PCG
open Verif.MatrixStack (DMat)
open Verif.SBM (SBM Layout WF axpy atxpy)

set_option linter.unusedSectionVars false

variable {K : Type} [Field K] [LinearOrder K]

/-! ### products -/

theorem multDiag_spec (debug : Bool) {L : Layout} (hL : L.Mono) (g : Nat → DMat K)
    (hg : ∀ c, c < L.n → (g c).rows = L.size c ∧ (g c).cols = L.size c) (src dest : Nat → K) (m : Nat)
    (hm : m ≤ L.n) :
    ∃ y, multDiag debug L.total L ((List.range m).map g) src dest = .ok y ∧
      (∀ c a, c < m → a < L.size c → y (L.base c + a) =
        ∑ t ∈ Finset.range (L.size c), (g c).e a t * src (L.base c + t)) := by
  induction m with
  | zero => exact ⟨dest, rfl, by simp⟩
  | succ m ih =>
    obtain ⟨y, hy, hy1⟩ := ih (by omega)
    have hb := Layout.base_add_size_le_total hL (r := m) (by omega)
    obtain ⟨g1, g2⟩ := hg m (by omega)
    refine ⟨fun i => if L.base m ≤ i ∧ i < L.base m + (g m).rows then
      ∑ t ∈ Finset.range (g m).cols, (g m).e (i - L.base m) t * src (L.base m + t) else y i, ?_, ?_⟩
    · unfold multDiag at hy ⊢
      rw [List.range_succ, List.map_append, List.zipIdx_append, CCM.run_append, hy]
      simp only [List.map_cons, List.map_nil, List.length_map, List.length_range, List.zipIdx_cons,
        List.zipIdx_nil, Res.run_cons, Res.run_nil, Res.bind_ok, zero_add]
      unfold axy
      rw [if_pos (by omega)]
      rfl
    · intro c a hc ha
      rcases Nat.lt_or_eq_of_le (Nat.lt_succ_iff.1 hc) with h | rfl
      · have h1 := Layout.base_add_size hL (r := c) (by omega)
        have h2 := Layout.base_le hL (r := c + 1) (s := m) (by omega) (by omega)
        simp only
        rw [if_neg (by omega)]
        exact hy1 c a h ha
      · simp only
        rw [if_pos (by omega), g2]
        simp

theorem above_eq {A : SBM K} (h : WF A) {c : Nat} (hc : c < A.cl.n) (hd : (A.block c c).isSome = true) :
    above A c = (A.col c).filter fun p => p.1 < c := by
  obtain ⟨B, hB⟩ := Option.isSome_iff_exists.1 hd
  have hm := (SBM.block_eq_some h hc).1 hB
  have hs := h.sorted c hc
  unfold above
  generalize A.col c = l at hm hs
  induction l with
  | nil => simp
  | cons p ps ih =>
    rw [List.pairwise_cons] at hs
    by_cases hp : p.1 = c
    · have : (ps.filter fun p => decide (p.1 < c)) = [] := by
        rw [List.filter_eq_nil_iff]
        intro q hq
        have := hs.1 q hq
        simp; omega
      simp [hp, this]
    · have hm' : (c, B) ∈ ps := by
        rcases List.mem_cons.1 hm with h | h
        · exact absurd (by rw [← h]) hp
        · exact h
      have hlt : p.1 < c := hs.1 _ hm'
      simp [hp, hlt, ih hm' hs.2]

/-- Blocks above the diagonal with their position. -/
def strict (A : SBM K) : List (Nat × Nat × DMat K) :=
  (List.range A.cl.n).flatMap fun c => (above A c).map fun p => (p.1, c, p.2)

theorem indicesOf_eq (A : SBM K) :
    indicesOf A = (strict A).map fun v => (A.rl.base v.1, A.cl.base v.2.1) := by
  simp [indicesOf, strict, List.map_flatMap, Function.comp_def]

theorem pointersOf_eq (id gen : Nat) (A : SBM K) :
    pointersOf id gen A = (strict A).map fun v => ⟨id, gen, v.1, v.2.1⟩ := by
  simp [pointersOf, strict, List.map_flatMap, Function.comp_def]

theorem strict_mem {A : SBM K} {v : Nat × Nat × DMat K} (hv : v ∈ strict A) :
    v.2.1 < A.cl.n ∧ (v.1, v.2.2) ∈ A.col v.2.1 := by
  simp only [strict, List.mem_flatMap, List.mem_range, List.mem_map] at hv
  obtain ⟨c, hc, p, hp, rfl⟩ := hv
  exact ⟨hc, (List.takeWhile_sublist _).mem hp⟩

theorem run_multStep (debug : Bool) {A : SBM K} (h : WF A) (hsq : A.rl.same A.cl = true) {hp : Heap K}
    {id gen : Nat} (hid : hp id = some ⟨gen, A⟩) (src : Nat → K) (vs : List (Nat × Nat × DMat K))
    (hvs : ∀ v ∈ vs, v.2.1 < A.cl.n ∧ (v.1, v.2.2) ∈ A.col v.2.1) (y : Nat → K) :
    Res.run (multStep debug A.cl.total hp src) y
      ((vs.map fun v => (A.rl.base v.1, A.cl.base v.2.1)).zip
        (vs.map fun v => (⟨id, gen, v.1, v.2.1⟩ : Ptr))) =
    .ok (vs.foldl (fun y v => atxpy v.2.2 src (A.rl.base v.1)
      (axpy v.2.2 src (A.cl.base v.2.1) y (A.rl.base v.1)) (A.cl.base v.2.1)) y) := by
  induction vs generalizing y with
  | nil => rfl
  | cons v vs ih =>
    obtain ⟨h1, h2⟩ := hvs v (by simp)
    obtain ⟨s0, s1, s2⟩ := h.shape _ h1 _ h2
    have hb := (SBM.block_eq_some h h1).2 h2
    have e1 := Layout.base_add_size_le_total h.rmono s0
    have e2 := Layout.base_add_size_le_total h.cmono h1
    rw [Layout.same_total hsq] at e1
    simp only at s1 s2 e1
    have hstep : multStep debug A.cl.total hp src y
        ((A.rl.base v.1, A.cl.base v.2.1), ⟨id, gen, v.1, v.2.1⟩) =
        .ok (atxpy v.2.2 src (A.rl.base v.1)
          (axpy v.2.2 src (A.cl.base v.2.1) y (A.rl.base v.1)) (A.cl.base v.2.1)) := by
      unfold multStep deref
      simp only [hid, if_true, hb]
      show (if _ then _ else _) = _
      rw [if_pos (by omega)]
    simp only [List.map_cons, List.zip_cons_cons, Res.run_cons, hstep, Res.bind_ok, List.foldl_cons]
    exact ih (fun v hv => hvs v (by simp [hv])) _

/-- Sum over the blocks above the diagonal. -/
theorem strict_sum {A : SBM K} (h : WF A) (hd : ∀ c, c < A.cl.n → (A.block c c).isSome = true)
    (f : Nat → Nat → DMat K → K) :
    ((strict A).map fun v => f v.1 v.2.1 v.2.2).sum =
      ∑ c ∈ Finset.range A.cl.n, ∑ r ∈ Finset.range A.rl.n,
        if r < c then (A.block r c).elim 0 (f r c) else 0 := by
  have hflat : ∀ m, m ≤ A.cl.n →
      (((List.range m).flatMap fun c => (above A c).map fun p => (p.1, c, p.2)).map
        fun v : Nat × Nat × DMat K => f v.1 v.2.1 v.2.2).sum =
      ∑ c ∈ Finset.range m, ∑ r ∈ Finset.range A.rl.n,
        if r < c then (A.block r c).elim 0 (f r c) else 0 := by
    intro m
    induction m with
    | zero => simp
    | succ m ih =>
      intro hm
      rw [List.range_succ, List.flatMap_append, List.map_append, List.sum_append, ih (by omega),
        Finset.sum_range_succ]
      congr 1
      simp only [List.flatMap_cons, List.flatMap_nil, List.append_nil, List.map_map, Function.comp_def]
      rw [above_eq h (by omega) (hd m (by omega))]
      have : ∀ l : List (Nat × DMat K), ((l.filter fun p => decide (p.1 < m)).map
          fun p => f p.1 m p.2).sum = (l.map fun p => if p.1 < m then f p.1 m p.2 else 0).sum := by
        intro l
        induction l with
        | nil => rfl
        | cons p ps ih =>
          by_cases hp : p.1 < m <;> simp [hp, ih]
      rw [this, SBM.col_sum h (c := m) (by omega) (fun r B => if r < m then f r m B else 0)]
      refine Finset.sum_congr rfl fun r _ => ?_
      by_cases hr : r < m
      · simp [hr]
      · cases A.block r m <;> simp [hr]
  exact hflat _ (le_refl _)

/-- The diagonal block of a column. -/
def dblk (A : SBM K) (c : Nat) : DMat K := (A.block c c).getD ⟨0, 0, fun _ _ => 0⟩

theorem diagOf_eq {A : SBM K} (hd : ∀ c, c < A.cl.n → (A.block c c).isSome = true) :
    diagOf A = (List.range A.cl.n).map (dblk A) := by
  have : ∀ m, m ≤ A.cl.n → ((List.range m).filterMap fun c => A.block c c) =
      (List.range m).map (dblk A) := by
    intro m
    induction m with
    | zero => simp
    | succ m ih =>
      intro hm
      obtain ⟨B, hB⟩ := Option.isSome_iff_exists.1 (hd m (by omega))
      rw [List.range_succ, List.filterMap_append, ih (by omega), List.map_append]
      simp [hB, dblk]
  exact this _ (le_refl _)

theorem dblk_spec {A : SBM K} {S : Nat → Nat → K} (h : Describes A S) {c : Nat} (hc : c < A.cl.n) :
    A.block c c = some (dblk A c) ∧ (dblk A c).rows = A.cl.size c ∧ (dblk A c).cols = A.cl.size c ∧
    ∀ a b, a < A.cl.size c → b < A.cl.size c → (dblk A c).e a b = S (A.cl.base c + a) (A.cl.base c + b) := by
  obtain ⟨B, hB⟩ := Option.isSome_iff_exists.1 (h.diag c hc)
  have hn := Layout.same_n h.square
  obtain ⟨h1, h2, h3⟩ := SBM.block_lt h.wf hc hB
  have hD : dblk A c = B := by simp [dblk, hB]
  have hsz := Layout.same_size h.square h1
  have hbs := Layout.same_base h.square h1.le
  rw [hD]
  refine ⟨hB, by rw [h2, hsz], h3, fun a b ha hb => ?_⟩
  have := h.upper c c (le_refl _) hc a b (by rw [hsz]; exact ha) hb
  rw [SBM.toDense_at h.wf h1 hc (by rw [hsz]; exact ha) hb, hbs] at this
  rw [← this, SBM.at, hB]

theorem mult_spec (debug : Bool) {A : SBM K} {S : Nat → Nat → K} (h : Describes A S) {hp : Heap K}
    {id gen : Nat} (hid : hp id = some ⟨gen, A⟩) {s : St K} (hs1 : s.indices = indicesOf A)
    (hs2 : s.sparse = pointersOf id gen A) (src dest : Nat → K) :
    ∃ y, mult debug A.cl.total A.cl hp (diagOf A) s src dest = .ok y ∧
      ∀ i, i < A.cl.total → y i = apply A.cl.total S src i := by
  have hn := Layout.same_n h.square
  have hbase : ∀ r, r ≤ A.cl.n → A.rl.base r = A.cl.base r := fun r hr =>
    Layout.same_base h.square (by omega)
  have hsize : ∀ r, r < A.cl.n → A.rl.size r = A.cl.size r := fun r hr =>
    Layout.same_size h.square (by omega)
  obtain ⟨y0, e0, hy0⟩ := multDiag_spec debug h.wf.cmono (dblk A)
    (fun c hc => ⟨(dblk_spec h hc).2.1, (dblk_spec h hc).2.2.1⟩) src dest A.cl.n (le_refl _)
  have hrun : mult debug A.cl.total A.cl hp (diagOf A) s src dest =
      .ok ((strict A).foldl (fun y v => atxpy v.2.2 src (A.rl.base v.1)
        (axpy v.2.2 src (A.cl.base v.2.1) y (A.rl.base v.1)) (A.cl.base v.2.1)) y0) := by
    unfold mult
    rw [diagOf_eq h.diag, e0]
    show Res.run _ _ _ = _
    rw [hs1, hs2, indicesOf_eq, pointersOf_eq,
      run_multStep debug h.wf h.square hid src _ (fun v hv => strict_mem hv)]
  refine ⟨_, hrun, ?_⟩
  · intro i hi
    obtain ⟨r, hr, a, ha, rfl⟩ := Layout.locate h.wf.cmono hi
    have hr' : r < A.rl.n := by omega
    rw [SBM.foldl_add_sum _ (fun v i =>
      (if A.rl.base v.1 ≤ i ∧ i < A.rl.base v.1 + v.2.2.rows then
        ∑ t ∈ Finset.range v.2.2.cols, v.2.2.e (i - A.rl.base v.1) t * src (A.cl.base v.2.1 + t) else 0) +
      (if A.cl.base v.2.1 ≤ i ∧ i < A.cl.base v.2.1 + v.2.2.cols then
        ∑ t ∈ Finset.range v.2.2.rows, v.2.2.e t (i - A.cl.base v.2.1) * src (A.rl.base v.1 + t) else 0))
      (by
        intro y v i
        unfold atxpy axpy
        split <;> split <;> ring)]
    rw [hy0 r a hr ha]
    rw [strict_sum h.wf h.diag (fun r' c B =>
      (if A.rl.base r' ≤ A.cl.base r + a ∧ A.cl.base r + a < A.rl.base r' + B.rows then
        ∑ t ∈ Finset.range B.cols, B.e (A.cl.base r + a - A.rl.base r') t * src (A.cl.base c + t) else 0) +
      (if A.cl.base c ≤ A.cl.base r + a ∧ A.cl.base r + a < A.cl.base c + B.cols then
        ∑ t ∈ Finset.range B.rows, B.e t (A.cl.base r + a - A.cl.base c) * src (A.rl.base r' + t) else 0))]
    unfold apply
    rw [Layout.sum_blocks h.wf.cmono]
    -- the contribution of block `(r', c)` to row `r`
    have hterm : ∀ r' c, c < A.cl.n → r' < A.cl.n → r' < c →
        ((A.block r' c).elim 0 fun B =>
          (if A.rl.base r' ≤ A.cl.base r + a ∧ A.cl.base r + a < A.rl.base r' + B.rows then
            ∑ t ∈ Finset.range B.cols, B.e (A.cl.base r + a - A.rl.base r') t * src (A.cl.base c + t)
            else 0) +
          (if A.cl.base c ≤ A.cl.base r + a ∧ A.cl.base r + a < A.cl.base c + B.cols then
            ∑ t ∈ Finset.range B.rows, B.e t (A.cl.base r + a - A.cl.base c) * src (A.rl.base r' + t)
            else 0)) =
        (if r' = r then ∑ t ∈ Finset.range (A.cl.size c),
          S (A.cl.base r + a) (A.cl.base c + t) * src (A.cl.base c + t) else 0) +
        (if c = r then ∑ t ∈ Finset.range (A.cl.size r'),
          S (A.cl.base r + a) (A.cl.base r' + t) * src (A.cl.base r' + t) else 0) := by
      intro r' c hc hr1 hlt
      have hent : ∀ a b, a < A.cl.size r' → b < A.cl.size c →
          S (A.cl.base r' + a) (A.cl.base c + b) = (A.block r' c).elim 0 fun B => B.e a b := by
        intro a b ha hb
        have := h.upper r' c hlt.le hc a b (by rw [hsize r' hr1]; exact ha) hb
        rw [SBM.toDense_at h.wf (by omega) hc (by rw [hsize r' hr1]; exact ha) hb,
          hbase r' hr1.le, SBM.at_elim] at this
        exact this.symm
      have e1 := Layout.base_add_size_le_total h.wf.cmono hr
      have e2 := Layout.base_add_size_le_total h.wf.cmono hr1
      have e3 := Layout.base_add_size_le_total h.wf.cmono hc
      have etot := Layout.same_total h.square
      have S1 : (if r' = r then ∑ t ∈ Finset.range (A.cl.size c),
          S (A.cl.base r + a) (A.cl.base c + t) * src (A.cl.base c + t) else 0) =
          (if r' = r then ∑ t ∈ Finset.range (A.cl.size c),
          ((A.block r' c).elim 0 fun B => B.e a t) * src (A.cl.base c + t) else 0) := by
        split
        · rename_i he; subst he
          refine Finset.sum_congr rfl fun t ht => ?_
          rw [hent a t ha (by simpa using ht)]
        · rfl
      have S2 : (if c = r then ∑ t ∈ Finset.range (A.cl.size r'),
          S (A.cl.base r + a) (A.cl.base r' + t) * src (A.cl.base r' + t) else 0) =
          (if c = r then ∑ t ∈ Finset.range (A.cl.size r'),
          ((A.block r' c).elim 0 fun B => B.e t a) * src (A.cl.base r' + t) else 0) := by
        split
        · rename_i he; subst he
          refine Finset.sum_congr rfl fun t ht => ?_
          have ht' : t < A.cl.size r' := by simpa using ht
          rw [h.symm _ _ (by omega) (by omega), hent t a ht' ha]
        · rfl
      rw [S1, S2]
      cases hB : A.block r' c with
      | none => simp
      | some B =>
        obtain ⟨b1, b2, b3⟩ := SBM.block_lt h.wf hc hB
        rw [hsize r' hr1] at b2
        simp only [Option.elim, hbase r' hr1.le]
        have c1 : (A.cl.base r' ≤ A.cl.base r + a ∧ A.cl.base r + a < A.cl.base r' + B.rows) ↔ r' = r := by
          rw [b2]
          constructor
          · rintro ⟨h1, h2⟩
            exact Layout.unique h.wf.cmono hr1 hr h1 h2 (by omega) (by omega)
          · rintro rfl; omega
        have c2 : (A.cl.base c ≤ A.cl.base r + a ∧ A.cl.base r + a < A.cl.base c + B.cols) ↔ c = r := by
          rw [b3]
          constructor
          · rintro ⟨h1, h2⟩
            exact Layout.unique h.wf.cmono hc hr h1 h2 (by omega) (by omega)
          · rintro rfl; omega
        simp only [c1, c2]
        simp only [b2, b3]
        congr 1
        · split
          · rename_i he; subst he; simp
          · rfl
        · split
          · rename_i he; subst he; simp
          · rfl
    have hsum : (∑ c ∈ Finset.range A.cl.n, ∑ r' ∈ Finset.range A.rl.n,
        if r' < c then ((A.block r' c).elim 0 fun B =>
          (if A.rl.base r' ≤ A.cl.base r + a ∧ A.cl.base r + a < A.rl.base r' + B.rows then
            ∑ t ∈ Finset.range B.cols, B.e (A.cl.base r + a - A.rl.base r') t * src (A.cl.base c + t)
            else 0) +
          (if A.cl.base c ≤ A.cl.base r + a ∧ A.cl.base r + a < A.cl.base c + B.cols then
            ∑ t ∈ Finset.range B.rows, B.e t (A.cl.base r + a - A.cl.base c) * src (A.rl.base r' + t)
            else 0)) else 0) =
        ∑ c ∈ Finset.range A.cl.n, if c = r then 0 else ∑ t ∈ Finset.range (A.cl.size c),
          S (A.cl.base r + a) (A.cl.base c + t) * src (A.cl.base c + t) := by
      rw [hn]
      have : ∀ c ∈ Finset.range A.cl.n, ∀ r' ∈ Finset.range A.cl.n,
        (if r' < c then ((A.block r' c).elim 0 fun B =>
          (if A.rl.base r' ≤ A.cl.base r + a ∧ A.cl.base r + a < A.rl.base r' + B.rows then
            ∑ t ∈ Finset.range B.cols, B.e (A.cl.base r + a - A.rl.base r') t * src (A.cl.base c + t)
            else 0) +
          (if A.cl.base c ≤ A.cl.base r + a ∧ A.cl.base r + a < A.cl.base c + B.cols then
            ∑ t ∈ Finset.range B.rows, B.e t (A.cl.base r + a - A.cl.base c) * src (A.rl.base r' + t)
            else 0)) else 0) =
        (if r' = r then (if r < c then ∑ t ∈ Finset.range (A.cl.size c),
          S (A.cl.base r + a) (A.cl.base c + t) * src (A.cl.base c + t) else 0) else 0) +
        (if c = r then (if r' < r then ∑ t ∈ Finset.range (A.cl.size r'),
          S (A.cl.base r + a) (A.cl.base r' + t) * src (A.cl.base r' + t) else 0) else 0) := by
        intro c hc r' hr1
        by_cases hlt : r' < c
        · rw [if_pos hlt, hterm r' c (by simpa using hc) (by simpa using hr1) hlt]
          congr 1
          · by_cases he : r' = r
            · rw [if_pos he, if_pos he, if_pos (he ▸ hlt)]
            · rw [if_neg he, if_neg he]
          · by_cases he : c = r
            · rw [if_pos he, if_pos he, if_pos (he ▸ hlt)]
            · rw [if_neg he, if_neg he]
        · rw [if_neg hlt]
          have a1 : ¬ (r' = r ∧ r < c) := by rintro ⟨rfl, h⟩; exact hlt h
          have a2 : ¬ (c = r ∧ r' < r) := by rintro ⟨rfl, h⟩; exact hlt h
          by_cases b1 : r' = r <;> by_cases b2 : c = r <;> simp_all
      rw [Finset.sum_congr rfl fun c hc => Finset.sum_congr rfl fun r' hr1 => this c hc r' hr1]
      simp only [Finset.sum_add_distrib]
      have hrm : r ∈ Finset.range A.cl.n := by simpa using hr
      have p1 : (∑ c ∈ Finset.range A.cl.n, ∑ r' ∈ Finset.range A.cl.n,
          if r' = r then (if r < c then ∑ t ∈ Finset.range (A.cl.size c),
            S (A.cl.base r + a) (A.cl.base c + t) * src (A.cl.base c + t) else 0) else 0) =
          ∑ c ∈ Finset.range A.cl.n, if r < c then ∑ t ∈ Finset.range (A.cl.size c),
            S (A.cl.base r + a) (A.cl.base c + t) * src (A.cl.base c + t) else 0 := by
        refine Finset.sum_congr rfl fun c _ => ?_
        rw [Finset.sum_ite_eq' _ r, if_pos hrm]
      have p2 : (∑ c ∈ Finset.range A.cl.n, ∑ r' ∈ Finset.range A.cl.n,
          if c = r then (if r' < r then ∑ t ∈ Finset.range (A.cl.size r'),
            S (A.cl.base r + a) (A.cl.base r' + t) * src (A.cl.base r' + t) else 0) else 0) =
          ∑ c ∈ Finset.range A.cl.n, if c < r then ∑ t ∈ Finset.range (A.cl.size c),
            S (A.cl.base r + a) (A.cl.base c + t) * src (A.cl.base c + t) else 0 := by
        rw [Finset.sum_comm]
        refine Finset.sum_congr rfl fun c _ => ?_
        rw [Finset.sum_ite_eq' _ r, if_pos hrm]
      rw [p1, p2, ← Finset.sum_add_distrib]
      refine Finset.sum_congr rfl fun c _ => ?_
      rcases lt_trichotomy c r with h | h | h
      · rw [if_neg (by omega), if_pos h, if_neg (by omega), zero_add]
      · rw [if_neg (by omega), if_neg (by omega), if_pos h, zero_add]
      · rw [if_pos h, if_neg (by omega), if_neg (by omega), add_zero]
    rw [hsum]
    have hdr : (∑ t ∈ Finset.range (A.cl.size r), (dblk A r).e a t * src (A.cl.base r + t)) =
        ∑ c ∈ Finset.range A.cl.n, if c = r then ∑ t ∈ Finset.range (A.cl.size c),
          S (A.cl.base r + a) (A.cl.base c + t) * src (A.cl.base c + t) else 0 := by
      rw [Finset.sum_ite_eq' _ r, if_pos (by simpa using hr)]
      refine Finset.sum_congr rfl fun t ht => ?_
      rw [(dblk_spec h hr).2.2.2 a t ha (by simpa using ht)]
    rw [hdr, ← Finset.sum_add_distrib]
    refine Finset.sum_congr rfl fun c _ => ?_
    split <;> simp

end Verif.PCG
