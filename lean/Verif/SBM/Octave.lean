import Verif.SBM.CCSProps
import Mathlib.Data.List.GetD
import Mathlib.Data.List.Perm.Basic
import Mathlib.Data.List.Sort
import Mathlib.Tactic.IntervalCases

/-!
C129: the text files in Octave's sparse matrix format.

Model of `SparseBlockMatrix::writeOctave` (SBM.hpp:886-927), `writeCCSMatrix` (`sparse_block_matrix/include/sparse_block_matrix/implementation/sparse_helper.h`, SH below) and
`MatrixStructure::write` (`sparse_block_matrix/src/matrix_structure.cpp`, MS below).
-/
namespace Verif.SBM
open Verif.MatrixStack (DMat)

variable {R : Type} [CommRing R]

/-! ### Model -/

/-- `TripletEntry`, sparse_helper.h:34-39: row, column, value. -/
abbrev Triplet (R : Type) := Nat × Nat × R

/-- `TripletColSort`, sparse_helper.h:40-46; `ColSort`, MS:27-33. -/
def colLt (p q : Triplet R) : Prop := p.2.1 < q.2.1 ∨ (p.2.1 = q.2.1 ∧ p.1 < q.1)

/-- What `std::sort` guarantees: a permutation in which no element is less than an earlier one. Elements that are not ordered come in any order. -/
def IsSort (sort : List (Triplet R) → List (Triplet R)) : Prop := ∀ l, (sort l).Perm l ∧ (sort l).Pairwise fun p q => ¬ colLt q p

/-- The name in the file: the part of the file name before its last dot, SBM.hpp:888-891, SH:39-42, MS:83-86. -/
def headerName (filename : List Char) : List Char :=
  match filename.reverse.dropWhile (· ≠ '.') with
  | [] => filename
  | _ :: t => t.reverse

/-- The file: header lines and entries. The text of numbers is left out, in particular that values have nine digits only. -/
structure File (R : Type) where
  name : List Char
  nnz : Nat
  rows : Nat
  cols : Nat
  lines : List (Triplet R)

/-- The output part of `writeOctave`, SBM.hpp:911-925, and `writeCCSMatrix`, SH:37-55: indices start at one. -/
def oneBased (filename : List Char) (rows cols : Nat) (l : List (Triplet R)) : File R :=
  ⟨headerName filename, l.length, rows, cols, l.map fun p => (p.1 + 1, p.2.1 + 1, p.2.2)⟩

/-- `writeOctave(filename, upperTriangle)`, SBM.hpp:886-927, if the file can be written. -/
def SBM.writeOctave (sort : List (Triplet R) → List (Triplet R)) (A : SBM R) (filename : List Char) (upperTriangle : Bool) : File R :=
  oneBased filename A.rl.total A.cl.total <| sort <|
    A.visits.flatMap fun v => (List.range v.2.2.cols).flatMap fun cc => (List.range v.2.2.rows).flatMap fun rr =>
      [(A.rl.base v.1 + rr, A.cl.base v.2.1 + cc, v.2.2.e rr cc)] ++
        if upperTriangle = true ∧ v.1 ≠ v.2.1 then [(A.cl.base v.2.1 + cc, A.rl.base v.1 + rr, v.2.2.e rr cc)] else []

/-- `writeCCSMatrix(filename, rows, cols, Ap, Ai, Ax, upperTriangleSymmetric)`, SH:24-56, for arrays that are long enough. -/
def writeCCSMatrix (sort : List (Triplet R) → List (Triplet R)) (filename : List Char) (rows cols : Nat) (M : CCS.Arrays R) (upperTriangleSymmetric : Bool) : File R :=
  oneBased filename rows cols <| sort <|
    (List.range cols).flatMap fun i => (List.range (M.cp.getD (i + 1) 0 - M.cp.getD i 0)).flatMap fun t =>
      [(M.ci.getD (M.cp.getD i 0 + t) 0, i, M.cx.getD (M.cp.getD i 0 + t) 0)] ++
        if upperTriangleSymmetric = true ∧ M.ci.getD (M.cp.getD i 0 + t) 0 ≠ i then [(i, M.ci.getD (M.cp.getD i 0 + t) 0, M.cx.getD (M.cp.getD i 0 + t) 0)] else []

/-- `MatrixStructure::write`, MS:78-116, for the arrays `Ap`, `Aii`: indices are written as they are, every value is 0. -/
def writeStructure (sort : List (Triplet R) → List (Triplet R)) (filename : List Char) (rows cols : Nat) (Ap Aii : List Nat) : File R :=
  let l := sort <| (List.range cols).flatMap fun i => (List.range (Ap.getD (i + 1) 0 - Ap.getD i 0)).flatMap fun t =>
      [(Aii.getD (Ap.getD i 0 + t) 0, i, 0)] ++ if Aii.getD (Ap.getD i 0 + t) 0 ≠ i then [(i, Aii.getD (Ap.getD i 0 + t) 0, 0)] else []
  ⟨headerName filename, l.length, rows, cols, l⟩

/-! ### Specification -/

/-- A reader of the format: the lines are strictly ordered by column and then row, so that no coefficient is given twice; indices run from one to the announced size; as many lines as announced;
a coefficient with a line has its value, all others are zero. -/
structure Reads (f : File R) (m n : Nat) (M : Nat → Nat → R) : Prop where
  rows : f.rows = m
  cols : f.cols = n
  nnz : f.nnz = f.lines.length
  ordered : f.lines.Pairwise fun p q => p.2.1 < q.2.1 ∨ (p.2.1 = q.2.1 ∧ p.1 < q.1)
  inside : ∀ p ∈ f.lines, 1 ≤ p.1 ∧ p.1 ≤ m ∧ 1 ≤ p.2.1 ∧ p.2.1 ≤ n
  value : ∀ i j x, (i + 1, j + 1, x) ∈ f.lines → x = M i j
  zero : ∀ i j, i < m → j < n → (∀ x, (i + 1, j + 1, x) ∉ f.lines) → M i j = 0

/-! ### Proofs -/

omit [CommRing R] in
theorem sorted_strict {sort : List (Triplet R) → List (Triplet R)} (hs : IsSort sort) {l : List (Triplet R)} (hk : l.Pairwise fun p q => (p.1, p.2.1) ≠ (q.1, q.2.1)) :
    (sort l).Pairwise colLt := by
  obtain ⟨h1, h2⟩ := hs l
  have h3 : (sort l).Pairwise fun p q => (p.1, p.2.1) ≠ (q.1, q.2.1) := (h1.pairwise_iff fun h => h.symm).2 hk
  refine (h2.and h3).imp ?_
  rintro ⟨r, c, x⟩ ⟨r', c', y⟩ ⟨h4, h5⟩
  simp only [colLt, ne_eq, Prod.mk.injEq] at *
  omega

theorem oneBased_reads {sort : List (Triplet R) → List (Triplet R)} (hs : IsSort sort) (filename : List Char) (m n : Nat) (l : List (Triplet R)) (M : Nat → Nat → R)
    (hk : l.Pairwise fun p q => (p.1, p.2.1) ≠ (q.1, q.2.1)) (hin : ∀ p ∈ l, p.1 < m ∧ p.2.1 < n ∧ p.2.2 = M p.1 p.2.1)
    (hz : ∀ i j, i < m → j < n → (∀ x, (i, j, x) ∉ l) → M i j = 0) : Reads (oneBased filename m n (sort l)) m n M where
  rows := rfl
  cols := rfl
  nnz := by simp [oneBased]
  ordered := by
    simp only [oneBased, List.pairwise_map]
    refine (sorted_strict hs hk).imp ?_
    intro p q h
    simp only [colLt] at *
    omega
  inside p hp := by
    simp only [oneBased, List.mem_map] at hp
    obtain ⟨q, hq, rfl⟩ := hp
    have := hin q ((hs l).1.mem_iff.1 hq)
    simp only
    omega
  value i j x hx := by
    simp only [oneBased, List.mem_map, Prod.mk.injEq, Nat.add_right_cancel_iff] at hx
    obtain ⟨⟨r, c, y⟩, hq, rfl, rfl, rfl⟩ := hx
    exact (hin _ ((hs l).1.mem_iff.1 hq)).2.2
  zero i j hi hj h := by
    refine hz i j hi hj fun x hx => h x ?_
    simp only [oneBased, List.mem_map]
    exact ⟨_, (hs l).1.mem_iff.2 hx, rfl⟩

/-- All coefficients of all blocks: block row and column, position in the block, value. Used in proofs only. -/
def SBM.cells (A : SBM R) : List (Nat × Nat × Nat × Nat × R) :=
  A.visits.flatMap fun v => (List.range v.2.2.cols).flatMap fun cc => (List.range v.2.2.rows).map fun rr => (v.1, v.2.1, rr, cc, v.2.2.e rr cc)

theorem mem_cells {A : SBM R} (h : WF A) {r c a b : Nat} {x : R} : (r, c, a, b, x) ∈ A.cells ↔
    c < A.cl.n ∧ ∃ B, A.block r c = some B ∧ a < A.rl.size r ∧ b < A.cl.size c ∧ x = B.e a b := by
  simp only [SBM.cells, List.mem_flatMap, List.mem_range, List.mem_map, Prod.mk.injEq]
  constructor
  · rintro ⟨⟨r, c, B⟩, hv, cc, hcc, rr, hrr, rfl, rfl, rfl, rfl, rfl⟩
    obtain ⟨hc, hm⟩ := mem_visits.1 hv
    have hs := h.shape c hc _ hm
    exact ⟨hc, B, (block_eq_some h hc).2 hm, by simp only at *; omega, by simp only at *; omega, rfl⟩
  · rintro ⟨hc, B, hB, ha, hb, rfl⟩
    have hs := block_lt h hc hB
    exact ⟨(r, c, B), mem_visits.2 ⟨hc, (block_eq_some h hc).1 hB⟩, b, by simp only; omega, a, by simp only; omega, rfl, rfl, rfl, rfl, rfl⟩

omit [CommRing R] in
theorem cells_pairwise {A : SBM R} (h : WF A) : A.cells.Pairwise fun p q => (p.1, p.2.1, p.2.2.1, p.2.2.2.1) ≠ (q.1, q.2.1, q.2.2.1, q.2.2.2.1) := by
  unfold SBM.cells
  rw [List.pairwise_flatMap]
  constructor
  · intro v _
    rw [List.pairwise_flatMap]
    refine ⟨fun cc _ => ?_, ?_⟩
    · rw [List.pairwise_map]
      refine List.nodup_range.imp ?_
      intro a b hab
      simp [hab]
    · refine List.nodup_range.imp ?_
      intro a b hab x hx y hy
      obtain ⟨_, -, rfl⟩ := List.mem_map.1 hx
      obtain ⟨_, -, rfl⟩ := List.mem_map.1 hy
      simp [hab]
  · have hv : A.visits.Pairwise fun v w => (v.1, v.2.1) ≠ (w.1, w.2.1) := by
      unfold SBM.visits
      rw [List.pairwise_flatMap]
      refine ⟨fun c hc => ?_, ?_⟩
      · rw [List.pairwise_map]
        refine (h.sorted c (List.mem_range.1 hc)).imp ?_
        intro p q hpq
        simp only [ne_eq, Prod.mk.injEq]
        omega
      · refine List.nodup_range.imp ?_
        intro a b hab x hx y hy
        obtain ⟨_, -, rfl⟩ := List.mem_map.1 hx
        obtain ⟨_, -, rfl⟩ := List.mem_map.1 hy
        simp [hab]
    refine hv.imp ?_
    intro v w hvw x hx y hy
    simp only [List.mem_flatMap, List.mem_map] at hx hy
    obtain ⟨_, -, _, -, rfl⟩ := hx
    obtain ⟨_, -, _, -, rfl⟩ := hy
    simp only [ne_eq, Prod.mk.injEq] at *
    tauto

/-- The place of a cell in the matrix. Used in proofs only. -/
def SBM.place (A : SBM R) (p : Nat × Nat × Nat × Nat × R) : Triplet R := (A.rl.base p.1 + p.2.2.1, A.cl.base p.2.1 + p.2.2.2.1, p.2.2.2.2)

/-- The transposed place. Used in proofs only. -/
def mirror (p : Triplet R) : Triplet R := (p.2.1, p.1, p.2.2)

theorem place_pairwise {A : SBM R} (h : WF A) : (A.cells.map A.place).Pairwise fun p q => (p.1, p.2.1) ≠ (q.1, q.2.1) := by
  rw [List.pairwise_map]
  refine (cells_pairwise h).imp_of_mem ?_
  rintro ⟨r, c, a, b, x⟩ ⟨r', c', a', b', y⟩ hx hy hne
  obtain ⟨hc, B, hB, ha, hb, -⟩ := (mem_cells h).1 hx
  obtain ⟨hc', B', hB', ha', hb', -⟩ := (mem_cells h).1 hy
  simp only [SBM.place, ne_eq, Prod.mk.injEq] at *
  rintro ⟨h1, h2⟩
  have e1 := Layout.unique h.rmono (block_lt h hc hB).1 (block_lt h hc' hB').1 (i := A.rl.base r + a) (by omega) (by omega) (by omega) (by omega)
  have e2 := Layout.unique h.cmono hc hc' (i := A.cl.base c + b) (by omega) (by omega) (by omega) (by omega)
  subst e1 e2
  exact hne ⟨rfl, rfl, by omega, by omega⟩

omit [CommRing R] in
theorem entries_perm (A : SBM R) (upper : Bool) :
    (A.visits.flatMap fun v => (List.range v.2.2.cols).flatMap fun cc => (List.range v.2.2.rows).flatMap fun rr =>
      [(A.rl.base v.1 + rr, A.cl.base v.2.1 + cc, v.2.2.e rr cc)] ++
        if upper = true ∧ v.1 ≠ v.2.1 then [(A.cl.base v.2.1 + cc, A.rl.base v.1 + rr, v.2.2.e rr cc)] else []).Perm
      (A.cells.map A.place ++ ((A.cells.filter fun p => upper && decide (p.1 ≠ p.2.1)).map fun p => mirror (A.place p))) := by
  have h1 : (A.visits.flatMap fun v => (List.range v.2.2.cols).flatMap fun cc => (List.range v.2.2.rows).flatMap fun rr =>
      [(A.rl.base v.1 + rr, A.cl.base v.2.1 + cc, v.2.2.e rr cc)] ++
        if upper = true ∧ v.1 ≠ v.2.1 then [(A.cl.base v.2.1 + cc, A.rl.base v.1 + rr, v.2.2.e rr cc)] else []) =
      A.cells.flatMap fun p => [A.place p] ++ if upper = true ∧ p.1 ≠ p.2.1 then [mirror (A.place p)] else [] := by
    simp only [SBM.cells, List.flatMap_assoc, List.flatMap_map]
    rfl
  rw [h1]
  refine (List.flatMap_append_perm _ _ _).symm.trans (List.Perm.of_eq ?_)
  congr 1
  · induction A.cells with
    | nil => rfl
    | cons p l ih => simp [ih]
  · induction A.cells with
    | nil => rfl
    | cons p l ih =>
      rw [List.flatMap_cons, ih]
      by_cases hp : upper = true ∧ p.1 ≠ p.2.1
      · rw [if_pos hp, List.filter_cons_of_pos (by simpa using hp)]
        rfl
      · rw [if_neg hp, List.filter_cons_of_neg (by simpa using hp)]
        rfl

/-- `std::sort` sees its input only up to order when all places differ. -/
theorem reads_entries {sort : List (Triplet R) → List (Triplet R)} (hs : IsSort sort) (filename : List Char) (m n : Nat) {l l' : List (Triplet R)} (hp : l.Perm l') (M : Nat → Nat → R)
    (hk : l'.Pairwise fun p q => (p.1, p.2.1) ≠ (q.1, q.2.1)) (hin : ∀ p ∈ l', p.1 < m ∧ p.2.1 < n ∧ p.2.2 = M p.1 p.2.1)
    (hz : ∀ i j, i < m → j < n → (∀ x, (i, j, x) ∉ l') → M i j = 0) : Reads (oneBased filename m n (sort l)) m n M :=
  oneBased_reads hs filename m n l M ((hp.pairwise_iff fun h => h.symm).2 hk) (fun p h => hin p (hp.mem_iff.1 h)) fun i j hi hj h => hz i j hi hj fun x hx => h x (hp.mem_iff.2 hx)

/-- **C129** (block matrix). For every legal block matrix the file written without mirroring describes the dense expansion, and has `nonZeros()` lines. -/
theorem C129_octave_full {sort : List (Triplet R) → List (Triplet R)} (hs : IsSort sort) (A : SBM R) (h : WF A) (filename : List Char) :
    Reads (A.writeOctave sort filename false) A.rl.total A.cl.total A.toDense.e ∧ (A.writeOctave sort filename false).nnz = A.nonZeros := by
  constructor
  · refine reads_entries hs filename _ _ (entries_perm A false) _ ?_ ?_ ?_
    · simpa using place_pairwise h
    · intro p hp
      simp only [Bool.false_and, List.filter_false, List.map_nil, List.append_nil, List.mem_map] at hp
      obtain ⟨⟨r, c, a, b, x⟩, hx, rfl⟩ := hp
      obtain ⟨hc, B, hB, ha, hb, rfl⟩ := (mem_cells h).1 hx
      have hr := (block_lt h hc hB).1
      have h1 := Layout.base_add_size_le_total h.rmono hr
      have h2 := Layout.base_add_size_le_total h.cmono hc
      refine ⟨by simp only [SBM.place]; omega, by simp only [SBM.place]; omega, ?_⟩
      simp only [SBM.place]
      rw [toDense_at h hr hc ha hb, at_elim, hB]
      rfl
    · intro i j hi hj hx
      obtain ⟨r, hr, a, ha, rfl⟩ := Layout.locate h.rmono hi
      obtain ⟨c, hc, b, hb, rfl⟩ := Layout.locate h.cmono hj
      rw [toDense_at h hr hc ha hb, at_elim]
      cases hB : A.block r c with
      | none => rfl
      | some B =>
        refine absurd ?_ (hx (B.e a b))
        refine List.mem_append_left _ (List.mem_map.2 ⟨(r, c, a, b, B.e a b), (mem_cells h).2 ⟨hc, B, hB, ha, hb, rfl⟩, rfl⟩)
  · have := ((hs _).1.trans (entries_perm A false)).length_eq
    show List.length _ = _
    rw [this]
    simp only [Bool.false_and, List.filter_false, List.map_nil, List.append_nil, List.length_map, SBM.cells, SBM.nonZeros, List.length_flatMap, List.length_range]
    congr 1
    refine List.map_congr_left fun v _ => ?_
    simp

/-- What the user of a matrix stored as upper triangle of blocks means: the blocks on and above the diagonal, and the mirror image below. -/
def MirroredBy (A : SBM R) (M : Nat → Nat → R) : Prop := ∀ r c a b, r < A.rl.n → c < A.cl.n → a < A.rl.size r → b < A.cl.size c →
  M (A.rl.base r + a) (A.cl.base c + b) = if r ≤ c then A.toDense.e (A.rl.base r + a) (A.cl.base c + b) else A.toDense.e (A.cl.base c + b) (A.rl.base r + a)

/-- **C129** (block matrix, mirrored; the default). With equal row and column layout and no block below the diagonal, the file describes the matrix whose lower blocks mirror the upper ones.
Missing: matrices which also have blocks below the diagonal, see `C129_both_triangles_counterexample`. -/
theorem C129_octave_upper_partial {sort : List (Triplet R) → List (Triplet R)} (hs : IsSort sort) (A : SBM R) (h : WF A) (hsq : A.rl.same A.cl = true) (hup : BlockUpper A)
    (filename : List Char) (M : Nat → Nat → R) (hM : MirroredBy A M) : Reads (A.writeOctave sort filename true) A.rl.total A.cl.total M := by
  have hn := Layout.same_n hsq
  have htot := Layout.same_total hsq
  have hle : ∀ {r c : Nat} {B : DMat R}, c < A.cl.n → A.block r c = some B → r ≤ c := by
    intro r c B hc hB
    by_contra hlt
    rw [hup r c hc (by omega)] at hB
    cases hB
  refine reads_entries hs filename _ _ (entries_perm A true) _ ?_ ?_ ?_
  · rw [List.pairwise_append]
    refine ⟨place_pairwise h, ?_, ?_⟩
    · have := place_pairwise h
      rw [List.pairwise_map] at this ⊢
      refine (this.sublist List.filter_sublist).imp ?_
      intro p q hpq
      simp only [mirror, ne_eq, Prod.mk.injEq] at *
      tauto
    · intro p hp q hq
      obtain ⟨⟨r, c, a, b, x⟩, hx, rfl⟩ := List.mem_map.1 hp
      obtain ⟨⟨r', c', a', b', y⟩, hy, rfl⟩ := List.mem_map.1 hq
      obtain ⟨hy, hne⟩ := List.mem_filter.1 hy
      obtain ⟨hc, B, hB, ha, hb, -⟩ := (mem_cells h).1 hx
      obtain ⟨hc', B', hB', ha', hb', -⟩ := (mem_cells h).1 hy
      have hr := (block_lt h hc hB).1
      have hr' := (block_lt h hc' hB').1
      have h1 := hle hc hB
      have h2 := hle hc' hB'
      simp only [mirror, SBM.place, ne_eq, Prod.mk.injEq, Bool.true_and, decide_eq_true_eq] at *
      rintro ⟨e1, e2⟩
      have s1 := Layout.same_base hsq (i := c') (by omega)
      have s2 := Layout.same_base hsq (i := r') (by omega)
      have s3 := Layout.same_size hsq (i := c') (by omega)
      have s4 := Layout.same_size hsq (i := r') (by omega)
      have u1 := Layout.unique h.rmono hr (by omega : c' < A.rl.n) (i := A.rl.base r + a) (by omega) (by omega) (by omega) (by omega)
      have u2 := Layout.unique h.cmono hc (by omega : r' < A.cl.n) (i := A.cl.base c + b) (by omega) (by omega) (by omega) (by omega)
      omega
  · intro p hp
    rcases List.mem_append.1 hp with hp | hp
    · obtain ⟨⟨r, c, a, b, x⟩, hx, rfl⟩ := List.mem_map.1 hp
      obtain ⟨hc, B, hB, ha, hb, rfl⟩ := (mem_cells h).1 hx
      have hr := (block_lt h hc hB).1
      have h1 := Layout.base_add_size_le_total h.rmono hr
      have h2 := Layout.base_add_size_le_total h.cmono hc
      refine ⟨by simp only [SBM.place]; omega, by simp only [SBM.place]; omega, ?_⟩
      simp only [SBM.place]
      rw [hM r c a b hr hc ha hb, if_pos (hle hc hB), toDense_at h hr hc ha hb, at_elim, hB]
      rfl
    · obtain ⟨⟨r, c, a, b, x⟩, hx, rfl⟩ := List.mem_map.1 hp
      obtain ⟨hx, hne⟩ := List.mem_filter.1 hx
      simp only [Bool.true_and, decide_eq_true_eq] at hne
      obtain ⟨hc, B, hB, ha, hb, rfl⟩ := (mem_cells h).1 hx
      have hr := (block_lt h hc hB).1
      have h1 := Layout.base_add_size_le_total h.rmono hr
      have h2 := Layout.base_add_size_le_total h.cmono hc
      have h3 := hle hc hB
      refine ⟨by simp only [mirror, SBM.place]; omega, by simp only [mirror, SBM.place]; omega, ?_⟩
      simp only [mirror, SBM.place]
      have s1 := Layout.same_base hsq (i := c) (by omega)
      have s2 := Layout.same_base hsq (i := r) (by omega)
      have s3 := Layout.same_size hsq (i := c) (by omega)
      have s4 := Layout.same_size hsq (i := r) (by omega)
      have := hM c r b a (by omega) (by omega) (by omega) (by omega)
      rw [s1, ← s2, if_neg (by omega), toDense_at h hr hc ha hb, at_elim, hB] at this
      rw [this]
      rfl
  · intro i j hi hj hx
    obtain ⟨r, hr, a, ha, rfl⟩ := Layout.locate h.rmono hi
    obtain ⟨c, hc, b, hb, rfl⟩ := Layout.locate h.cmono hj
    have s1 := Layout.same_base hsq (i := c) (by omega)
    have s2 := Layout.same_base hsq (i := r) (by omega)
    have s3 := Layout.same_size hsq (i := c) (by omega)
    have s4 := Layout.same_size hsq (i := r) (by omega)
    rw [hM r c a b hr hc ha hb]
    split_ifs with hrc
    · rw [toDense_at h hr hc ha hb, at_elim]
      cases hB : A.block r c with
      | none => rfl
      | some B =>
        exact absurd (List.mem_append_left _ (List.mem_map.2 ⟨(r, c, a, b, B.e a b), (mem_cells h).2 ⟨hc, B, hB, ha, hb, rfl⟩, rfl⟩)) (hx (B.e a b))
    · rw [← s1, s2, toDense_at h (by omega) (by omega) (by omega) (by omega), at_elim]
      cases hB : A.block c r with
      | none => rfl
      | some B =>
        refine absurd (List.mem_append_right _ (List.mem_map.2 ⟨(c, r, b, a, B.e b a), List.mem_filter.2 ⟨(mem_cells h).2 ⟨by omega, B, hB, by omega, by omega, rfl⟩, ?_⟩, ?_⟩)) (hx (B.e b a))
        · simp only [Bool.true_and, decide_eq_true_eq]
          omega
        · simp only [mirror, SBM.place, s1, s2]

/-! ### Compressed columns -/

/-- Positions of the arrays: column and position. Used in proofs only. -/
def slots (M : CCS.Arrays R) (n : Nat) : List (Nat × Nat) :=
  (List.range n).flatMap fun i => (List.range (M.cp.getD (i + 1) 0 - M.cp.getD i 0)).map fun t => (i, M.cp.getD i 0 + t)

omit [CommRing R] in
theorem mem_slots {M : CCS.Arrays R} {n i k : Nat} : (i, k) ∈ slots M n ↔ i < n ∧ M.cp.getD i 0 ≤ k ∧ k < M.cp.getD (i + 1) 0 := by
  simp only [slots, List.mem_flatMap, List.mem_range, List.mem_map, Prod.mk.injEq]
  constructor
  · rintro ⟨i', hi, t, ht, rfl, rfl⟩
    omega
  · rintro ⟨hi, h1, h2⟩
    exact ⟨i, hi, k - M.cp.getD i 0, by omega, rfl, by omega⟩

omit [CommRing R] in
theorem slots_nodup (M : CCS.Arrays R) (n : Nat) : (slots M n).Pairwise (· ≠ ·) := by
  unfold slots
  rw [List.pairwise_flatMap]
  refine ⟨fun i _ => ?_, ?_⟩
  · rw [List.pairwise_map]
    refine List.nodup_range.imp ?_
    intro a b hab
    simp [hab]
  · refine List.nodup_range.imp ?_
    intro a b hab x hx y hy
    obtain ⟨_, -, rfl⟩ := List.mem_map.1 hx
    obtain ⟨_, -, rfl⟩ := List.mem_map.1 hy
    simp [hab]

/-- The entry at a position. Used in proofs only. -/
def slotEntry (M : CCS.Arrays R) (p : Nat × Nat) : Triplet R := (M.ci.getD p.2 0, p.1, M.cx.getD p.2 0)

theorem ccs_perm (M : CCS.Arrays R) (n : Nat) (upper : Bool) :
    ((List.range n).flatMap fun i => (List.range (M.cp.getD (i + 1) 0 - M.cp.getD i 0)).flatMap fun t =>
      [(M.ci.getD (M.cp.getD i 0 + t) 0, i, M.cx.getD (M.cp.getD i 0 + t) 0)] ++
        if upper = true ∧ M.ci.getD (M.cp.getD i 0 + t) 0 ≠ i then [(i, M.ci.getD (M.cp.getD i 0 + t) 0, M.cx.getD (M.cp.getD i 0 + t) 0)] else []).Perm
      ((slots M n).map (slotEntry M) ++ (((slots M n).filter fun p => upper && decide (M.ci.getD p.2 0 ≠ p.1)).map fun p => mirror (slotEntry M p))) := by
  have h1 : ((List.range n).flatMap fun i => (List.range (M.cp.getD (i + 1) 0 - M.cp.getD i 0)).flatMap fun t =>
      [(M.ci.getD (M.cp.getD i 0 + t) 0, i, M.cx.getD (M.cp.getD i 0 + t) 0)] ++
        if upper = true ∧ M.ci.getD (M.cp.getD i 0 + t) 0 ≠ i then [(i, M.ci.getD (M.cp.getD i 0 + t) 0, M.cx.getD (M.cp.getD i 0 + t) 0)] else []) =
      (slots M n).flatMap fun p => [slotEntry M p] ++ if upper = true ∧ M.ci.getD p.2 0 ≠ p.1 then [mirror (slotEntry M p)] else [] := by
    simp only [slots, List.flatMap_assoc, List.flatMap_map]
    rfl
  rw [h1]
  refine (List.flatMap_append_perm _ _ _).symm.trans (List.Perm.of_eq ?_)
  congr 1
  · induction slots M n with
    | nil => rfl
    | cons p l ih => simp [ih]
  · induction slots M n with
    | nil => rfl
    | cons p l ih =>
      rw [List.flatMap_cons, ih]
      by_cases hp : upper = true ∧ M.ci.getD p.2 0 ≠ p.1
      · rw [if_pos hp, List.filter_cons_of_pos (by simpa using hp)]
        rfl
      · rw [if_neg hp, List.filter_cons_of_neg (by simpa using hp)]
        rfl

theorem legal_incr {M : CCS.Arrays R} {m n : Nat} (h : CCS.Legal M m n) {j k l : Nat} (hj : j < n) (h1 : M.cp.getD j 0 ≤ k) (h2 : k < l) (h3 : l < M.cp.getD (j + 1) 0) :
    M.ci.getD k 0 < M.ci.getD l 0 := by
  induction l with
  | zero => omega
  | succ l ih =>
    have := h.incr j hj l (by omega) h3
    rcases Nat.lt_or_ge k l with hk | hk
    · exact (ih hk (by omega)).trans this
    · have : k = l := by omega
      subst this
      assumption

theorem legal_end {M : CCS.Arrays R} {m n : Nat} (h : CCS.Legal M m n) {j : Nat} (hj : j ≤ n) : M.cp.getD j 0 ≤ M.cx.length := by
  induction hj using Nat.decreasingInduction with
  | self => exact h.cp_last.le
  | of_succ k hk ih => exact (h.cp_mono k hk).trans ih

/-- The value read at a stored position is the stored one. -/
theorem read_slot {M : CCS.Arrays R} {m n : Nat} (h : CCS.Legal M m n) {j k : Nat} (hj : j < n) (h1 : M.cp.getD j 0 ≤ k) (h2 : k < M.cp.getD (j + 1) 0) :
    CCS.read M (M.ci.getD k 0) j = M.cx.getD k 0 := by
  unfold CCS.read
  obtain ⟨t, rfl⟩ := Nat.exists_eq_add_of_le h1
  show (Finset.range (M.cp.getD (j + 1) 0 - M.cp.getD j 0)).sum (fun u => if M.ci.getD (M.cp.getD j 0 + u) 0 = M.ci.getD (M.cp.getD j 0 + t) 0 then M.cx.getD (M.cp.getD j 0 + u) 0 else 0) = _
  rw [Finset.sum_eq_single t]
  · simp
  · intro u hu hut
    have hu' : u < M.cp.getD (j + 1) 0 - M.cp.getD j 0 := Finset.mem_range.1 hu
    rw [if_neg]
    intro he
    rcases Nat.lt_or_gt_of_ne hut with hlt | hgt
    · have := legal_incr h hj (k := M.cp.getD j 0 + u) (l := M.cp.getD j 0 + t) (by omega) (by omega) h2
      omega
    · have := legal_incr h hj (k := M.cp.getD j 0 + t) (l := M.cp.getD j 0 + u) (by omega) (by omega) (by omega)
      omega
  · intro ht
    exact absurd (Finset.mem_range.2 (by omega)) ht

/-- Without a stored position the value read is zero. -/
theorem read_none {M : CCS.Arrays R} {i j : Nat} (h : ∀ k, M.cp.getD j 0 ≤ k → k < M.cp.getD (j + 1) 0 → M.ci.getD k 0 ≠ i) : CCS.read M i j = 0 := by
  unfold CCS.read
  refine List.sum_eq_zero ?_
  intro x hx
  obtain ⟨t, ht, rfl⟩ := List.mem_map.1 hx
  have := List.mem_range.1 ht
  rw [if_neg (h _ (by omega) (by omega))]

theorem slot_pairwise {M : CCS.Arrays R} {m n : Nat} (h : CCS.Legal M m n) : ((slots M n).map (slotEntry M)).Pairwise fun p q => (p.1, p.2.1) ≠ (q.1, q.2.1) := by
  rw [List.pairwise_map]
  refine (slots_nodup M n).imp_of_mem ?_
  rintro ⟨i, k⟩ ⟨j, l⟩ hx hy hne
  obtain ⟨h1, h2, h3⟩ := mem_slots.1 hx
  obtain ⟨h4, h5, h6⟩ := mem_slots.1 hy
  simp only [slotEntry, ne_eq, Prod.mk.injEq] at *
  rintro ⟨e1, rfl⟩
  rcases Nat.lt_trichotomy k l with hlt | rfl | hgt
  · have := legal_incr h h1 h2 hlt h6
    omega
  · exact hne ⟨rfl, rfl⟩
  · have := legal_incr h h1 h5 hgt h3
    omega

/-- **C129** (compressed columns). For all well-formed arrays the file written without mirroring describes the matrix the arrays mean, with one line per stored value. -/
theorem C129_ccs_full {sort : List (Triplet R) → List (Triplet R)} (hs : IsSort sort) (m n : Nat) (M : CCS.Arrays R) (h : CCS.Legal M m n) (filename : List Char) :
    Reads (writeCCSMatrix sort filename m n M false) m n (CCS.read M) := by
  refine reads_entries hs filename _ _ (ccs_perm M n false) _ ?_ ?_ ?_
  · simpa using slot_pairwise h
  · intro p hp
    simp only [Bool.false_and, List.filter_false, List.map_nil, List.append_nil, List.mem_map] at hp
    obtain ⟨⟨j, k⟩, hx, rfl⟩ := hp
    obtain ⟨h1, h2, h3⟩ := mem_slots.1 hx
    have h4 := legal_end h (j := j + 1) (by omega)
    exact ⟨h.rows k (by rw [h.len]; omega), h1, (read_slot h h1 h2 h3).symm⟩
  · intro i j hi hj hx
    refine read_none fun k h1 h2 he => hx (M.cx.getD k 0) ?_
    subst he
    exact List.mem_append_left _ (List.mem_map.2 ⟨(j, k), mem_slots.2 ⟨hj, h1, h2⟩, rfl⟩)

/-- **C129** (compressed columns, mirrored). When nothing below the diagonal is stored, the file describes the symmetric matrix with that upper triangle. Missing: arrays with values below the
diagonal, for which a coefficient can be given twice as in `C129_both_triangles_counterexample`. -/
theorem C129_ccs_upper_partial {sort : List (Triplet R) → List (Triplet R)} (hs : IsSort sort) (n : Nat) (M : CCS.Arrays R) (h : CCS.Legal M n n)
    (hup : ∀ j < n, ∀ k, M.cp.getD j 0 ≤ k → k < M.cp.getD (j + 1) 0 → M.ci.getD k 0 ≤ j) (filename : List Char) :
    Reads (writeCCSMatrix sort filename n n M true) n n (fun i j => if i ≤ j then CCS.read M i j else CCS.read M j i) := by
  refine reads_entries hs filename _ _ (ccs_perm M n true) _ ?_ ?_ ?_
  · rw [List.pairwise_append]
    refine ⟨slot_pairwise h, ?_, ?_⟩
    · have := slot_pairwise h
      rw [List.pairwise_map] at this ⊢
      refine (this.sublist List.filter_sublist).imp ?_
      intro p q hpq
      simp only [mirror, ne_eq, Prod.mk.injEq] at *
      tauto
    · intro p hp q hq
      obtain ⟨⟨j, k⟩, hx, rfl⟩ := List.mem_map.1 hp
      obtain ⟨⟨j', k'⟩, hy, rfl⟩ := List.mem_map.1 hq
      obtain ⟨hy, hne⟩ := List.mem_filter.1 hy
      obtain ⟨h1, h2, h3⟩ := mem_slots.1 hx
      obtain ⟨h4, h5, h6⟩ := mem_slots.1 hy
      have := hup j h1 k h2 h3
      have := hup j' h4 k' h5 h6
      simp only [mirror, slotEntry, ne_eq, Prod.mk.injEq, Bool.true_and, decide_eq_true_eq] at *
      omega
  · intro p hp
    rcases List.mem_append.1 hp with hp | hp
    · obtain ⟨⟨j, k⟩, hx, rfl⟩ := List.mem_map.1 hp
      obtain ⟨h1, h2, h3⟩ := mem_slots.1 hx
      have h4 := hup j h1 k h2 h3
      refine ⟨by simp only [slotEntry]; omega, h1, ?_⟩
      show M.cx.getD k 0 = if M.ci.getD k 0 ≤ j then CCS.read M (M.ci.getD k 0) j else _
      rw [if_pos h4, read_slot h h1 h2 h3]
    · obtain ⟨⟨j, k⟩, hx, rfl⟩ := List.mem_map.1 hp
      obtain ⟨hx, hne⟩ := List.mem_filter.1 hx
      obtain ⟨h1, h2, h3⟩ := mem_slots.1 hx
      have h4 := hup j h1 k h2 h3
      simp only [Bool.true_and, decide_eq_true_eq] at hne
      refine ⟨h1, by simp only [mirror, slotEntry]; omega, ?_⟩
      show M.cx.getD k 0 = if j ≤ M.ci.getD k 0 then _ else CCS.read M (M.ci.getD k 0) j
      rw [if_neg (by omega), read_slot h h1 h2 h3]
  · intro i j hi hj hx
    split_ifs with hij
    · refine read_none fun k h1 h2 he => hx (M.cx.getD k 0) ?_
      subst he
      exact List.mem_append_left _ (List.mem_map.2 ⟨(j, k), mem_slots.2 ⟨hj, h1, h2⟩, rfl⟩)
    · refine read_none fun k h1 h2 he => hx (M.cx.getD k 0) ?_
      subst he
      refine List.mem_append_right _ (List.mem_map.2 ⟨(i, k), List.mem_filter.2 ⟨mem_slots.2 ⟨hi, h1, h2⟩, ?_⟩, rfl⟩)
      simp only [Bool.true_and, decide_eq_true_eq]
      omega

/-- A file has at most one meaning. -/
theorem reads_unique {f : File R} {m n : Nat} {M M' : Nat → Nat → R} (h : Reads f m n M) (h' : Reads f m n M') {i j : Nat} (hi : i < m) (hj : j < n) : M i j = M' i j := by
  by_cases hx : ∃ x, (i + 1, j + 1, x) ∈ f.lines
  · obtain ⟨x, hx⟩ := hx
    rw [← h.value i j x hx, h'.value i j x hx]
  · push Not at hx
    rw [h.zero i j hi hj hx, h'.zero i j hi hj hx]

/-- **C129** (both exports agree). The file of a block matrix and the file of the arrays filled from it have the same meaning. -/
theorem C129_exports_agree {sort : List (Triplet R) → List (Triplet R)} (hs : IsSort sort) (debug : Bool) (A : SBM R) (h : WF A) (f1 f2 : List Char) :
    ∃ s, fillCCS debug false A = .ok s ∧ ∃ M, Reads (A.writeOctave sort f1 false) A.rl.total A.cl.total M ∧
      Reads (writeCCSMatrix sort f2 A.rl.total A.cl.total ⟨s.cp, s.ci, s.cx⟩ false) A.rl.total A.cl.total M := by
  obtain ⟨s, h1, h2, -, -, h3⟩ := C53_fillCCS_full debug A h
  refine ⟨s, h1, A.toDense.e, (C129_octave_full hs A h f1).1, ?_⟩
  have h4 := C129_ccs_full hs _ _ _ h2 f2
  refine ⟨h4.rows, h4.cols, h4.nnz, h4.ordered, h4.inside, fun i j x hx => ?_, fun i j hi hj hx => ?_⟩
  · have := h4.inside _ hx
    simp only at this
    rw [← h3 i j (by omega) (by omega)]
    exact h4.value i j x hx
  · rw [← h3 i j hi hj]
    exact h4.zero i j hi hj hx

/-! ### Where the files are wrong -/

/-- A block and its mirror image both stored and written with the default argument: no sort makes a legal file, each of the two coefficients has two lines, with different values. -/
theorem C129_both_triangles_counterexample : ∃ A : SBM Int, WF A ∧ A.rl.same A.cl = true ∧ ∀ sort, IsSort sort → ∀ filename,
    (1, 2, 5) ∈ (A.writeOctave sort filename true).lines ∧ (1, 2, 7) ∈ (A.writeOctave sort filename true).lines ∧
      ∀ M, ¬ Reads (A.writeOctave sort filename true) A.rl.total A.cl.total M := by
  let A : SBM Int := ⟨⟨2, fun i => i + 1⟩, ⟨2, fun i => i + 1⟩, true, fun c => if c = 0 then [(1, ⟨1, 1, fun _ _ => 7⟩)] else if c = 1 then [(0, ⟨1, 1, fun _ _ => 5⟩)] else []⟩
  have key : ∀ sort : List (Triplet Int) → List (Triplet Int), IsSort sort → ∀ filename, ∀ p ∈ ([(1, 2, 5), (1, 2, 7)] : List (Triplet Int)), p ∈ (A.writeOctave sort filename true).lines := by
    intro sort hs filename p hp
    have hperm := (hs (A.visits.flatMap fun v => (List.range v.2.2.cols).flatMap fun cc => (List.range v.2.2.rows).flatMap fun rr =>
      [(A.rl.base v.1 + rr, A.cl.base v.2.1 + cc, v.2.2.e rr cc)] ++
        if true = true ∧ v.1 ≠ v.2.1 then [(A.cl.base v.2.1 + cc, A.rl.base v.1 + rr, v.2.2.e rr cc)] else [])).1
    refine List.mem_map.2 ?_
    rcases List.mem_pair.1 hp with rfl | rfl
    · exact ⟨(0, 1, 5), hperm.mem_iff.2 (by decide), rfl⟩
    · exact ⟨(0, 1, 7), hperm.mem_iff.2 (by decide), rfl⟩
  refine ⟨A, ⟨fun r _ => by simp [A], fun r _ => by simp [A], fun c hc => ?_, fun c hc p hp => ?_⟩, by decide, fun sort hs filename => ?_⟩
  · have hc' : c < 2 := hc
    obtain rfl | rfl : c = 0 ∨ c = 1 := by omega
    all_goals simp [A]
  · have hc' : c < 2 := hc
    obtain rfl | rfl : c = 0 ∨ c = 1 := by omega
    · simp only [A, ↓reduceIte, List.mem_singleton] at hp; subst hp; decide
    · simp only [A, one_ne_zero, ↓reduceIte, List.mem_singleton] at hp; subst hp; decide
  · refine ⟨key sort hs filename _ (by simp), key sort hs filename _ (by simp), fun M hM => ?_⟩
    have h1 := hM.value 0 1 5 (key sort hs filename _ (by simp))
    have h2 := hM.value 0 1 7 (key sort hs filename _ (by simp))
    omega

/-- `MatrixStructure::write` starts indices at zero: the file of any structure with an entry in its first column is no legal file, whatever the matrix. -/
theorem C129_structure_counterexample {sort : List (Triplet R) → List (Triplet R)} (hs : IsSort sort) (filename : List Char) (rows cols : Nat) (Ap Aii : List Nat)
    (hc : 0 < cols) (h0 : Ap.getD 0 0 < Ap.getD 1 0) (m n : Nat) (M : Nat → Nat → R) : ¬ Reads (writeStructure sort filename rows cols Ap Aii) m n M := by
  intro h
  have hmem : (Aii.getD (Ap.getD 0 0) 0, 0, (0 : R)) ∈ (writeStructure sort filename rows cols Ap Aii).lines := by
    refine (hs _).1.mem_iff.2 (List.mem_flatMap.2 ⟨0, List.mem_range.2 hc, List.mem_flatMap.2 ⟨0, List.mem_range.2 (Nat.sub_pos_of_lt h0), ?_⟩⟩)
    simp
  have := h.inside _ hmem
  simp only at this
  omega

/-- The name is cut at the last dot of the whole path: a file without extension in the directory above gets the name ".", and in a directory with a dot the beginning of the path. -/
theorem C129_name_counterexample : headerName "../H".toList = ".".toList ∧ headerName "run.1/H".toList = "run".toList := by decide

theorem dropWhile_all {p : Char → Bool} (l : List Char) (h : ∀ a ∈ l, p a = true) : l.dropWhile p = [] := by
  induction l with
  | nil => rfl
  | cons a l ih => rw [List.dropWhile_cons_of_pos (h a (by simp)), ih fun b hb => h b (by simp [hb])]

/-- With an extension the name is the path without it; a path without any dot is kept. -/
theorem C129_name (stem ext : List Char) (h : '.' ∉ ext) : headerName (stem ++ '.' :: ext) = stem ∧ headerName ext = ext := by
  have h0 : ext.reverse.dropWhile (· ≠ '.') = [] := by
    refine dropWhile_all _ fun a ha => ?_
    have : a ∈ ext := by simpa using ha
    simp only [ne_eq, decide_not, Bool.not_eq_eq_eq_not, Bool.not_true, decide_eq_false_iff_not]
    rintro rfl
    exact h this
  refine ⟨?_, by unfold headerName; rw [h0]⟩
  unfold headerName
  have h1 : (stem ++ '.' :: ext).reverse = ext.reverse ++ '.' :: stem.reverse := by simp
  have h2 : (ext.reverse ++ '.' :: stem.reverse).dropWhile (· ≠ '.') = '.' :: stem.reverse := by
    rw [List.dropWhile_append_of_pos]
    · simp
    · intro a ha
      have : a ∈ ext := by simpa using ha
      simp only [ne_eq, decide_not, Bool.not_eq_eq_eq_not, Bool.not_true, decide_eq_false_iff_not]
      rintro rfl
      exact h this
  rw [h1, h2]
  simp

/-! ### The hypotheses are met -/

/-- Insertion sort by the comparator sorts. -/
def demoSort : List (Triplet Int) → List (Triplet Int) := List.insertionSort fun p q => p.2.1 < q.2.1 ∨ p.2.1 = q.2.1 ∧ p.1 ≤ q.1

theorem demoSort_isSort : IsSort demoSort := by
  intro l
  refine ⟨List.perm_insertionSort _ _, ?_⟩
  haveI : Std.Total (fun p q : Triplet Int => p.2.1 < q.2.1 ∨ p.2.1 = q.2.1 ∧ p.1 ≤ q.1) := ⟨fun a b => by omega⟩
  haveI : IsTrans (Triplet Int) (fun p q : Triplet Int => p.2.1 < q.2.1 ∨ p.2.1 = q.2.1 ∧ p.1 ≤ q.1) := ⟨fun a b c => by omega⟩
  refine (List.pairwise_insertionSort _ l).imp ?_
  intro a b h
  unfold colLt
  omega

/-- The lines of the file of the matrix of CCSProps, mirrored. -/
example : (demoUpper.writeOctave demoSort "H.txt".toList true).lines =
    [(1, 1, 1), (2, 1, 2), (3, 1, 10), (1, 2, 3), (2, 2, 4), (3, 2, 11), (1, 3, 10), (2, 3, 11)] := by decide +kernel

example : MirroredBy demoUpper fun i j => if i = 2 then (if j = 2 then 0 else 10 + (j : Int)) else demoUpper.toDense.e i j := by
  intro r c a b hr hc ha hb
  have hr' : r < 2 := hr
  have hc' : c < 2 := hc
  obtain rfl | rfl : r = 0 ∨ r = 1 := by omega
  · have ha' : a < 2 := ha
    obtain rfl | rfl : c = 0 ∨ c = 1 := by omega
    · have hb' : b < 2 := hb
      interval_cases a <;> interval_cases b <;> decide
    · have hb' : b < 1 := hb
      interval_cases a <;> interval_cases b <;> decide
  · have ha' : a < 1 := ha
    obtain rfl | rfl : c = 0 ∨ c = 1 := by omega
    · have hb' : b < 2 := hb
      interval_cases a <;> interval_cases b <;> decide
    · have hb' : b < 1 := hb
      interval_cases a <;> interval_cases b <;> decide

/-- Arrays with an upper triangle only. -/
example : CCS.Legal (⟨[0, 1, 3], [0, 0, 1], [4, 5, 6]⟩ : CCS.Arrays Int) 2 2 ∧
    ∀ j < 2, ∀ k, [0, 1, 3].getD j 0 ≤ k → k < [0, 1, 3].getD (j + 1) 0 → [0, 0, 1].getD k 0 ≤ j := by
  refine ⟨⟨rfl, rfl, ?_, rfl, rfl, ?_, ?_⟩, ?_⟩
  · intro j hj; interval_cases j <;> decide
  · intro k hk
    have : k < 3 := hk
    interval_cases k <;> decide
  · intro j hj k h1 h2
    interval_cases j
    · simp at h1 h2
    · simp only [List.getD_cons_succ, List.getD_cons_zero] at h1 h2
      obtain rfl : k = 1 := by omega
      decide
  · intro j hj k h1 h2
    interval_cases j
    · simp only [List.getD_cons_succ, List.getD_cons_zero] at h1 h2
      obtain rfl : k = 0 := by omega
      decide
    · simp only [List.getD_cons_succ, List.getD_cons_zero] at h1 h2
      interval_cases k <;> decide

example : (writeCCSMatrix demoSort "A".toList 2 2 (⟨[0, 1, 3], [0, 0, 1], [4, 5, 6]⟩ : CCS.Arrays Int) true).lines = [(1, 1, 4), (2, 1, 5), (1, 2, 5), (2, 2, 6)] := by decide +kernel

end Verif.SBM
