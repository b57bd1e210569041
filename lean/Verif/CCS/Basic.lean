import Mathlib.Algebra.BigOperators.Group.List.Basic
import Mathlib.Algebra.BigOperators.Group.Finset.Basic
import Mathlib.Tactic.Ring

/-!
What compressed-column storage means, independent of any code: `cp` are the column pointers, `ci` the row
indices and `cx` the values.
-/
namespace Verif.CCS

/-- Three arrays of compressed-column storage. -/
structure Arrays (R : Type) where
  cp : List Nat
  ci : List Nat
  cx : List R

variable {R : Type} [AddCommMonoid R]

/-- Meaning of the arrays: element `(i,j)` is the sum of all values stored for row `i` between the
`j`-th and the `j+1`-st column pointer. -/
def read (M : Arrays R) (i j : Nat) : R :=
  ((List.range (M.cp.getD (j + 1) 0 - M.cp.getD j 0)).map fun t =>
    if M.ci.getD (M.cp.getD j 0 + t) 0 = i then M.cx.getD (M.cp.getD j 0 + t) 0 else 0).sum

/-- Well-formed arrays for an `m × n` matrix: `n+1` column pointers starting at 0, not decreasing and
ending at the number of stored values; row indices in range and strictly increasing within a column. -/
structure Legal (M : Arrays R) (m n : Nat) : Prop where
  cp_len : M.cp.length = n + 1
  cp_zero : M.cp.getD 0 0 = 0
  cp_mono : ∀ j, j < n → M.cp.getD j 0 ≤ M.cp.getD (j + 1) 0
  cp_last : M.cp.getD n 0 = M.cx.length
  len : M.ci.length = M.cx.length
  rows : ∀ k, k < M.ci.length → M.ci.getD k 0 < m
  incr : ∀ j, j < n → ∀ k, M.cp.getD j 0 ≤ k → k + 1 < M.cp.getD (j + 1) 0 →
    M.ci.getD k 0 < M.ci.getD (k + 1) 0

/-- Arrays without a final column pointer. -/
def pushCol (M : Arrays R) (col : List (Nat × R)) : Arrays R :=
  ⟨M.cp ++ [M.cx.length], M.ci ++ col.map Prod.fst, M.cx ++ col.map Prod.snd⟩

/-- Column lists written one after the other, followed by the final column pointer. -/
def build (cols : List (List (Nat × R))) : Arrays R :=
  let s := cols.foldl pushCol ⟨[], [], []⟩
  { s with cp := s.cp ++ [s.cx.length] }

/-- Number of entries in the first `j` columns. -/
def offset (cols : List (List (Nat × R))) (j : Nat) : Nat := ((cols.take j).map List.length).sum

theorem offset_append (cols : List (List (Nat × R))) (c : List (Nat × R)) (j : Nat)
    (hj : j ≤ cols.length) : offset (cols ++ [c]) j = offset cols j := by
  unfold offset
  rw [List.take_append_of_le_length hj]

theorem offset_len (cols : List (List (Nat × R))) : offset cols cols.length = cols.flatten.length := by
  unfold offset
  rw [List.take_length, List.length_flatten]

theorem foldl_push (cols : List (List (Nat × R))) :
    cols.foldl pushCol (⟨[], [], []⟩ : Arrays R) =
      ⟨(List.range cols.length).map (offset cols), cols.flatten.map Prod.fst,
        cols.flatten.map Prod.snd⟩ := by
  induction cols using List.reverseRecOn with
  | nil => rfl
  | append_singleton cols c ih =>
    rw [List.foldl_append, ih]
    simp only [List.foldl_cons, List.foldl_nil, pushCol, List.length_append, List.length_singleton,
      List.length_map, List.range_succ, List.map_append, List.map_cons, List.map_nil,
      List.flatten_append, List.flatten_cons, List.flatten_nil, List.append_nil]
    congr 1
    rw [offset_append _ _ _ (le_refl _), offset_len]
    congr 1
    apply List.map_congr_left
    intro j hj
    rw [offset_append]
    have : j < cols.length := by simpa using hj
    omega

theorem build_eq (cols : List (List (Nat × R))) :
    build cols = ⟨(List.range (cols.length + 1)).map (offset cols), cols.flatten.map Prod.fst,
      cols.flatten.map Prod.snd⟩ := by
  unfold build
  rw [foldl_push]
  simp only [List.range_succ, List.map_append, List.map_cons, List.map_nil, offset_len,
    List.length_map]

theorem getD_map_range {α : Type} (f : Nat → α) (n j : Nat) (d : α) (h : j < n) :
    ((List.range n).map f).getD j d = f j := by
  rw [List.getD_eq_getElem?_getD]
  simp [h]

theorem offset_succ (cols : List (List (Nat × R))) (j : Nat) (h : j < cols.length) :
    offset cols (j + 1) = offset cols j + cols[j].length := by
  unfold offset
  rw [List.take_succ]
  simp [h]

theorem flatten_getD {cols : List (List (Nat × R))} (j t : Nat) (h : j < cols.length)
    (ht : t < cols[j].length) : cols.flatten[offset cols j + t]? = cols[j][t]? := by
  have h1 : cols = cols.take j ++ cols[j] :: cols.drop (j + 1) := by
    rw [← List.drop_eq_getElem_cons h, List.take_append_drop]
  have h2 : cols.flatten = (cols.take j).flatten ++ (cols[j] ++ (cols.drop (j + 1)).flatten) := by
    conv_lhs => rw [h1, List.flatten_append, List.flatten_cons]
  have h3 : (cols.take j).flatten.length = offset cols j := by
    rw [List.length_flatten]; rfl
  rw [h2, List.getElem?_append_right (by omega), h3, show offset cols j + t - offset cols j = t by omega,
    List.getElem?_append_left ht]

/-- Reading a built matrix gives the sum of the matching entries of the column list. -/
theorem read_build (cols : List (List (Nat × R))) (i j : Nat) (h : j < cols.length) :
    read (build cols) i j = (cols[j].map fun e => if e.1 = i then e.2 else 0).sum := by
  unfold read
  rw [build_eq]
  simp only
  rw [getD_map_range _ _ _ _ (by omega), getD_map_range _ _ _ _ (by omega), offset_succ _ _ h,
    Nat.add_sub_cancel_left]
  congr 1
  apply List.ext_getElem
  · simp
  · intro t h1 h2
    have ht : t < cols[j].length := by simpa using h1
    have := flatten_getD (cols := cols) j t h ht
    simp only [List.getElem_map, List.getElem_range, List.getD_eq_getElem?_getD, List.getElem?_map,
      this, List.getElem?_eq_getElem ht, Option.map_some, Option.getD_some]

/-- A built matrix is legal when each column list is. -/
theorem legal_build (cols : List (List (Nat × R))) (m : Nat)
    (hrow : ∀ c ∈ cols, ∀ e ∈ c, e.1 < m) (hinc : ∀ c ∈ cols, c.Pairwise fun x y => x.1 < y.1) :
    Legal (build cols) m cols.length := by
  rw [build_eq]
  constructor
  · simp
  · rw [getD_map_range _ _ _ _ (by omega)]; simp [offset]
  · intro j hj
    simp only
    rw [getD_map_range _ _ _ _ (by omega), getD_map_range _ _ _ _ (by omega), offset_succ _ _ hj]
    omega
  · simp only
    rw [getD_map_range _ _ _ _ (by omega), offset_len, List.length_map]
  · simp only [List.length_map]
  · intro k hk
    have hk' : k < cols.flatten.length := by simpa only [List.length_map] using hk
    simp only [List.getD_eq_getElem?_getD, List.getElem?_map, List.getElem?_eq_getElem hk',
      Option.map_some, Option.getD_some]
    obtain ⟨c, hc, he⟩ := List.mem_flatten.1 (List.getElem_mem hk')
    exact hrow c hc _ he
  · intro j hj k h1 h2
    simp only at h1 h2 ⊢
    rw [getD_map_range _ _ _ _ (by omega)] at h1 h2
    rw [offset_succ _ _ hj] at h2
    obtain ⟨t, rfl⟩ := Nat.exists_eq_add_of_le h1
    have ht : t + 1 < cols[j].length := by omega
    have e1 := flatten_getD (cols := cols) j t hj (by omega)
    have e2 := flatten_getD (cols := cols) j (t + 1) hj ht
    simp only [List.getD_eq_getElem?_getD, List.getElem?_map, Nat.add_assoc, e1, e2,
      List.getElem?_eq_getElem ht, List.getElem?_eq_getElem (show t < cols[j].length by omega),
      Option.map_some, Option.getD_some]
    exact List.pairwise_iff_getElem.1 (hinc _ (List.getElem_mem hj)) _ _ (by omega) ht (by omega)

end Verif.CCS
