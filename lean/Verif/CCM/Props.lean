import Verif.CCM.Assemble
import Mathlib.Algebra.Order.Ring.Abs
import Mathlib.Algebra.Order.Ring.Int

/-! Property theorems C12 to C17. `WF A` says that the three arrays are legal compressed-column storage of
an `A.rows × A.cols` matrix (`Verif.CCS.Legal`), `CCS.read` is the matrix they stand for. -/
namespace Verif.CCM
open Verif.MatrixStack Verif.MatrixStack.Spec Verif.Jacobian Verif.Jacobian.Spec

variable {R : Type} [Semiring R]

/-- A 3×3 matrix with an empty column, a full one and one with a gap. -/
def demo : CCM Int := ⟨3, 3, [5, -1, 2, 7, 4], [0, 1, 2, 0, 2], [0, 0, 3, 5], false, false⟩

theorem demo_wf : WF demo := by
  refine ⟨rfl, rfl, ?_, rfl, rfl, ?_, ?_⟩
  · intro j hj
    have : j = 0 ∨ j = 1 ∨ j = 2 := by simp [demo] at hj; omega
    rcases this with rfl | rfl | rfl <;> decide
  · intro k hk
    have : k = 0 ∨ k = 1 ∨ k = 2 ∨ k = 3 ∨ k = 4 := by simp [demo, arrays] at hk; omega
    rcases this with rfl | rfl | rfl | rfl | rfl <;> decide
  · intro j hj k h1 h2
    have : j = 0 ∨ j = 1 ∨ j = 2 := by simp [demo] at hj; omega
    rcases this with rfl | rfl | rfl
    · simp [demo, arrays] at h2
    · have : k = 0 ∨ k = 1 := by simp [demo, arrays] at h2; omega
      rcases this with rfl | rfl <;> decide
    · have : k = 3 := by simp [demo, arrays] at h1 h2; omega
      subst this; decide

/-! ### C12 -/

/-- **C12.** For every well-formed matrix, reading any in-range element gives the corresponding element of the
dense expansion (stored or not), and `value` throws for every index out of range. -/
theorem C12_lookup_is_dense (debug : Bool) (A : CCM R) (h : WF A) :
    ∃ M, toDense A = .ok M ∧
      (∀ r c, r < A.rows → c < A.cols → access debug A r c = .ok (M r c) ∧ value debug A r c = .ok (M r c) ∧
        M r c = CCS.read (arrays A) r c) ∧
      (∀ r c, ¬ (r < A.rows ∧ c < A.cols) → value debug A r c = .exc) := by
  obtain ⟨M, e, hM⟩ := toDense_ok h
  refine ⟨M, e, ?_, ?_⟩
  · intro r c hr hc
    rw [hM r c hc]
    refine ⟨access_ok debug h hr hc, ?_, rfl⟩
    unfold value
    rw [if_neg (by simp [hr, hc]), access_ok debug h hr hc]
  · intro r c hn
    unfold value
    rw [if_pos hn]

example : WF demo ∧ value false demo 2 2 = .ok 4 ∧ value false demo 1 2 = .ok 0 ∧ value false demo 0 0 = .ok 0 := by
  obtain ⟨M, _, h, _⟩ := C12_lookup_is_dense false demo demo_wf
  refine ⟨demo_wf, ?_, ?_, ?_⟩
  · rw [(h 2 2 (by decide) (by decide)).2.1, (h 2 2 (by decide) (by decide)).2.2]; rfl
  · rw [(h 1 2 (by decide) (by decide)).2.1, (h 1 2 (by decide) (by decide)).2.2]; rfl
  · rw [(h 0 0 (by decide) (by decide)).2.1, (h 0 0 (by decide) (by decide)).2.2]; rfl

/-! ### C13 -/

/-- **C13.** Building from a dense matrix with tolerance `tol` - whatever the object contained before - and
expanding gives the dense matrix with exactly the entries of magnitude at most `|tol|` replaced by zero. -/
theorem C13_dense_round_trip {K : Type} [Ring K] [LinearOrder K] [IsStrictOrderedRing K] (A : CCM K) (M : DMat K) (tol : K) :
    ∃ B D, fromDense (fun x => decide (|tol| < |x|)) A M = .ok B ∧ toDense B = .ok D ∧
      B.rows = M.rows ∧ B.cols = M.cols ∧ WF B ∧
      ∀ i j, i < M.rows → j < M.cols → D i j = if |M.e i j| ≤ |tol| then 0 else M.e i j := by
  obtain ⟨B, e, h1, h2, h3, h4, h5⟩ := fromDense_ok (fun x => decide (|tol| < |x|)) A M
  have hwf : WF B := h5.wf (by rw [h1]; exact denseColumn_ok _ M)
  obtain ⟨D, eD, hD⟩ := toDense_ok hwf
  refine ⟨B, D, e, eD, h1, h2, hwf, ?_⟩
  intro i j hi hj
  rw [hD i j (by omega), h5.read i j (by simpa using hj)]
  simp only [List.getElem_map, List.getElem_range]
  rw [denseColumn_read _ M j i hi]
  by_cases h : |M.e i j| ≤ |tol|
  · rw [if_pos h, if_neg (by simpa using h)]
  · rw [if_neg h, if_pos (by simpa using h)]

/-- Entries for which the comparison is false are dropped whatever they are; in the code this includes
NaN, which silently becomes zero. -/
theorem C13_incomparable_entries_vanish (big : R → Bool) (A : CCM R) (M : DMat R) (i j : Nat) (hi : i < M.rows)
    (hj : j < M.cols) (h : big (M.e i j) = false) :
    ∃ B D, fromDense big A M = .ok B ∧ toDense B = .ok D ∧ D i j = 0 := by
  obtain ⟨B, e, h1, h2, h3, h4, h5⟩ := fromDense_ok big A M
  have hwf : WF B := h5.wf (by rw [h1]; exact denseColumn_ok _ M)
  obtain ⟨D, eD, hD⟩ := toDense_ok hwf
  refine ⟨B, D, e, eD, ?_⟩
  rw [hD i j (by omega), h5.read i j (by simpa using hj)]
  simp only [List.getElem_map, List.getElem_range]
  rw [denseColumn_read _ M j i hi, h]
  rfl

/-! ### C14 -/

/-- Calls that deal with the appended diagonal. -/
inductive DiagOp (R : Type) where
  | push (d : List R)
  | pushConst (c : R)
  | update (d : List R)
  | updateConst (c : R)
  | pop

/-- One call (`pushDiagonalBlock`, ..., CCM.hpp:309-373). -/
def diagStep (A : CCM R) : DiagOp R → Res (CCM R)
  | .push d => pushDiag A d
  | .pushConst c => pushConstDiag A c
  | .update d => updateDiag A d
  | .updateConst c => updateConstDiag A c
  | .pop => popDiag A

/-- What should happen to the appended diagonal of a matrix with `n` rows; `none` for a call that is not
allowed. -/
def diagSpec (n : Nat) : Option (List R) → DiagOp R → Option (Option (List R))
  | none, .push d => if d.length = n then some (some d) else none
  | none, .pushConst c => some (some (List.replicate n c))
  | some _, .update d => if d.length = n then some (some d) else none
  | some _, .updateConst c => some (some (List.replicate n c))
  | some _, .pop => some none
  | _, _ => none

/-- Legal sequences of calls. -/
inductive DiagRun (n : Nat) : Option (List R) → List (DiagOp R) → Option (List R) → Prop
  | nil (s) : DiagRun n s [] s
  | cons {s s' s'' o os} : diagSpec n s o = some s' → DiagRun n s' os s'' → DiagRun n s (o :: os) s''

/-- The matrix in a given state of the diagonal. -/
def diagState (A : CCM R) : Option (List R) → CCM R
  | none => A
  | some d => withDiag A d

theorem diag_step {A : CCM R} (h : WF A) (hf : A.hasDiag = false) {s s' : Option (List R)} {o : DiagOp R}
    (hs : ∀ d, s = some d → d.length = A.rows) (ho : diagSpec A.rows s o = some s') :
    diagStep (diagState A s) o = .ok (diagState A s') ∧ ∀ d, s' = some d → d.length = A.rows := by
  cases s with
  | none =>
    cases o with
    | push d =>
      simp only [diagSpec] at ho
      split at ho
      · rename_i hd; cases ho
        exact ⟨pushDiag_ok h hf d hd, by rintro d' h'; cases h'; exact hd⟩
      · cases ho
    | pushConst c =>
      simp only [diagSpec] at ho; cases ho
      exact ⟨pushDiag_ok h hf (List.replicate A.rows c) (by simp), by rintro d' h'; cases h'; simp⟩
    | update d => cases ho
    | updateConst c => cases ho
    | pop => cases ho
  | some d0 =>
    have h0 := hs d0 rfl
    cases o with
    | push d => cases ho
    | pushConst c => cases ho
    | update d =>
      simp only [diagSpec] at ho
      split at ho
      · rename_i hd; cases ho
        exact ⟨updateDiag_ok d0 d h0 hd, by rintro d' h'; cases h'; exact hd⟩
      · cases ho
    | updateConst c =>
      simp only [diagSpec] at ho; cases ho
      exact ⟨updateConstDiag_ok d0 c h0, by rintro d' h'; cases h'; simp⟩
    | pop =>
      simp only [diagSpec] at ho; cases ho
      exact ⟨popDiag_ok h hf d0 h0, by rintro d' h'; cases h'⟩

theorem diag_run {A : CCM R} (h : WF A) (hf : A.hasDiag = false) {s s' : Option (List R)} {os : List (DiagOp R)}
    (hs : ∀ d, s = some d → d.length = A.rows) (hr : DiagRun A.rows s os s') :
    Res.run diagStep (diagState A s) os = .ok (diagState A s') ∧ ∀ d, s' = some d → d.length = A.rows := by
  induction hr with
  | nil s => exact ⟨rfl, hs⟩
  | cons ho _ ih =>
    obtain ⟨e, h2⟩ := diag_step h hf hs ho
    obtain ⟨e', h3⟩ := ih h2
    exact ⟨by simp only [Res.run_cons, e, Res.bind_ok, e'], h3⟩

/-- **C14.** After any legal sequence of push, update and pop calls every call has returned normally and:
with no diagonal appended the object is exactly the original one; with `d` appended it is a well-formed
matrix with one more column per row whose old columns are unchanged and whose new columns hold `d` on the
diagonal and zero elsewhere. -/
theorem C14_diagonal_sequences (A : CCM R) (h : WF A) (hf : A.hasDiag = false) (os : List (DiagOp R))
    (s : Option (List R)) (hr : DiagRun A.rows none os s) :
    ∃ B, Res.run diagStep A os = .ok B ∧ WF B ∧
      (s = none → B = A) ∧
      (∀ d, s = some d → B.rows = A.rows ∧ B.cols = A.cols + A.rows ∧
        (∀ i j, j < A.cols → CCS.read (arrays B) i j = CCS.read (arrays A) i j) ∧
        (∀ i j, j < A.rows → CCS.read (arrays B) i (A.cols + j) = if i = j then d.getD j 0 else 0)) := by
  obtain ⟨e, hd⟩ := diag_run h hf (s := none) (by simp) hr
  refine ⟨_, e, ?_, ?_, ?_⟩
  · cases s with
    | none => exact h
    | some d => exact withDiag_wf h d (hd d rfl)
  · rintro rfl; rfl
  · rintro d rfl
    have hd' := hd d rfl
    exact ⟨rfl, rfl, fun i j hj => withDiag_read_old h d hd' i j hj, fun i j hj => withDiag_read_new h d hd' i j hj⟩

/-- **C14** (rejected calls). With no diagonal appended pop and both updates throw, and so does a push of the
wrong length; with a diagonal appended both pushes throw. -/
theorem C14_illegal_calls_rejected (A : CCM R) (h : WF A) (hf : A.hasDiag = false) :
    popDiag A = .exc ∧ (∀ d, updateDiag A d = .exc) ∧ (∀ c, updateConstDiag A c = .exc) ∧
    (∀ d : List R, d.length ≠ A.rows → pushDiag A d = .exc) ∧
    (∀ d : List R, d.length = A.rows → ∀ B, pushDiag A d = .ok B →
      (∀ d', pushDiag B d' = .exc) ∧ ∀ c, pushConstDiag B c = .exc) := by
  refine ⟨by simp [popDiag, hf], by simp [updateDiag, hf], by simp [updateConstDiag, hf], ?_, ?_⟩
  · intro d hd
    simp only [pushDiag, h.check, Res.bind_ok, if_pos hd]
  · intro d hd B hB
    rw [pushDiag_ok h hf d hd] at hB
    cases hB
    have key : ∀ d', pushDiag (withDiag A d) d' = .exc := by
      intro d'
      simp only [pushDiag, (withDiag_wf h d hd).check, Res.bind_ok]
      by_cases hl : d'.length ≠ (withDiag A d).rows
      · rw [if_pos hl]
      · rw [if_neg hl]; simp [withDiag]
    exact ⟨key, fun c => key _⟩

/-- The length of the vector passed to `updateDiagonalBlock` is not checked although the length passed to
`pushDiagonalBlock` is. -/
theorem C14_update_length_unchecked (A : CCM R) (h : WF A) (hf : A.hasDiag = false) (d d' : List R)
    (hd : d.length = A.rows) (hd' : d'.length ≠ A.rows) :
    (pushDiag A d >>= fun B => updateDiag B d') = .ub := by
  rw [pushDiag_ok h hf d hd, Res.bind_ok]
  unfold updateDiag
  rw [if_neg (by simp [withDiag]), if_pos (by simpa [withDiag] using hd')]

example : WF demo ∧ demo.hasDiag = false ∧
    DiagRun demo.rows none [.push [1, 2, 3], .updateConst 4, .pop, .pushConst 9, .update [7, 8, 9]] (some [7, 8, 9]) :=
  ⟨demo_wf, rfl, .cons rfl (.cons rfl (.cons rfl (.cons rfl (.cons rfl (.nil _)))))⟩

/-! ### C15 -/

/-- **C15.** For every well-formed matrix without appended diagonal and every vector of the right length,
`rightMultiply` is `A x` and `leftMultiply` is `Aᵀ x`; vectors of any other length are rejected. -/
theorem C15_products (A : CCM R) (h : WF A) (hf : A.hasDiag = false) :
    (∀ x : List R, x.length = A.cols → ∃ y, rightMultiply A x = .ok y ∧
      ∀ i, i < A.rows → y i = ∑ j ∈ Finset.range A.cols, CCS.read (arrays A) i j * x.getD j 0) ∧
    (∀ x : List R, x.length = A.rows → ∃ y, leftMultiply A x = .ok y ∧
      ∀ j, j < A.cols → y j = ∑ i ∈ Finset.range A.rows, CCS.read (arrays A) i j * x.getD i 0) ∧
    (∀ x : List R, x.length ≠ A.cols → rightMultiply A x = .exc) ∧
    (∀ x : List R, x.length ≠ A.rows → leftMultiply A x = .exc) := by
  have hp : prodCols A = A.cols := by simp [prodCols, hf]
  refine ⟨?_, ?_, ?_, ?_⟩
  · intro x hx
    obtain ⟨y, e, hy⟩ := rightMultiply_ok h (by omega) x (by omega)
    rw [hp] at hy
    exact ⟨y, e, fun i _ => hy i⟩
  · intro x hx
    obtain ⟨y, e, hy⟩ := leftMultiply_ok h (by omega) x hx
    rw [hp] at hy
    exact ⟨y, e, hy⟩
  · intro x hx
    simp only [rightMultiply, hp]
    rw [if_pos hx]
  · intro x hx
    unfold leftMultiply
    rw [if_pos hx]

/-- **C15** (with appended diagonal). Both products ignore the diagonal block: they are those of the matrix
before the push. -/
theorem C15_products_ignore_diagonal (A : CCM R) (h : WF A) (hf : A.hasDiag = false) (d : List R)
    (hd : d.length = A.rows) :
    ∃ B, pushDiag A d = .ok B ∧
    (∀ x : List R, x.length = A.cols → ∃ y, rightMultiply B x = .ok y ∧
      ∀ i, i < A.rows → y i = ∑ j ∈ Finset.range A.cols, CCS.read (arrays A) i j * x.getD j 0) ∧
    (∀ x : List R, x.length = A.rows → ∃ y, leftMultiply B x = .ok y ∧
      ∀ j, j < A.cols → y j = ∑ i ∈ Finset.range A.rows, CCS.read (arrays A) i j * x.getD i 0) := by
  refine ⟨_, pushDiag_ok h hf d hd, ?_, ?_⟩
  all_goals
    have hp : prodCols (withDiag A d) = A.cols := by simp [prodCols, withDiag]
    have hle : prodCols (withDiag A d) ≤ (withDiag A d).cols := by rw [hp]; simp [withDiag]
    intro x hx
  · obtain ⟨y, e, hy⟩ := rightMultiply_ok (withDiag_wf h d hd) hle x (by omega)
    refine ⟨y, e, fun i _ => ?_⟩
    rw [hy, hp]
    apply Finset.sum_congr rfl
    intro j hj
    rw [withDiag_read_old h d hd i j (Finset.mem_range.1 hj)]
  · obtain ⟨y, e, hy⟩ := leftMultiply_ok (withDiag_wf h d hd) hle x hx
    refine ⟨y, e, fun j hj => ?_⟩
    rw [hy j (by omega)]
    apply Finset.sum_congr rfl
    intro i _
    rw [withDiag_read_old h d hd i j hj]

/-! ### C17 -/

/-- **C17** fails: after `clear` the number of column pointers follows the number of *rows* while the reported
number of columns stays, so the matrix is rejected by its own consistency check unless it was square. The
structure of a wide matrix is then read out of bounds, and a tall one is expanded outside of the dense
matrix or rejected when columns are appended. -/
theorem C17_clear_counterexample :
    (∀ A : CCM R, A.rows ≠ A.cols → check (clear A) = .exc) ∧
    (∃ A : CCM Int, WF A ∧ A.hasDiag = false ∧ value false (clear A) 0 2 = .ub ∧
      pushDiag (clear A) [1, 1] = .exc ∧ rightMultiply (clear A) [1, 1, 1] = .ub) := by
  constructor
  · intro A h
    unfold check clear
    simp only [List.getLast?_replicate, Nat.add_eq_zero_iff, one_ne_zero, and_false, if_false,
      List.length_replicate]
    rw [if_neg (by omega)]
  · refine ⟨⟨2, 3, [], [], [0, 0, 0, 0], false, false⟩, ?_, rfl, ?_, ?_, ?_⟩
    · refine ⟨rfl, rfl, ?_, rfl, rfl, ?_, ?_⟩
      · intro j hj
        have : j = 0 ∨ j = 1 ∨ j = 2 := by simp at hj; omega
        rcases this with rfl | rfl | rfl <;> decide
      · intro k hk; simp [arrays] at hk
      · intro j hj k h1 h2
        have : j = 0 ∨ j = 1 ∨ j = 2 := by simp at hj; omega
        rcases this with rfl | rfl | rfl <;> simp [arrays] at h2
    · simp [value, access, clear, elt]
    · simp [pushDiag, clear, check]
    · simp [rightMultiply, prodCols, clear, rightCol, elt, List.range_succ]

/-- The diagonal flag also survives `clear` and the construction from a dense matrix: the products of a
matrix loaded into an object that had a diagonal appended are rejected or cover too few columns, and
popping removes columns that were never pushed. -/
theorem C17_stale_flag_counterexample :
    ∃ A B C D : CCM Int, WF A ∧ pushDiag A [1, 1] = .ok B ∧
      (clear B).hasDiag = true ∧
      fromDense (fun x => decide ((0 : Int) < |x|)) B ⟨2, 3, fun i j => (i : Int) + j + 1⟩ = .ok C ∧
      rightMultiply C [1, 1, 1] = .exc ∧ popDiag C = .exc ∧
      fromDense (fun x => decide ((0 : Int) < |x|)) B ⟨2, 2, fun i j => if i = j then 5 else 0⟩ = .ok D ∧
      popDiag D = .ok { D with values := [], rowInd := [], colPtr := [0], cols := 0, hasDiag := false } := by
  refine ⟨new 2 1, ⟨2, 3, [1, 1], [0, 1], [0, 0, 1, 2], true, false⟩,
    ⟨2, 3, [1, 2, 2, 3, 3, 4], [0, 1, 0, 1, 0, 1], [0, 2, 4, 6], true, false⟩,
    ⟨2, 2, [5, 5], [0, 1], [0, 1, 2], true, false⟩, ?_, ?_, rfl, ?_, ?_, ?_, ?_, ?_⟩
  · refine ⟨rfl, rfl, ?_, rfl, rfl, ?_, ?_⟩
    · intro j hj
      have : j = 0 := by simp [new, init] at hj; omega
      subst this; decide
    · intro k hk; simp [arrays, new, init] at hk
    · intro j hj k h1 h2
      have : j = 0 := by simp [new, init] at hj; omega
      subst this; simp [arrays, new, init] at h2
  all_goals rfl

/-- `clear` followed by `init`, which is what the builder does, gives a valid empty matrix of the requested
size, ready for any operation, whatever the object held before. -/
theorem C17_clear_init_partial (A : CCM R) (rows cols : Nat) :
    WF (init (clear A) rows cols) ∧ (init (clear A) rows cols).hasDiag = false ∧
      (init (clear A) rows cols).rows = rows ∧ (init (clear A) rows cols).cols = cols ∧
      ∀ i j, CCS.read (arrays (init (clear A) rows cols)) i j = 0 := by
  have h0 : ∀ j, (List.replicate (cols + 1) 0).getD j 0 = 0 := by
    intro j
    rw [List.getD_eq_getElem?_getD, List.getElem?_replicate]
    split <;> rfl
  refine ⟨⟨by simp [arrays, init, clear], h0 0, ?_, ?_, rfl, ?_, ?_⟩, rfl, rfl, rfl, ?_⟩
  · intro j _
    simp only [arrays, init, clear, h0, le_refl]
  · simp only [arrays, init, clear, h0, List.length_nil]
  · intro k hk; simp [arrays, init, clear] at hk
  · intro j _ k _ h2
    simp only [arrays, init, clear, h0] at h2
    omega
  · intro i j
    unfold CCS.read
    simp only [arrays, init, clear, h0]
    simp

/-! ### C16 -/

/-- First row of term `k` in the stacked Jacobian. -/
def rowBase (ts : List (Term R × List (Event R))) (k : Nat) : Nat := ((ts.take k).map fun p => p.1.dim).sum

theorem stackCols_length (env : Env R) (ts : List (Term R × List (Event R))) :
    (stackCols env ts).length = (ts.map fun p => p.1.dim).sum := by
  simp [stackCols, List.length_flatMap, termCols]

theorem stackCols_getElem? (env : Env R) (ts : List (Term R × List (Event R))) (k c : Nat) (hk : k < ts.length)
    (hc : c < ts[k].1.dim) : (stackCols env ts)[rowBase ts k + c]? = (termCols env ts[k].1 ts[k].2)[c]? := by
  induction ts generalizing k with
  | nil => simp at hk
  | cons p ts ih =>
    have hl : (termCols env p.1 p.2).length = p.1.dim := by simp [termCols]
    cases k with
    | zero =>
      simp only [rowBase, stackCols, List.flatMap_cons, List.take_zero, List.map_nil, List.sum_nil, Nat.zero_add,
        List.getElem_cons_zero] at hc ⊢
      rw [List.getElem?_append_left (by omega)]
    | succ k =>
      have := ih k (by simpa using hk) (by simpa using hc)
      simp only [rowBase, stackCols, List.flatMap_cons, List.take_succ_cons, List.map_cons, List.sum_cons,
        List.getElem_cons_succ] at this ⊢
      rw [List.getElem?_append_right (by omega), hl, Nat.add_assoc, Nat.add_sub_cancel_left]
      exact this

/-- **C16.** For every non-empty list of error terms (with any calls on their Jacobian containers that are
legal and touch exactly the term's active design variables) and every number of threads: setting up the
structure and writing the values both return normally, whatever the matrix held before, and the result is a
well-formed matrix in which the rows of design variable `d` and the columns of term `k` hold the transposed
Jacobian of that term, zero if the term does not depend on `d`. -/
theorem C16_transposed_jacobian (debug : Bool) (align : Nat) (ha : 0 < align) (env : Env R) (dvs : List Nat)
    (last : Nat) (hlast : dvs.getLast? = some last)
    (hl : ColumnLayout env (env.columnBase last + env.dim last).toNat)
    (ts : List (Term R × List (Event R))) (hne : ts ≠ []) (ht : ∀ p ∈ ts, LegalTerm env align p.1 p.2)
    (b0 : Builder R) (hact : b0.mat.acceptConst = true ∨ ∀ p ∈ ts, ∃ d ∈ p.1.dvs, env.active d = true)
    (nThreads : Nat) :
    ∃ b1 b2, initStructure debug env b0 dvs (ts.map Prod.fst) = .ok b1 ∧
      buildSystem debug align env b1 nThreads = .ok b2 ∧ WF b2.mat ∧
      b2.mat.rows = (env.columnBase last + env.dim last).toNat ∧
      b2.mat.cols = (ts.map fun p => p.1.dim).sum ∧
      ∀ (d r k c : Nat) (hk : k < ts.length), env.active d = true → r < env.dim d → c < ts[k].1.dim →
        CCS.read (arrays b2.mat) (env.columnBase d + (r : Int)).toNat (rowBase ts k + c) = total ts[k].2 d c r := by
  set A0 := init (clear b0.mat) (env.columnBase last + env.dim last).toNat 0 with hA0
  have hrep0 : Rep A0 [] := ⟨by rw [CCS.build_eq]; rfl, rfl⟩
  obtain ⟨B, h1, h2, h3, h4⟩ := symbolicAll_ok debug env (ts.map Prod.fst) A0 hl [] hrep0 rfl (by
    refine hact.imp id fun h t ht' => ?_
    obtain ⟨p, hp, rfl⟩ := List.mem_map.1 ht'
    exact h p hp)
  rw [List.nil_append] at h4
  have hlB : ColumnLayout env B.rows := by rw [h2]; exact hl
  obtain ⟨vs, g1, g2⟩ := writes_any_order (debug := debug) B hlB ha ts ht h4 _ (fun _ => Iff.rfl)
  have hptrs : ∀ pt ∈ ptrsOf env 0 (ts.map Prod.fst), termJacobian debug align env pt.2 = .ok (jac debug align env pt.2) ∧
      (jac debug align env pt.2).length = pt.1.nActive := by
    intro pt hpt
    obtain ⟨m1, m2⟩ := mem_ptrsOf hpt
    obtain ⟨p, hp, he⟩ := List.mem_map.1 m1
    rw [← he] at m2 ⊢
    obtain ⟨j1, j2, j3⟩ := jac_ok (debug := debug) hl ha (ht p hp)
    exact ⟨j1, by rw [m2, ← j3, List.length_map]⟩
  have hlen : (ptrsOf env 0 (ts.map Prod.fst)).length = ts.length := by
    have := congrArg List.length (ptrsOf_terms env 0 (ts.map Prod.fst))
    simpa using this
  obtain ⟨js, k1, k2, k3⟩ := Threads.C18_solver_partition_partial (ptrsOf env 0 (ts.map Prod.fst)).length nThreads
    (by rw [hlen]; exact List.length_pos_of_ne_nil hne)
  refine ⟨⟨B, ptrsOf env 0 (ts.map Prod.fst)⟩, ⟨{ B with values := vs }, ptrsOf env 0 (ts.map Prod.fst)⟩, ?_, ?_, ?_, h2, ?_, ?_⟩
  · simp only [initStructure, hlast]
    rw [← hA0, h1, Res.bind_ok]
    rfl
  · simp only [buildSystem, k1, Res.bind_ok]
    rw [run_flatMap, slices_cover _ _ k2, run_writeTerm debug align env _ B hptrs, g1, Res.bind_ok, Res.bind_ok]
  · exact g2.wf (stackCols_ok hlB ts ht)
  · rw [g2.len, stackCols_length]
  · intro d r k c hk hd hr hc
    have hget := stackCols_getElem? env ts k c hk hc
    have hcl : c < (termCols env ts[k].1 ts[k].2).length := by simpa [termCols] using hc
    rw [List.getElem?_eq_getElem hcl] at hget
    obtain ⟨hj, he⟩ := List.getElem?_eq_some_iff.1 hget
    rw [g2.read _ _ hj, he]
    simp only [termCols, List.getElem_map, List.getElem_range]
    exact termCol_read hl (ht _ (List.getElem_mem hk)) c d r hd hr

/-- **C16** (write order). The individual element assignments made by all threads may be executed in any
order, with any interleaving: the values are the same as those of the sequential run. -/
theorem C16_any_write_order (debug : Bool) (align : Nat) (ha : 0 < align) (env : Env R) (dvs : List Nat)
    (last : Nat) (hlast : dvs.getLast? = some last)
    (hl : ColumnLayout env (env.columnBase last + env.dim last).toNat)
    (ts : List (Term R × List (Event R))) (ht : ∀ p ∈ ts, LegalTerm env align p.1 p.2)
    (b0 : Builder R) (hact : b0.mat.acceptConst = true ∨ ∀ p ∈ ts, ∃ d ∈ p.1.dvs, env.active d = true) :
    ∃ b1, initStructure debug env b0 dvs (ts.map Prod.fst) = .ok b1 ∧
      ∀ ws ws', ws.Perm (allWrites debug align env b1.ptrs) → ws'.Perm (allWrites debug align env b1.ptrs) →
        ∃ vs, putAll b1.mat.values ws = .ok vs ∧ putAll b1.mat.values ws' = .ok vs := by
  set A0 := init (clear b0.mat) (env.columnBase last + env.dim last).toNat 0 with hA0
  have hrep0 : Rep A0 [] := ⟨by rw [CCS.build_eq]; rfl, rfl⟩
  obtain ⟨B, h1, h2, h3, h4⟩ := symbolicAll_ok debug env (ts.map Prod.fst) A0 hl [] hrep0 rfl (by
    refine hact.imp id fun h t ht' => ?_
    obtain ⟨p, hp, rfl⟩ := List.mem_map.1 ht'
    exact h p hp)
  rw [List.nil_append] at h4
  have hlB : ColumnLayout env B.rows := by rw [h2]; exact hl
  refine ⟨⟨B, ptrsOf env 0 (ts.map Prod.fst)⟩, ?_, ?_⟩
  · simp only [initStructure, hlast]
    rw [← hA0, h1, Res.bind_ok]
    rfl
  · intro ws ws' hw hw'
    obtain ⟨v1, e1, r1⟩ := writes_any_order (debug := debug) B hlB ha ts ht h4 ws (fun w => hw.mem_iff)
    obtain ⟨v2, e2, r2⟩ := writes_any_order (debug := debug) B hlB ha ts ht h4 ws' (fun w => hw'.mem_iff)
    refine ⟨v1, e1, ?_⟩
    have := r1.arr.trans r2.arr.symm
    simp only [arrays, CCS.Arrays.mk.injEq] at this
    rw [e2, this.2.2]

theorem demoEnv_layout : ColumnLayout demoEnv 3 where
  block := demoEnv_ok.nonneg
  nonneg := demoEnv_columns.nonneg
  fits := demoEnv_columns.fits
  ordered := by
    intro d d' h h'
    have h1 : d = 0 ∨ d = 1 := by simpa [demoEnv] using h
    have h2 : d' = 0 ∨ d' = 1 := by simpa [demoEnv] using h'
    rcases h1 with rfl | rfl <;> rcases h2 with rfl | rfl <;> decide
  inj := demoEnv_ok.inj

/-- Two terms: the first depends on both active variables and an inactive one through nested scopes, the
second only on one variable. -/
example : ∃ ev, LegalTerm demoEnv 2 ⟨2, [0, 1, 2], demoOps⟩ ev ∧
    LegalTerm demoEnv 2 ⟨2, [2, 1], [.addId 1]⟩ [(1, contribution [] (ident 2 2))] := by
  refine ⟨_, ⟨by decide, ⟨[], .cons rfl (by simp [Fits, footprint, roundUp]) (.cons rfl (by simp [Fits, footprint, roundUp])
    (.cons rfl (by simp [Fits, footprint, roundUp, scalarMat, MatrixStack.Spec.cols])
    (.cons rfl (by simp [Fits, footprint, roundUp, scalarMat, MatrixStack.Spec.cols])
    (.cons rfl (by simp [Fits, footprint, roundUp, scalarMat, MatrixStack.Spec.cols])
    (.cons rfl (by simp [Fits, footprint, roundUp])
    (.cons rfl (by simp [Fits])
    (.cons rfl (by simp [Fits]) (.nil _)))))))) ⟩, by decide, ?_⟩,
    ⟨by decide, ⟨[], .cons rfl (by simp [Fits]) (.nil _)⟩, by decide, ?_⟩⟩
  · intro d
    have : ∀ x y z : Nat → Nat → Int, d ∈ [(0, x), (0, y), (1, z)].map Prod.fst ↔ d = 0 ∨ d = 1 := by simp
    refine Iff.trans ?_ (this _ _ _).symm
    simp [demoEnv]
    omega
  · intro d
    simp [demoEnv]
    omega

/-- The remaining hypotheses of the two C16 theorems: the last variable of the list ends the columns, and every term has an active variable. -/
example : ([1, 0] : List Nat).getLast? = some 0 ∧ ColumnLayout demoEnv (demoEnv.columnBase 0 + demoEnv.dim 0).toNat ∧
    ∀ t ∈ ([⟨2, [0, 1, 2], demoOps⟩, ⟨2, [2, 1], [.addId 1]⟩] : List (Term Int)), ∃ d ∈ t.dvs, demoEnv.active d = true := by
  refine ⟨rfl, demoEnv_layout, ?_⟩
  intro t ht
  simp only [List.mem_cons, List.not_mem_nil, or_false] at ht
  rcases ht with rfl | rfl
  · exact ⟨0, by decide, rfl⟩
  · exact ⟨1, by decide, rfl⟩

/-- A design variable that occurs twice in a term makes the value pass throw. -/
theorem C16_repeated_variable_counterexample :
    ∃ b : Builder Int, initStructure true demoEnv ⟨new 0 0, []⟩ [1, 0]
        [⟨1, [0, 0], [.add 0 ⟨1, 1, fun _ _ => 7⟩]⟩] = .ok b ∧
      buildSystem true 2 demoEnv b 1 = .exc := by
  refine ⟨⟨⟨3, 1, [0, 0], [2, 2], [0, 2], false, false⟩, [(⟨0, 2, 2⟩, ⟨1, [0, 0], [.add 0 ⟨1, 1, fun _ _ => 7⟩]⟩)]⟩, ?_, ?_⟩
  · rfl
  · rfl

end Verif.CCM
