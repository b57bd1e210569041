import Verif.SBM.Props

/-!
The Python interface of sparse block matrices
(`aslam_backend_python/src/SparseBlockMatrix.cpp`, called PySBM.cpp below): whole sessions of calls, with
the exceptions that reach the Python program, and property theorem C139.
-/
namespace Verif.SBM
open Verif.MatrixStack (DMat)

variable {R : Type} [CommRing R]

/-- The calls on a `SparseBlockMatrixXd` object, PySBM.cpp:66-92. Indices are C++ `int`s. Left out: the
size queries, `clone` (claim C52) and the counts `nonZeros` and `nonZeroBlocks`. -/
inductive PyOp (R : Type) where
  | getBlock (r c : Int)
  | setBlock (r c : Int) (M : DMat R)
  | at (r c : Int)
  | isBlockSet (r c : Int)
  | clear (dealloc : Bool)
  | toDense
  | toDenseSymmetric

/-- What a call gives to the Python program: nothing, a number, a flag, a matrix or an exception. -/
inductive PyOut (R : Type) where
  | done
  | num (x : R)
  | flag (b : Bool)
  | mat (M : DMat R)
  | raised

/-- The bound checks `r < 0 || r >= sbm->bRows()` of `getBlock` and `setBlock`, PySBM.cpp:15-18, 37-40. -/
def pyIn (L : Layout) (r : Int) : Bool := !(decide (r < 0) || decide (r ≥ (L.n : Int)))

/-- Every stored block has the size that `toDenseInto` copies (SBM.hpp:191-192). Assigning a matrix of
another size to a block expression of Eigen stops at an assertion in debug builds and is undefined
behaviour otherwise. -/
def SBM.sized (A : SBM R) : Bool :=
  A.visits.all fun v => v.2.2.rows == A.rl.size v.1 && v.2.2.cols == A.cl.size v.2.1

/-- `selfadjointView<Upper>()` of a dense matrix, PySBM.cpp:55: the upper triangle and its pyMirror
image. -/
def pyMirror (H : DMat R) : DMat R := ⟨H.rows, H.cols, fun i j => if i ≤ j then H.e i j else H.e j i⟩

/-- One call. `getBlock` PySBM.cpp:14-32, `setBlock` 35-49 (`*blk = mat` resizes a dynamic matrix, so
the size of `mat` is not looked at), `toDenseSymmetric` 51-56 (needs a square matrix), `at` 58-62,
`clear` 11 and 75, `isBlockSet` SBM.h:75 with the debug-only bound checks of SBM.hpp:147-148.
Simplified: an assertion of Eigen that ends the process counts as undefined behaviour. -/
def pyStep (debug : Bool) (A : SBM R) : PyOp R → Res (SBM R × PyOut R)
  | .getBlock r c =>
    if !(pyIn A.rl r) then .ok (A, .raised)
    else if !(pyIn A.cl c) then .ok (A, .raised)
    else match A.block r.toNat c.toNat with
      | some B => .ok (A, .mat B)
      | none => .ok (A, .mat (A.zeroBlock r.toNat c.toNat))
  | .setBlock r c M =>
    if !(pyIn A.rl r) then .ok (A, .raised)
    else if !(pyIn A.cl c) then .ok (A, .raised)
    else if !A.hasStorage && (A.block r.toNat c.toNat).isNone then .ok (A, .raised)
    else match A.upd debug r.toNat c.toNat fun _ => M with
      | .ok A' => .ok (A', .done)
      | .exc => .ok (A, .raised)
      | .ub => .ub
  | .at r c =>
    if r < 0 ∨ c < 0 then .ok (A, .raised)
    else match A.get debug r.toNat c.toNat with
      | .ok x => .ok (A, .num x)
      | .exc => .ok (A, .raised)
      | .ub => .ub
  | .isBlockSet r c =>
    if !(pyIn A.rl r) || !(pyIn A.cl c) then (if debug then .ok (A, .raised) else .ub)
    else .ok (A, .flag (A.block r.toNat c.toNat).isSome)
  | .clear dealloc => .ok (A.clear dealloc, .done)
  | .toDense => if A.sized then .ok (A, .mat A.toDense) else .ub
  | .toDenseSymmetric =>
    if !A.sized then .ub
    else if A.rl.total ≠ A.cl.total then .ub
    else .ok (A, .mat (pyMirror A.toDense))

/-- A session: the calls one after the other on one object (PySBM.cpp:66-92), with all the results. A
call that raises leaves the program running. -/
def pyRun (debug : Bool) : SBM R → List (PyOp R) → Res (SBM R × List (PyOut R))
  | A, [] => .ok (A, [])
  | A, op :: ops =>
    match pyStep debug A op with
    | .ok (A', o) =>
      match pyRun debug A' ops with
      | .ok (D, os) => .ok (D, o :: os)
      | .exc => .exc
      | .ub => .ub
    | .exc => .exc
    | .ub => .ub

/-! ### What the calls mean -/

/-- A table of blocks: which are set, and their coefficients. -/
structure Table (R : Type) where
  set : Nat → Nat → Bool
  val : Nat → Nat → Nat → Nat → R

/-- The empty table. -/
def Table.empty : Table R := ⟨fun _ _ => false, fun _ _ _ _ => 0⟩

/-- Index of the block that holds row (column) `i`: the number of blocks that end at or before `i`. -/
def blockOf (L : Layout) (i : Nat) : Nat := ((Finset.range L.n).filter fun k => L.idx k ≤ i).card

/-- First row (column) of block `r`: the end of the block before. -/
def startOf (L : Layout) : Nat → Nat
  | 0 => 0
  | r + 1 => L.idx r

/-- Number of rows (columns) of block `r`. -/
def lenOf (L : Layout) (r : Nat) : Nat := L.idx r - startOf L r

/-- Coefficient `(i, j)` of the matrix that the table describes. -/
def Table.entry (T : Table R) (rl cl : Layout) (i j : Nat) : R :=
  T.val (blockOf rl i) (blockOf cl j) (i - startOf rl (blockOf rl i)) (j - startOf cl (blockOf cl j))

/-- `r` numbers a block. -/
def InBlk (L : Layout) (r : Int) : Prop := 0 ≤ r ∧ r < L.n

open Classical in
/-- What a call should do to the table and give back. Only a matrix that owns its blocks accepts new
blocks. -/
noncomputable def Table.step (rl cl : Layout) (own : Bool) (T : Table R) : PyOp R → Table R × PyOut R
  | .getBlock r c =>
    (T, if InBlk rl r ∧ InBlk cl c then
          .mat ⟨lenOf rl r.toNat, lenOf cl c.toNat, T.val r.toNat c.toNat⟩ else .raised)
  | .setBlock r c M =>
    if InBlk rl r ∧ InBlk cl c ∧ own = true then
      (⟨fun r' c' => if r' = r.toNat ∧ c' = c.toNat then true else T.set r' c',
        fun r' c' => if r' = r.toNat ∧ c' = c.toNat then M.e else T.val r' c'⟩, .done)
    else (T, .raised)
  | .at r c =>
    (T, if 0 ≤ r ∧ r < rl.total ∧ 0 ≤ c ∧ c < cl.total then .num (T.entry rl cl r.toNat c.toNat)
        else .raised)
  | .isBlockSet r c => (T, .flag (T.set r.toNat c.toNat))
  | .clear dealloc =>
    (⟨fun r c => if own = true ∧ dealloc = true then false else T.set r c, fun _ _ _ _ => 0⟩, .done)
  | .toDense => (T, .mat ⟨rl.total, cl.total, T.entry rl cl⟩)
  | .toDenseSymmetric =>
    (T, .mat ⟨rl.total, cl.total, fun i j => T.entry rl cl (min i j) (max i j)⟩)

/-- The results of a whole session, as they should be. -/
noncomputable def Table.run (rl cl : Layout) (own : Bool) : Table R → List (PyOp R) → List (PyOut R)
  | _, [] => []
  | T, op :: ops => (T.step rl cl own op).2 :: Table.run rl cl own (T.step rl cl own op).1 ops

/-- The same result: equal numbers and flags, and matrices of equal size with equal coefficients. -/
def PyOut.Same : PyOut R → PyOut R → Prop
  | .done, .done => True
  | .raised, .raised => True
  | .num x, .num y => x = y
  | .flag a, .flag b => a = b
  | .mat M, .mat N => M.rows = N.rows ∧ M.cols = N.cols ∧ ∀ i j, i < M.rows → j < M.cols → M.e i j = N.e i j
  | _, _ => False

/-- A call the interface does not check itself: a block given to `setBlock` must have the size of its
place, `isBlockSet` must be asked inside the layout, and only a square matrix can be mirrored. -/
def PyOp.Legal (rl cl : Layout) : PyOp R → Prop
  | .setBlock r c M => InBlk rl r → InBlk cl c → M.rows = lenOf rl r.toNat ∧ M.cols = lenOf cl c.toNat
  | .isBlockSet r c => InBlk rl r ∧ InBlk cl c
  | .toDenseSymmetric => rl.total = cl.total
  | _ => True

/-! ### Proofs -/

theorem pyIn_iff {L : Layout} {r : Int} : pyIn L r = true ↔ InBlk L r := by
  simp [pyIn, InBlk]

theorem startOf_eq (L : Layout) (r : Nat) : startOf L r = L.base r := by
  cases r <;> simp [startOf, Layout.base]

theorem lenOf_eq (L : Layout) (r : Nat) : lenOf L r = L.size r := by
  cases r <;> simp [lenOf, startOf, Layout.size]

theorem blockOf_eq {L : Layout} (h : L.Mono) {r a : Nat} (hr : r < L.n) (ha : a < L.size r) :
    blockOf L (L.base r + a) = r := by
  have key : ((Finset.range L.n).filter fun k => L.idx k ≤ L.base r + a) = Finset.range r := by
    ext k
    simp only [Finset.mem_filter, Finset.mem_range]
    constructor
    · rintro ⟨hk, hle⟩
      by_contra hlt
      have h1 := Layout.base_le h (r := r + 1) (s := k + 1) (by omega) (by omega)
      rw [Layout.base_succ, Layout.base_succ] at h1
      have h2 := Layout.base_add_size h hr
      rw [Layout.base_succ] at h2
      omega
    · intro hk
      have h1 := Layout.base_le h (r := k + 1) (s := r) (by omega) (by omega)
      rw [Layout.base_succ] at h1
      exact ⟨by omega, by omega⟩
  unfold blockOf
  rw [key, Finset.card_range]

/-- The object stands for the table. -/
structure Stands (rl cl : Layout) (own : Bool) (A : SBM R) (T : Table R) : Prop where
  wf : WF A
  rows : A.rl = rl
  cols : A.cl = cl
  stor : A.hasStorage = own
  set : ∀ r c, r < rl.n → c < cl.n → (A.block r c).isSome = T.set r c
  val : ∀ r c a b, r < rl.n → c < cl.n → a < rl.size r → b < cl.size c → A.at r c a b = T.val r c a b
  view : own = false → ∀ r c, A.block r c = none

theorem Stands.dense {rl cl : Layout} {own : Bool} {A : SBM R} {T : Table R}
    (h : Stands rl cl own A T) {i j : Nat} (hi : i < rl.total) (hj : j < cl.total) :
    A.toDense.e i j = T.entry rl cl i j := by
  obtain ⟨hw, rfl, rfl, ho, hs, hv, _⟩ := h
  obtain ⟨r, hr, a, ha, rfl⟩ := Layout.locate hw.rmono hi
  obtain ⟨c, hc, b, hb, rfl⟩ := Layout.locate hw.cmono hj
  rw [toDense_at hw hr hc ha hb, hv r c a b hr hc ha hb]
  unfold Table.entry
  rw [blockOf_eq hw.rmono hr ha, blockOf_eq hw.cmono hc hb, startOf_eq, startOf_eq]
  simp

theorem sized_of_WF {A : SBM R} (h : WF A) : A.sized = true := by
  unfold SBM.sized
  rw [List.all_eq_true]
  rintro ⟨r, c, B⟩ hv
  obtain ⟨hc, hm⟩ := mem_visits.1 hv
  have := h.shape c hc _ hm
  simpa using this.2

theorem toNat_lt {L : Layout} {r : Int} (h : InBlk L r) : r.toNat < L.n := by
  obtain ⟨h1, h2⟩ := h
  omega

theorem step_stands (debug : Bool) {rl cl : Layout} {own : Bool} {A : SBM R} {T : Table R}
    (h : Stands rl cl own A T) (op : PyOp R) (hop : op.Legal rl cl) :
    ∃ A' o, pyStep debug A op = .ok (A', o) ∧ Stands rl cl own A' (T.step rl cl own op).1 ∧
      o.Same (T.step rl cl own op).2 := by
  have hd := fun i j hi hj => h.dense (i := i) (j := j) hi hj
  obtain ⟨hw, rfl, rfl, rfl, hs, hv, hview⟩ := h
  have h0 : Stands A.rl A.cl A.hasStorage A T := ⟨hw, rfl, rfl, rfl, hs, hv, hview⟩
  cases op with
  | getBlock r c =>
    by_cases hr : InBlk A.rl r
    · by_cases hc : InBlk A.cl c
      · have hr' := toNat_lt hr
        have hc' := toNat_lt hc
        cases hb : A.block r.toNat c.toNat with
        | none =>
          refine ⟨A, .mat (A.zeroBlock r.toNat c.toNat), ?_, h0, ?_⟩
          · simp [pyStep, pyIn_iff.2 hr, pyIn_iff.2 hc, hb]
          · simp only [Table.step, hr, hc, and_self, if_true, PyOut.Same, lenOf_eq]
            refine ⟨rfl, rfl, fun i j hi hj => ?_⟩
            rw [← hv _ _ _ _ hr' hc' hi hj]
            simp [SBM.at, hb, SBM.zeroBlock]
        | some B =>
          obtain ⟨-, e1, e2⟩ := block_lt hw hc' hb
          refine ⟨A, .mat B, ?_, h0, ?_⟩
          · simp [pyStep, pyIn_iff.2 hr, pyIn_iff.2 hc, hb]
          · simp only [Table.step, hr, hc, and_self, if_true, PyOut.Same, lenOf_eq]
            refine ⟨e1, e2, fun i j hi hj => ?_⟩
            rw [← hv _ _ _ _ hr' hc' (e1 ▸ hi) (e2 ▸ hj)]
            simp [SBM.at, hb]
      · refine ⟨A, .raised, ?_, h0, ?_⟩
        · have : pyIn A.cl c = false := by simpa using mt pyIn_iff.1 hc
          simp [pyStep, this]
        · simp [Table.step, hc, PyOut.Same]
    · refine ⟨A, .raised, ?_, h0, ?_⟩
      · have : pyIn A.rl r = false := by simpa using mt pyIn_iff.1 hr
        simp [pyStep, this]
      · simp [Table.step, hr, PyOut.Same]
  | setBlock r c M =>
    by_cases hr : InBlk A.rl r
    · by_cases hc : InBlk A.cl c
      · have hr' := toNat_lt hr
        have hc' := toNat_lt hc
        obtain ⟨m1, m2⟩ := hop hr hc
        rw [lenOf_eq] at m1 m2
        cases hst : A.hasStorage with
        | false =>
          refine ⟨A, .raised, ?_, ?_, ?_⟩
          · simp [pyStep, pyIn_iff.2 hr, pyIn_iff.2 hc, hst, hview hst]
          · rw [hst] at h0
            simpa [Table.step] using h0
          · simp [Table.step, PyOut.Same]
        | true =>
          obtain ⟨A', e, f1, f2, f3, f4, f5⟩ := upd_spec hw debug hr' hc' hst (fun _ => M)
            (fun _ _ _ => ⟨m1, m2⟩)
          refine ⟨A', .done, ?_, ?_, ?_⟩
          · simp [pyStep, pyIn_iff.2 hr, pyIn_iff.2 hc, hst, e]
          · simp only [Table.step, hr, hc, and_self, if_true]
            refine ⟨f1, f2, f3, f4, fun r' c' h1 h2 => ?_, fun r' c' a b h1 h2 h3 h4 => ?_, by simp⟩
            · rw [f5]
              dsimp only
              split
              · rfl
              · exact hs r' c' h1 h2
            · unfold SBM.at
              rw [f5]
              dsimp only
              split_ifs with hk
              · rfl
              · exact hv r' c' a b h1 h2 h3 h4
          · simp [Table.step, hr, hc, PyOut.Same]
      · refine ⟨A, .raised, ?_, ?_, ?_⟩
        · have : pyIn A.cl c = false := by simpa using mt pyIn_iff.1 hc
          simp [pyStep, this]
        · simpa [Table.step, hc] using h0
        · simp [Table.step, hc, PyOut.Same]
    · refine ⟨A, .raised, ?_, ?_, ?_⟩
      · have : pyIn A.rl r = false := by simpa using mt pyIn_iff.1 hr
        simp [pyStep, this]
      · simpa [Table.step, hr] using h0
      · simp [Table.step, hr, PyOut.Same]
  | «at» r c =>
    by_cases hneg : r < 0 ∨ c < 0
    · refine ⟨A, .raised, by simp [pyStep, hneg], h0, ?_⟩
      simp only [Table.step]
      rw [if_neg (by omega)]
      trivial
    · by_cases hin : r.toNat < A.rl.total ∧ c.toNat < A.cl.total
      · refine ⟨A, .num (A.toDense.e r.toNat c.toNat), ?_, h0, ?_⟩
        · simp only [pyStep, if_neg hneg, C51_get_eq_dense debug A hw, if_pos hin]
        · simp only [Table.step]
          rw [if_pos (by omega)]
          exact hd _ _ hin.1 hin.2
      · refine ⟨A, .raised, ?_, h0, ?_⟩
        · simp only [pyStep, if_neg hneg, C51_get_eq_dense debug A hw, if_neg hin]
        · simp only [Table.step]
          rw [if_neg (by omega)]
          trivial
  | isBlockSet r c =>
    obtain ⟨hr, hc⟩ := hop
    refine ⟨A, .flag (A.block r.toNat c.toNat).isSome, ?_, h0, hs _ _ (toNat_lt hr) (toNat_lt hc)⟩
    simp [pyStep, pyIn_iff.2 hr, pyIn_iff.2 hc]
  | clear dealloc =>
    refine ⟨A.clear dealloc, .done, rfl, ?_, trivial⟩
    refine ⟨clear_WF hw _, rfl, rfl, rfl, fun r c h1 h2 => ?_, fun r c a b _ _ _ _ => ?_,
      fun ho r c => ?_⟩
    · rw [clear_block]
      simp only [Table.step]
      by_cases hk : (A.hasStorage && dealloc) = true
      · rw [if_pos hk, if_pos (by simpa using hk)]; rfl
      · rw [if_neg hk, if_neg (by simpa using hk), Option.isSome_map, hs r c h1 h2]
    · exact clear_at A dealloc r c a b
    · rw [clear_block, if_neg (by simp [ho]), hview ho]; rfl
  | toDense =>
    refine ⟨A, .mat A.toDense, by simp [pyStep, sized_of_WF hw], h0, rfl, rfl, fun i j hi hj => ?_⟩
    exact hd i j hi hj
  | toDenseSymmetric =>
    have hsq : A.rl.total = A.cl.total := hop
    refine ⟨A, .mat (pyMirror A.toDense), by simp [pyStep, sized_of_WF hw, hsq], h0, rfl, rfl,
      fun i j hi hj => ?_⟩
    have hi' : i < A.rl.total := hi
    have hj' : j < A.cl.total := hj
    show (if i ≤ j then A.toDense.e i j else A.toDense.e j i) = T.entry A.rl A.cl (min i j) (max i j)
    split_ifs with hij
    · rw [min_eq_left hij, max_eq_right hij]; exact hd i j hi' hj'
    · rw [min_eq_right (by omega), max_eq_left (by omega)]
      exact hd j i (by omega) (by omega)

theorem run_stands (debug : Bool) {rl cl : Layout} {own : Bool} (ops : List (PyOp R)) {A : SBM R}
    {T : Table R} (h : Stands rl cl own A T) (hop : ∀ op ∈ ops, op.Legal rl cl) :
    ∃ D os, pyRun debug A ops = .ok (D, os) ∧ WF D ∧ List.Forall₂ PyOut.Same os (T.run rl cl own ops) := by
  induction ops generalizing A T with
  | nil => exact ⟨A, [], rfl, h.wf, .nil⟩
  | cons op ops ih =>
    obtain ⟨A', o, e, h', ho⟩ := step_stands debug h op (hop op (by simp))
    obtain ⟨D, os, e2, hw, hos⟩ := ih h' (fun q hq => hop q (by simp [hq]))
    exact ⟨D, o :: os, by simp only [pyRun, e, e2], hw, .cons ho hos⟩

/-- **C139** (sessions). Take any two nondecreasing layouts, a matrix that owns its blocks or not, and any
sequence of Python calls in which every block given for a place inside the layout has the size of that
place. In every build no call is undefined behaviour, and the calls give back exactly what a table of
blocks gives: `getBlock` the last block stored there since the last clearing, or zeros; `at`, `toDense`
and `toDenseSymmetric` the coefficients, found by counting the block ends before the index; an exception
for every index outside and for `setBlock` on a matrix that does not own its blocks. -/
theorem C139_session_partial (debug : Bool) (rl cl : Layout) (hrl : rl.Mono) (hcl : cl.Mono) (own : Bool)
    (ops : List (PyOp R)) (hop : ∀ op ∈ ops, op.Legal rl cl) :
    ∃ D os, pyRun debug (new rl cl own) ops = .ok (D, os) ∧ WF D ∧
      List.Forall₂ PyOut.Same os (Table.empty.run rl cl own ops) := by
  refine run_stands debug ops ⟨new_WF rl cl hrl hcl own, rfl, rfl, rfl, fun _ _ _ _ => rfl,
    fun r c a b _ _ _ _ => ?_, fun _ _ _ => rfl⟩ hop
  exact new_at rl cl own r c a b

/-- **C139** (wrong sizes are accepted). `setBlock` takes a matrix with too few rows for its place
without any complaint. Afterwards, in a build without debug checks, `at` is undefined behaviour on
an index inside the matrix, and `toDense` is undefined behaviour in every build. -/
theorem C139_wrong_size (debug : Bool) (A : SBM R) (hw : WF A) (hst : A.hasStorage = true) (r c : Nat)
    (hr : r < A.rl.n) (hc : c < A.cl.n) (hc0 : 0 < A.cl.size c) (M : DMat R)
    (hM : M.rows < A.rl.size r) :
    ∃ D, pyStep debug A (.setBlock r c M) = .ok (D, .done) ∧
      A.rl.base r + M.rows < A.rl.total ∧ A.cl.base c < A.cl.total ∧
      pyStep false D (.at ((A.rl.base r + M.rows : Nat) : Int) ((A.cl.base c : Nat) : Int)) = .ub ∧
      pyStep true D (.at ((A.rl.base r + M.rows : Nat) : Int) ((A.cl.base c : Nat) : Int)) =
        .ok (D, .raised) ∧
      pyStep debug D .toDense = .ub := by
  have b1 := Layout.base_add_size_le_total hw.rmono hr
  have b2 := Layout.base_add_size_le_total hw.cmono hc
  have u1 := Layout.upperBound_eq hw.rmono hr (i := A.rl.base r + M.rows) (by omega) (by omega)
  have u2 := Layout.upperBound_eq hw.cmono hc (i := A.cl.base c) (by omega) (by omega)
  have key : ∃ D, A.upd debug r c (fun _ => M) = .ok D ∧ D.rl = A.rl ∧ D.cl = A.cl ∧
      D.block r c = some M ∧ (r, M) ∈ D.col c := by
    unfold SBM.upd
    rw [if_neg (by simp [hr, hc])]
    cases hb : A.block r c with
    | some B =>
      have hm := (block_eq_some hw hc).1 hb
      refine ⟨_, rfl, rfl, rfl, ?_, ?_⟩
      · unfold SBM.block at hb ⊢
        simp only [Function.update_self]
        rw [List.find?_map]
        have : ((fun p : Nat × DMat R => p.1 == r) ∘
            fun p => if p.1 = r then (p.1, M) else p) = fun p => p.1 == r := by
          funext p; dsimp only [Function.comp]; split_ifs <;> rfl
        rw [this]
        obtain ⟨p, hp, -⟩ := Option.map_eq_some_iff.1 hb
        rw [hp]
        have := List.find?_some hp
        simp only [beq_iff_eq] at this
        simp [this]
      · simp only [Function.update_self, List.mem_map]
        exact ⟨(r, B), hm, by simp⟩
    | none =>
      simp only [hst, if_true]
      have hne : ∀ p ∈ A.col c, p.1 ≠ r := by
        intro p hp he
        unfold SBM.block at hb
        rw [Option.map_eq_none_iff, List.find?_eq_none] at hb
        exact hb p hp (by simp [he])
      refine ⟨_, rfl, rfl, rfl, ?_, ?_⟩
      · unfold SBM.block
        simp only [Function.update_self]
        rw [insertRow_find r M _ hne, if_pos rfl]
        rfl
      · simp only [Function.update_self]
        exact (insertRow_mem _ _ _ _).2 (Or.inl rfl)
  obtain ⟨D, e, f1, f2, f3, f4⟩ := key
  have hget : ∀ d, D.get d (A.rl.base r + M.rows) (A.cl.base c) = if d then .exc else .ub := by
    intro d
    unfold SBM.get
    rw [f1, f2, if_neg (by omega), if_neg (by omega), u1, u2]
    dsimp only
    rw [if_neg (by simp [hr, hc]), f3]
    dsimp only
    rw [if_neg (by omega)]
  refine ⟨D, ?_, by omega, by omega, ?_, ?_, ?_⟩
  · have h1 : pyIn A.rl (r : Int) = true := pyIn_iff.2 ⟨by omega, by exact_mod_cast hr⟩
    have h2 : pyIn A.cl (c : Int) = true := pyIn_iff.2 ⟨by omega, by exact_mod_cast hc⟩
    simp [pyStep, h1, h2, hst, e]
  · simp only [pyStep]
    rw [if_neg (by omega), Int.toNat_natCast, Int.toNat_natCast, hget]
    rfl
  · simp only [pyStep]
    rw [if_neg (by omega), Int.toNat_natCast, Int.toNat_natCast, hget]
    rfl
  · have : D.sized = false := by
      unfold SBM.sized
      rw [List.all_eq_false]
      refine ⟨(r, c, M), mem_visits.2 ⟨by rw [f2]; exact hc, f4⟩, ?_⟩
      rw [f1, f2]
      simp; omega
    simp [pyStep, this]

/-- A layout of a block of two and a block of one. -/
def twoOne : Layout := ⟨2, fun i => if i = 0 then 2 else 3⟩

/-- A session that meets the hypotheses: an index outside, a block that is stored, read back and
overwritten, coefficients in stored and missing blocks, the mirrored matrix, and clearing. -/
def demo : List (PyOp ℤ) :=
  [.setBlock 0 2 ⟨2, 1, fun _ _ => 1⟩, .setBlock 0 1 ⟨2, 1, fun i _ => 7 + i⟩, .getBlock 0 1, .at 1 2, .at 2 2,
    .at (-1) 0, .isBlockSet 0 1, .isBlockSet 1 1, .toDenseSymmetric, .clear true, .isBlockSet 0 1, .at 1 2]

example : ∃ D os, pyRun false (new twoOne twoOne true) demo = .ok (D, os) ∧ WF D ∧
    List.Forall₂ PyOut.Same os (Table.empty.run twoOne twoOne true demo) := by
  have hm : twoOne.Mono := by
    intro r hr
    have : r = 0 := by have : r + 1 < 2 := hr; omega
    subst this; decide
  refine C139_session_partial false twoOne twoOne hm hm true demo ?_
  intro op ho
  simp only [demo, List.mem_cons, List.not_mem_nil, or_false] at ho
  rcases ho with rfl | rfl | rfl | rfl | rfl | rfl | rfl | rfl | rfl | rfl | rfl | rfl <;>
    simp [PyOp.Legal, InBlk, twoOne, lenOf, startOf]

/-- The same session, run: the results as numbers. -/
example : (match pyRun false (new twoOne twoOne true) demo with
    | .ok (_, os) => os.map fun o => match o with
      | .done => [0]
      | .raised => [-1]
      | .num x => [1, x]
      | .flag b => [2, if b then 1 else 0]
      | .mat M => [3, M.rows, M.cols, M.e 0 0, M.e 1 0, M.e 2 1]
    | _ => []) =
    [[-1], [0], [3, 2, 1, 7, 8, 9], [1, 8], [1, 0], [-1], [2, 1], [2, 0], [3, 3, 3, 0, 0, 8], [0], [2, 0],
      [1, 0]] := by
  decide +kernel

/-- A block of one row where two belong. -/
example : ∃ D, pyStep true (new twoOne twoOne true) (.setBlock 0 1 ⟨1, 1, fun _ _ => (7 : ℤ)⟩) =
      .ok (D, .done) ∧ pyStep false D (.at 1 2) = .ub := by
  have hm : twoOne.Mono := by
    intro r hr
    have : r = 0 := by have : r + 1 < 2 := hr; omega
    subst this; decide
  obtain ⟨D, h1, -, -, h2, -⟩ := C139_wrong_size true (new (R := ℤ) twoOne twoOne true)
    (new_WF twoOne twoOne hm hm true) rfl 0 1 (by decide) (by decide) (by decide)
    ⟨1, 1, fun _ _ => 7⟩ (by decide)
  exact ⟨D, h1, h2⟩

end Verif.SBM
