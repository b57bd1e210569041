import Verif.CCM.Lemmas

/-! Effect of the operations in terms of lists of columns. -/
namespace Verif.CCM
open Verif.MatrixStack Verif.Jacobian

variable {R : Type} [Semiring R]

theorem putAll_eq {α : Type} (ws : List (Nat × α)) (v x : List α) (hlen : v.length = x.length)
    (hw : ∀ w ∈ ws, x[w.1]? = some w.2)
    (hc : ∀ k, k < x.length → k ∈ ws.map Prod.fst ∨ v[k]? = x[k]?) : putAll v ws = .ok x := by
  induction ws generalizing v with
  | nil =>
    simp only [putAll, Res.run_nil]
    congr 1
    apply List.ext_getElem?
    intro k
    rcases Nat.lt_or_ge k x.length with hk | hk
    · rcases hc k hk with h | h
      · simp at h
      · exact h
    · rw [List.getElem?_eq_none hk, List.getElem?_eq_none (by omega)]
  | cons w ws ih =>
    have h1 := hw w List.mem_cons_self
    have hlt : w.1 < x.length := by
      by_contra hn
      rw [List.getElem?_eq_none (by omega)] at h1
      cases h1
    simp only [putAll, Res.run_cons, put]
    rw [if_pos (by omega), Res.bind_ok]
    apply ih
    · simpa using hlen
    · exact fun w' h' => hw w' (List.mem_cons_of_mem _ h')
    · intro k hk
      rw [List.getElem?_set]
      by_cases hkw : w.1 = k
      · right
        rw [if_pos hkw, if_pos (by omega), ← hkw, h1]
      · rw [if_neg hkw]
        rcases hc k hk with h | h
        · left
          simp only [List.map_cons, List.mem_cons] at h
          rcases h with h | h
          · exact absurd h.symm hkw
          · exact h
        · right; exact h

/-- `cols` are the columns of `A` as lists of (row, value). -/
structure Rep (A : CCM R) (cols : List (List (Nat × R))) : Prop where
  arr : arrays A = CCS.build cols
  len : A.cols = cols.length

/-- Columns that fit a matrix with `m` rows. -/
structure ColsOk (m : Nat) (cols : List (List (Nat × R))) : Prop where
  rows : ∀ c ∈ cols, ∀ e ∈ c, e.1 < m
  incr : ∀ c ∈ cols, c.Pairwise fun x y => x.1 < y.1

theorem Rep.wf {A : CCM R} {cols : List (List (Nat × R))} (h : Rep A cols) (hc : ColsOk A.rows cols) : WF A := by
  unfold WF
  rw [h.arr, h.len]
  exact CCS.legal_build cols A.rows hc.rows hc.incr

theorem Rep.read {A : CCM R} {cols : List (List (Nat × R))} (h : Rep A cols) (i j : Nat) (hj : j < cols.length) :
    CCS.read (arrays A) i j = (cols[j].map fun e => if e.1 = i then e.2 else 0).sum := by
  rw [h.arr, CCS.read_build]

theorem Rep.check {A : CCM R} {cols : List (List (Nat × R))} (h : Rep A cols) : check A = .ok () := by
  have h1 := h.arr
  rw [CCS.build_eq] at h1
  simp only [arrays, CCS.Arrays.mk.injEq] at h1
  obtain ⟨e1, e2, e3⟩ := h1
  unfold CCM.check
  rw [e1, e2, e3, List.getLast?_map, List.getLast?_range]
  simp only [Nat.add_eq_zero_iff, one_ne_zero, and_false, if_false, Nat.add_sub_cancel, Option.map_some,
    CCS.offset_len, List.length_map, List.length_range, h.len, and_self, if_true]

theorem offset_append_add (xs ys : List (List (Nat × R))) (j : Nat) :
    CCS.offset (xs ++ ys) (xs.length + j) = xs.flatten.length + CCS.offset ys j := by
  unfold CCS.offset
  rw [List.take_length_add_append, List.map_append, List.sum_append, ← List.length_flatten]

theorem build_append (xs ys : List (List (Nat × R))) :
    CCS.build (xs ++ ys) = ⟨(CCS.build xs).cp ++
        (List.range ys.length).map (fun j => (CCS.build xs).cx.length + CCS.offset ys (j + 1)),
      (CCS.build xs).ci ++ ys.flatten.map Prod.fst, (CCS.build xs).cx ++ ys.flatten.map Prod.snd⟩ := by
  rw [CCS.build_eq, CCS.build_eq]
  simp only [List.length_append, List.flatten_append, List.map_append, List.length_map]
  congr 1
  rw [show xs.length + ys.length + 1 = (xs.length + 1) + ys.length by omega, List.range_add,
    List.map_append, List.map_map]
  congr 1
  · apply List.map_congr_left
    intro j hj
    have : j ≤ xs.length := by have := List.mem_range.1 hj; omega
    unfold CCS.offset
    rw [List.take_append_of_le_length this]
  · apply List.map_congr_left
    intro j hj
    rw [Function.comp, show xs.length + 1 + j = xs.length + (j + 1) by omega, offset_append_add]

/-- Slices between increasing positions make up the list. -/
theorem flatten_slices {α : Type} (l : List α) (f : Nat → Nat) (n : Nat) (h0 : f 0 = 0)
    (hm : ∀ j, j < n → f j ≤ f (j + 1)) :
    ((List.range n).map fun j => (l.drop (f j)).take (f (j + 1) - f j)).flatten = l.take (f n) := by
  induction n with
  | zero => simp [h0]
  | succ n ih =>
    rw [List.range_succ, List.map_append, List.flatten_append, ih (fun j hj => hm j (by omega))]
    simp only [List.map_cons, List.map_nil, List.flatten_cons, List.flatten_nil, List.append_nil]
    have := hm n (by omega)
    rw [show f (n + 1) = f n + (f (n + 1) - f n) by omega, List.take_add]
    congr 2
    omega

/-- Legal arrays come from a list of columns. -/
theorem legal_cols {M : CCS.Arrays R} {m n : Nat} (h : CCS.Legal M m n) :
    ∃ cols : List (List (Nat × R)), M = CCS.build cols ∧ cols.length = n ∧ ColsOk m cols := by
  have hlen := h.len
  have hcl := h.cp_len
  set f := fun j => M.cp.getD j 0 with hf
  set z := M.ci.zip M.cx with hz
  have hzl : z.length = M.cx.length := by rw [hz, List.length_zip]; omega
  refine ⟨(List.range n).map fun j => (z.drop (f j)).take (f (j + 1) - f j), ?_, by simp, ?_, ?_⟩
  · have hflat := flatten_slices z f n h.cp_zero h.cp_mono
    have hfn : f n = z.length := by rw [hzl]; exact h.cp_last
    rw [hfn, List.take_length] at hflat
    rw [CCS.build_eq, hflat]
    have e1 : z.map Prod.fst = M.ci := by rw [hz, List.map_fst_zip (by omega)]
    have e2 : z.map Prod.snd = M.cx := by rw [hz, List.map_snd_zip (by omega)]
    rw [e1, e2]
    have e3 : (List.range (((List.range n).map fun j => (z.drop (f j)).take (f (j + 1) - f j)).length + 1)).map
        (CCS.offset ((List.range n).map fun j => (z.drop (f j)).take (f (j + 1) - f j))) = M.cp := by
      apply List.ext_getElem
      · simp [hcl]
      · intro j h1 h2
        have hj : j ≤ n := by omega
        rw [List.getElem_map, List.getElem_range]
        unfold CCS.offset
        rw [← List.map_take, List.take_range, min_eq_left hj]
        rw [← List.length_flatten, flatten_slices z f j h.cp_zero (fun k hk => h.cp_mono k (by omega)),
          List.length_take, hzl, min_eq_left (cp_le h hj)]
        simp [hf, h2]
    rw [e3]
  · intro c hc e he
    obtain ⟨j, _, rfl⟩ := List.mem_map.1 hc
    have h1 : e ∈ z := List.mem_of_mem_drop (List.mem_of_mem_take he)
    obtain ⟨k, hk, rfl⟩ := List.getElem_of_mem h1
    have := h.rows k (by omega)
    rw [List.getD_eq_getElem?_getD, List.getElem?_eq_getElem (by omega), Option.getD_some] at this
    simpa [hz] using this
  · intro c hc
    obtain ⟨j, hj, rfl⟩ := List.mem_map.1 hc
    have hj := List.mem_range.1 hj
    rw [List.pairwise_iff_getElem]
    intro a b ha hb hab
    have hbl : b < f (j + 1) - f j ∧ b < z.length - f j := by simpa using hb
    have := incr_lt h hj (k := f j + a) (l := f j + b) (by simp [hf]) (by omega) (by simp only [hf] at hbl; simp only [hf]; omega)
    rw [List.getD_eq_getElem?_getD, List.getElem?_eq_getElem (by omega), Option.getD_some,
      List.getD_eq_getElem?_getD, List.getElem?_eq_getElem (by omega), Option.getD_some] at this
    simpa [hz] using this

theorem WF.rep {A : CCM R} (h : WF A) : ∃ cols, Rep A cols ∧ ColsOk A.rows cols := by
  obtain ⟨cols, h1, h2, h3⟩ := legal_cols h
  exact ⟨cols, ⟨h1, h2.symm⟩, h3⟩

theorem WF.check {A : CCM R} (h : WF A) : check A = .ok () := by
  obtain ⟨cols, h1, _⟩ := h.rep
  exact h1.check

/-! ### Diagonal block -/

/-- The matrix with a diagonal block appended. -/
def withDiag (A : CCM R) (d : List R) : CCM R :=
  { A with values := A.values ++ d, rowInd := A.rowInd ++ List.range A.rows,
           colPtr := A.colPtr ++ (List.range A.rows).map fun i => A.values.length + (i + 1),
           cols := A.cols + A.rows, hasDiag := true }

/-- The columns of the diagonal block. -/
def diagCols (d : List R) : List (List (Nat × R)) := d.mapIdx fun i x => [(i, x)]

theorem diagCols_flatten (d : List R) (k : Nat) :
    (d.mapIdx fun i x => [(k + i, x)]).flatten = d.mapIdx fun i x => (k + i, x) := by
  induction d generalizing k with
  | nil => rfl
  | cons x xs ih =>
    simp only [List.mapIdx_cons, List.flatten_cons, List.singleton_append]
    congr 1
    have := ih (k + 1)
    simp only [Nat.add_right_comm, Nat.add_assoc] at this ⊢
    simpa only [Nat.add_comm 1] using this

theorem diagCols_offset (d : List R) (j : Nat) (hj : j ≤ d.length) : CCS.offset (diagCols d) j = j := by
  unfold CCS.offset diagCols
  have : ((d.mapIdx fun i x => [(i, x)]).take j).map List.length = List.replicate j 1 := by
    apply List.ext_getElem
    · simp [hj]
    · intro k h1 h2; simp
  rw [this]; simp

theorem withDiag_rep {A : CCM R} {cols : List (List (Nat × R))} (h : Rep A cols) (d : List R)
    (hd : d.length = A.rows) : Rep (withDiag A d) (cols ++ diagCols d) := by
  have ha := h.arr
  constructor
  · rw [build_append, ← ha]
    simp only [arrays, withDiag]
    have hfl : (diagCols d).flatten = d.mapIdx fun i x => (i, x) := by
      have := diagCols_flatten d 0
      simpa [diagCols] using this
    have e1 : (diagCols d).flatten.map Prod.fst = List.range A.rows := by
      rw [hfl]
      apply List.ext_getElem
      · simp [hd]
      · intro k h1 h2; simp
    have e2 : (diagCols d).flatten.map Prod.snd = d := by
      rw [hfl]
      apply List.ext_getElem
      · simp
      · intro k h1 h2; simp
    rw [e1, e2]
    congr 2
    have : (diagCols d).length = A.rows := by simp [diagCols, hd]
    rw [this]
    apply List.map_congr_left
    intro j hj
    rw [diagCols_offset]
    have := List.mem_range.1 hj
    omega
  · simp [withDiag, h.len, diagCols, hd]

theorem diagCols_ok (d : List R) : ColsOk d.length (diagCols d) where
  rows := by
    intro c hc e he
    obtain ⟨i, hi, rfl⟩ := List.mem_iff_getElem.1 hc
    simp only [diagCols, List.getElem_mapIdx, List.mem_singleton] at he
    subst he
    simpa [diagCols] using hi
  incr := by
    intro c hc
    obtain ⟨i, hi, rfl⟩ := List.mem_iff_getElem.1 hc
    simp [diagCols]

theorem ColsOk.append {m : Nat} {xs ys : List (List (Nat × R))} (h1 : ColsOk m xs) (h2 : ColsOk m ys) :
    ColsOk m (xs ++ ys) where
  rows := by
    intro c hc
    rcases List.mem_append.1 hc with h | h
    · exact h1.rows c h
    · exact h2.rows c h
  incr := by
    intro c hc
    rcases List.mem_append.1 hc with h | h
    · exact h1.incr c h
    · exact h2.incr c h

theorem withDiag_wf {A : CCM R} (h : WF A) (d : List R) (hd : d.length = A.rows) : WF (withDiag A d) := by
  obtain ⟨cols, h1, h2⟩ := h.rep
  refine (withDiag_rep h1 d hd).wf (h2.append ?_)
  show ColsOk A.rows _
  rw [← hd]
  exact diagCols_ok d

theorem pushDiag_ok {A : CCM R} (h : WF A) (hf : A.hasDiag = false) (d : List R) (hd : d.length = A.rows) :
    pushDiag A d = .ok (withDiag A d) := by
  obtain ⟨cols, hrep, hok⟩ := h.rep
  have hl := h.cp_len
  have hlen := h.len
  have hlast := h.cp_last
  simp only [arrays] at hl hlen hlast
  unfold pushDiag
  rw [h.check, Res.bind_ok, if_neg (by omega), hf]
  have hloop : diagLoop A.rows A.rowInd A.colPtr = .ok (A.rowInd ++ List.range A.rows,
      A.colPtr ++ (List.range A.rows).map fun i => A.values.length + (i + 1)) := by
    unfold diagLoop
    rw [elt_ok _ _ 0 (by omega), Res.bind_ok]
    rw [putAll_eq _ _ (A.rowInd ++ List.range A.rows) (by simp), Res.bind_ok,
      putAll_eq _ _ (A.colPtr ++ (List.range A.rows).map fun i => A.values.length + (i + 1)) (by simp), Res.bind_ok]
    · intro w hw
      obtain ⟨i, hi, rfl⟩ := List.mem_map.1 hw
      have hi := List.mem_range.1 hi
      simp only
      rw [List.getElem?_append_right (by omega), Nat.add_sub_cancel_left]
      have : A.colPtr.length - 1 = A.cols := by omega
      simp only [List.getElem?_map, List.getElem?_range hi, Option.map_some, this, hlast]
    · intro k hk
      rcases Nat.lt_or_ge k A.colPtr.length with hlt | hge
      · right; rw [List.getElem?_append_left hlt, List.getElem?_append_left hlt]
      · left
        simp only [List.length_append, List.length_map, List.length_range] at hk
        simp only [List.map_map, List.mem_map, List.mem_range, Function.comp]
        exact ⟨k - A.colPtr.length, by omega, by omega⟩
    · intro w hw
      obtain ⟨i, hi, rfl⟩ := List.mem_map.1 hw
      have hi := List.mem_range.1 hi
      simp only
      rw [List.getElem?_append_right (by omega), Nat.add_sub_cancel_left, List.getElem?_range hi]
    · intro k hk
      rcases Nat.lt_or_ge k A.rowInd.length with hlt | hge
      · right; rw [List.getElem?_append_left hlt, List.getElem?_append_left hlt]
      · left
        simp only [List.length_append, List.length_range] at hk
        simp only [List.map_map, List.mem_map, List.mem_range, Function.comp]
        exact ⟨k - A.rowInd.length, by omega, by omega⟩
  rw [hloop]
  have hck := (withDiag_wf h d hd).check
  simp only [Res.bind_ok, Bool.false_eq_true, if_false]
  show (CCM.check (withDiag A d) >>= fun _ => Res.ok (withDiag A d)) = _
  rw [hck]
  rfl

theorem popDiag_ok {A : CCM R} (h : WF A) (hf : A.hasDiag = false) (d : List R) (hd : d.length = A.rows) :
    popDiag (withDiag A d) = .ok A := by
  unfold popDiag
  rw [if_neg (by simp [withDiag])]
  have : ({ withDiag A d with
      values := (withDiag A d).values.take ((withDiag A d).values.length - (withDiag A d).rows)
      rowInd := (withDiag A d).rowInd.take ((withDiag A d).rowInd.length - (withDiag A d).rows)
      colPtr := (withDiag A d).colPtr.take ((withDiag A d).colPtr.length - (withDiag A d).rows)
      cols := (withDiag A d).cols - (withDiag A d).rows
      hasDiag := false } : CCM R) = A := by
    obtain ⟨rows, cols, values, rowInd, colPtr, hasDiag, ac⟩ := A
    simp only at hf hd
    subst hf
    simp only [withDiag, List.length_append, List.length_map, List.length_range, hd, Nat.add_sub_cancel,
      List.take_left']
  simp only [this]
  rw [h.check]
  rfl

theorem updateDiag_ok {A : CCM R} (d d' : List R) (hd : d.length = A.rows)
    (hd' : d'.length = A.rows) : updateDiag (withDiag A d) d' = .ok (withDiag A d') := by
  unfold updateDiag
  rw [if_neg (by simp [withDiag]), if_neg (by simp [withDiag, hd'])]
  simp [withDiag, hd]

theorem updateConstDiag_ok {A : CCM R} (d : List R) (c : R) (hd : d.length = A.rows) :
    updateConstDiag (withDiag A d) c = .ok (withDiag A (List.replicate A.rows c)) := by
  unfold updateConstDiag
  rw [if_neg (by simp [withDiag])]
  simp [withDiag, hd]

theorem withDiag_read_old {A : CCM R} (h : WF A) (d : List R) (hd : d.length = A.rows) (i j : Nat)
    (hj : j < A.cols) : CCS.read (arrays (withDiag A d)) i j = CCS.read (arrays A) i j := by
  obtain ⟨cols, hrep, -⟩ := h.rep
  have hj' : j < cols.length := by rw [← hrep.len]; exact hj
  rw [(withDiag_rep hrep d hd).read i j (by simp; omega), hrep.read i j hj', List.getElem_append_left hj']

theorem withDiag_read_new {A : CCM R} (h : WF A) (d : List R) (hd : d.length = A.rows) (i j : Nat)
    (hj : j < A.rows) :
    CCS.read (arrays (withDiag A d)) i (A.cols + j) = if i = j then d.getD j 0 else 0 := by
  obtain ⟨cols, hrep, -⟩ := h.rep
  have hl : (diagCols d).length = A.rows := by simp [diagCols, hd]
  rw [(withDiag_rep hrep d hd).read i _ (by rw [List.length_append, ← hrep.len]; omega)]
  rw [List.getElem_append_right (by rw [← hrep.len]; omega)]
  simp only [← hrep.len, Nat.add_sub_cancel_left]
  simp [diagCols, hd, hj, eq_comm]

/-! ### Construction from a dense matrix -/

/-- Column `c` of a dense matrix with the small entries left out. -/
def denseColumn (big : R → Bool) (M : DMat R) (c : Nat) : List (Nat × R) :=
  ((List.range M.rows).filter fun r => big (M.e r c)).map fun r => (r, M.e r c)

theorem fromDenseElt_fold (big : R → Bool) (M : DMat R) (c : Nat) (l : List Nat) (A : CCM R) :
    l.foldl (fromDenseElt big M c) A =
      { A with values := A.values ++ ((l.filter fun r => big (M.e r c)).map fun r => M.e r c),
               rowInd := A.rowInd ++ l.filter fun r => big (M.e r c) } := by
  induction l generalizing A with
  | nil => simp
  | cons r rs ih =>
    rw [List.foldl_cons, ih]
    unfold fromDenseElt
    by_cases h : big (M.e r c)
    · simp [h]
    · simp [h]

theorem fromDense_ok (big : R → Bool) (A : CCM R) (M : DMat R) :
    ∃ B, fromDense big A M = .ok B ∧ B.rows = M.rows ∧ B.cols = M.cols ∧ B.hasDiag = A.hasDiag ∧
      B.acceptConst = A.acceptConst ∧
      Rep B ((List.range M.cols).map (denseColumn big M)) := by
  set A0 : CCM R := { A with rows := M.rows, cols := M.cols, values := [], rowInd := [], colPtr := [0] } with hA0
  have key : ∀ n, let B := (List.range n).foldl (fromDenseCol big M) A0
      B.rows = M.rows ∧ B.cols = M.cols ∧ B.hasDiag = A.hasDiag ∧ B.acceptConst = A.acceptConst ∧
      arrays B = CCS.build ((List.range n).map (denseColumn big M)) := by
    intro n
    induction n with
    | zero => exact ⟨rfl, rfl, rfl, rfl, by rw [CCS.build_eq]; rfl⟩
    | succ n ih =>
      simp only [List.range_succ, List.foldl_append, List.foldl_cons, List.foldl_nil, List.map_append,
        List.map_cons, List.map_nil]
      obtain ⟨h1, h2, h3, h4, h5⟩ := ih
      generalize (List.range n).foldl (fromDenseCol big M) A0 = B at h1 h2 h3 h4 h5
      unfold fromDenseCol
      rw [fromDenseElt_fold]
      refine ⟨h1, h2, h3, h4, ?_⟩
      rw [build_append, ← h5]
      simp [arrays, denseColumn, CCS.offset, Function.comp_def]
  obtain ⟨h1, h2, h3, h4, h5⟩ := key M.cols
  have hrep : Rep ((List.range M.cols).foldl (fromDenseCol big M) A0) ((List.range M.cols).map (denseColumn big M)) :=
    ⟨h5, by rw [h2]; simp⟩
  refine ⟨_, ?_, h1, h2, h3, h4, hrep⟩
  unfold fromDense
  simp only [← hA0]
  rw [hrep.check]
  rfl

theorem denseColumn_ok (big : R → Bool) (M : DMat R) : ColsOk M.rows ((List.range M.cols).map (denseColumn big M)) where
  rows := by
    intro c hc e he
    obtain ⟨j, _, rfl⟩ := List.mem_map.1 hc
    obtain ⟨r, hr, rfl⟩ := List.mem_map.1 he
    exact List.mem_range.1 (List.mem_filter.1 hr).1
  incr := by
    intro c hc
    obtain ⟨j, _, rfl⟩ := List.mem_map.1 hc
    unfold denseColumn
    rw [List.pairwise_map]
    exact (List.pairwise_lt_range).filter _

theorem denseColumn_read (big : R → Bool) (M : DMat R) (c i : Nat) (hi : i < M.rows) :
    ((denseColumn big M c).map fun e => if e.1 = i then e.2 else 0).sum =
      if big (M.e i c) then M.e i c else 0 := by
  have h : ∀ l : List Nat, (((l.filter fun r => big (M.e r c)).map fun r => (r, M.e r c)).map fun e : Nat × R =>
      if e.1 = i then e.2 else 0).sum =
      (l.map fun r => if r = i then (if big (M.e r c) then M.e r c else 0) else 0).sum := by
    intro l
    induction l with
    | nil => rfl
    | cons r rs ih =>
      by_cases hb : big (M.e r c)
      · rw [List.filter_cons_of_pos (by simpa using hb)]
        simp only [List.map_cons, List.sum_cons]
        rw [ih, if_pos hb]
      · rw [List.filter_cons_of_neg (by simpa using hb)]
        simp only [List.map_cons, List.sum_cons]
        rw [ih, if_neg hb]
        simp
  unfold denseColumn
  rw [h, sum_range_single _ _ i hi]
  · simp
  · intro u _ hne
    simp [hne]

end Verif.CCM
