import Verif.CCM.Ops
import Verif.Jacobian.Props

/-! Symbolic structure and value writes of the transposed Jacobian. -/
namespace Verif.CCM
open Verif.MatrixStack Verif.Jacobian Verif.Jacobian.Spec

/-! ### The two nested write loops -/

section writes
variable {S : Type} [Semiring S]

/-- Number of columns of all matrices of a map. -/
def width (m : SMap S) : Nat := (m.map fun p => p.2.cols).sum

/-- Row `c` of all matrices one after the other. -/
def rowOf (m : SMap S) (c : Nat) : List S := m.flatMap fun p => (List.range p.2.cols).map fun r => p.2.e c r

/-- The first `n` such rows one after the other. -/
def block (m : SMap S) (n : Nat) : List S := (List.range n).flatMap (rowOf m)

theorem rowOf_length (m : SMap S) (c : Nat) : (rowOf m c).length = width m := by
  unfold rowOf width
  rw [List.length_flatMap]
  congr 1
  apply List.map_congr_left
  intro p _
  simp

theorem flatMap_const_length {α : Type} (f : Nat → List α) (n L : Nat) (h : ∀ c, c < n → (f c).length = L) :
    ((List.range n).flatMap f).length = n * L := by
  induction n with
  | zero => simp
  | succ n ih =>
    rw [List.range_succ, List.flatMap_append, List.length_append, ih (fun c hc => h c (by omega))]
    simp [h n (by omega)]
    ring

theorem flatMap_const_getElem? {α : Type} (f : Nat → List α) (n L c q : Nat) (hc : c < n)
    (h : ∀ c, c < n → (f c).length = L) (hq : q < L) :
    ((List.range n).flatMap f)[c * L + q]? = (f c)[q]? := by
  induction n with
  | zero => omega
  | succ n ih =>
    rw [List.range_succ, List.flatMap_append]
    have hl := flatMap_const_length f n L (fun c hc => h c (by omega))
    rcases Nat.lt_or_ge c n with hlt | hge
    · have : c * L + q < n * L := by
        have : (c + 1) * L ≤ n * L := Nat.mul_le_mul_right _ hlt
        have e : (c + 1) * L = c * L + L := by ring
        omega
      rw [List.getElem?_append_left (by omega), ih hlt (fun c hc => h c (by omega))]
    · have : c = n := by omega
      subst this
      rw [List.getElem?_append_right (by omega), hl, Nat.add_sub_cancel_left]
      simp

theorem block_length (m : SMap S) (n : Nat) : (block m n).length = n * width m :=
  flatMap_const_length _ _ _ fun c _ => rowOf_length m c

theorem rowOf_getElem? (pre post : SMap S) (p : Nat × DMat S) (c r : Nat) (hr : r < p.2.cols) :
    (rowOf (pre ++ p :: post) c)[width pre + r]? = some (p.2.e c r) := by
  unfold rowOf
  rw [List.flatMap_append, List.getElem?_append_right]
  · have : (pre.flatMap fun p => (List.range p.2.cols).map fun r => p.2.e c r).length = width pre :=
      rowOf_length pre c
    rw [this, Nat.add_sub_cancel_left, List.flatMap_cons, List.getElem?_append_left (by simpa using hr)]
    simp [hr]
  · have : (pre.flatMap fun p => (List.range p.2.cols).map fun r => p.2.e c r).length = width pre :=
      rowOf_length pre c
    omega

theorem mem_jacWrites (start epc n : Nat) (m : SMap S) (off : Nat) (hn : ∀ p ∈ m, p.2.rows = n) (w : Nat × S) :
    w ∈ jacWrites start epc off m ↔ ∃ pre p post c r, m = pre ++ p :: post ∧ c < n ∧ r < p.2.cols ∧
      w = (start + c * epc + (off + width pre) + r, p.2.e c r) := by
  induction m generalizing off with
  | nil => simp [jacWrites]
  | cons q m ih =>
    obtain ⟨d, J⟩ := q
    have hJ : J.rows = n := hn (d, J) List.mem_cons_self
    simp only [jacWrites, List.mem_append]
    rw [ih (off + J.cols) (fun p hp => hn p (List.mem_cons_of_mem _ hp))]
    constructor
    · rintro (h | ⟨pre, p, post, c, r, rfl, hc, hr, rfl⟩)
      · simp only [List.mem_flatMap, List.mem_range, List.mem_map] at h
        obtain ⟨c, hc, r, hr, rfl⟩ := h
        exact ⟨[], (d, J), m, c, r, rfl, by omega, hr, by simp [width]⟩
      · refine ⟨(d, J) :: pre, p, post, c, r, rfl, hc, hr, ?_⟩
        simp [width]
        omega
    · rintro ⟨pre, p, post, c, r, he, hc, hr, rfl⟩
      cases pre with
      | nil =>
        simp only [List.nil_append, List.cons.injEq] at he
        obtain ⟨rfl, rfl⟩ := he
        left
        simp only [List.mem_flatMap, List.mem_range, List.mem_map]
        exact ⟨c, by omega, r, hr, by simp [width]⟩
      | cons x pre =>
        simp only [List.cons_append, List.cons.injEq] at he
        obtain ⟨rfl, rfl⟩ := he
        right
        refine ⟨pre, p, post, c, r, rfl, hc, hr, ?_⟩
        simp [width]
        omega

theorem width_split (m : SMap S) (q : Nat) (hq : q < width m) :
    ∃ pre p post r, m = pre ++ p :: post ∧ r < p.2.cols ∧ q = width pre + r := by
  induction m generalizing q with
  | nil => simp [width] at hq
  | cons x m ih =>
    rcases Nat.lt_or_ge q x.2.cols with hlt | hge
    · exact ⟨[], x, m, q, rfl, hlt, by simp [width]⟩
    · have : q - x.2.cols < width m := by simp [width] at hq ⊢; omega
      obtain ⟨pre, p, post, r, rfl, hr, h⟩ := ih _ this
      refine ⟨x :: pre, p, post, r, rfl, hr, ?_⟩
      simp [width] at h ⊢
      omega

/-- Every write puts the right element of the block. -/
theorem jacWrites_sound (start n : Nat) (m : SMap S) (hn : ∀ p ∈ m, p.2.rows = n) (w : Nat × S)
    (hw : w ∈ jacWrites start (width m) 0 m) :
    start ≤ w.1 ∧ w.1 < start + (block m n).length ∧ (block m n)[w.1 - start]? = some w.2 := by
  rw [mem_jacWrites start (width m) n m 0 hn] at hw
  obtain ⟨pre, p, post, c, r, rfl, hc, hr, rfl⟩ := hw
  have hwd : width (pre ++ p :: post) = width pre + (p.2.cols + width post) := by simp [width]
  set L := width (pre ++ p :: post) with hL
  have hlt : c * L + (width pre + r) < n * L := by
    have : (c + 1) * L ≤ n * L := Nat.mul_le_mul_right _ hc
    have e : (c + 1) * L = c * L + L := by ring
    omega
  have hbl := block_length (pre ++ p :: post) n
  rw [← hL] at hbl
  simp only
  refine ⟨by omega, by omega, ?_⟩
  rw [show start + c * L + (0 + width pre) + r - start = c * L + (width pre + r) by omega]
  unfold block
  rw [flatMap_const_getElem? _ n L c _ hc (fun c _ => rowOf_length _ c) (by omega),
    rowOf_getElem? pre post p c r hr]

/-- Every element of the block is written. -/
theorem jacWrites_complete (start n : Nat) (m : SMap S) (hn : ∀ p ∈ m, p.2.rows = n) (k : Nat)
    (hk : k < (block m n).length) : start + k ∈ (jacWrites start (width m) 0 m).map Prod.fst := by
  rw [block_length] at hk
  have hL : 0 < width m := by
    rcases Nat.eq_zero_or_pos (width m) with h | h
    · rw [h] at hk; omega
    · exact h
  have hq := Nat.mod_lt k hL
  obtain ⟨pre, p, post, r, rfl, hr, hq2⟩ := width_split m _ hq
  set L := width (pre ++ p :: post)
  have hc : k / L < n := Nat.div_lt_of_lt_mul (by rw [Nat.mul_comm]; exact hk)
  refine List.mem_map.2 ⟨(start + (k / L) * L + (0 + width pre) + r, p.2.e (k / L) r), ?_, ?_⟩
  · exact (mem_jacWrites start L n _ 0 hn _).2 ⟨pre, p, post, k / L, r, rfl, hc, hr, rfl⟩
  · have := Nat.div_add_mod k L
    have e : L * (k / L) = (k / L) * L := Nat.mul_comm _ _
    simp only
    omega

end writes

variable {R : Type} [Semiring R]

/-- Rows of a design variable as matrix of `n` equal rows. -/
def symMap (env : Env R) (n : Nat) (act : List Nat) : SMap Int :=
  act.map fun d => (d, ⟨n, env.dim d, fun _ r => env.columnBase d + r⟩)

theorem symWrites_eq (env : Env R) (start epc n off : Nat) (act : List Nat) :
    symWrites env start epc n off act = jacWrites start epc off (symMap env n act) := by
  induction act generalizing off with
  | nil => rfl
  | cons d ds ih =>
    simp only [symWrites, symMap, List.map_cons, jacWrites]
    rw [ih]
    rfl

theorem symMap_width (env : Env R) (n : Nat) (act : List Nat) : width (symMap env n act) = (act.map env.dim).sum := by
  simp [width, symMap, Function.comp_def]

/-- Row indices of a column belonging to a term with active variables `act`. -/
def pattern (env : Env R) (act : List Nat) : List Nat :=
  act.flatMap fun d => (List.range (env.dim d)).map fun (r : Nat) => (env.columnBase d + (r : Int)).toNat

theorem symMap_rowOf (env : Env R) (n c : Nat) (act : List Nat) :
    (rowOf (symMap env n act) c).map Int.toNat = pattern env act := by
  induction act with
  | nil => rfl
  | cons d ds ih =>
    simp only [rowOf, symMap, List.map_cons, List.flatMap_cons, List.map_append, pattern] at ih ⊢
    rw [ih]
    simp [Function.comp_def]

theorem symMap_block (env : Env R) (n : Nat) (act : List Nat) :
    (block (symMap env n act) n).map Int.toNat = (List.replicate n (pattern env act)).flatten := by
  unfold block
  rw [List.map_flatMap]
  have : ∀ l : List Nat, (l.flatMap fun c => (rowOf (symMap env n act) c).map Int.toNat) =
      (List.replicate l.length (pattern env act)).flatten := by
    intro l
    induction l with
    | nil => rfl
    | cons c l ih => rw [List.flatMap_cons, ih, symMap_rowOf]; simp [List.replicate_succ]
  rw [this, List.length_range]

theorem pattern_length (env : Env R) (act : List Nat) : (pattern env act).length = (act.map env.dim).sum := by
  simp [pattern, List.length_flatMap]

theorem ptrLoop_ok (epc n : Nat) (cp : List Nat) (x : Nat) (h : cp.getLast? = some x) :
    ptrLoop epc n cp = .ok (cp ++ (List.range n).map fun j => x + (j + 1) * epc) := by
  induction n generalizing cp x with
  | zero => simp [ptrLoop]
  | succ n ih =>
    have hne : cp ≠ [] := by intro hc; rw [hc] at h; cases h
    have h1 : elt cp (cp.length - 1) = .ok x := by
      rw [List.getLast?_eq_getElem?] at h
      simp [elt, h]
    unfold ptrLoop
    rw [h1, Res.bind_ok, ih _ (x + epc) (by simp), List.append_assoc]
    congr 2
    rw [List.range_succ_eq_map, List.map_cons, List.map_map, List.singleton_append]
    congr 1
    · simp
    · apply List.map_congr_left
      intro j _
      simp only [Function.comp, Nat.succ_eq_add_one]
      ring

theorem mem_symWrites (env : Env R) (start epc n : Nat) (act : List Nat) (w : Nat × Int)
    (hw : w ∈ symWrites env start epc n 0 act) : ∃ d ∈ act, ∃ r, r < env.dim d ∧ w.2 = env.columnBase d + r := by
  rw [symWrites_eq, mem_jacWrites start epc n _ 0 (by
    intro p hp; obtain ⟨d, _, rfl⟩ := List.mem_map.1 hp; rfl)] at hw
  obtain ⟨pre, p, post, c, r, he, _, hr, rfl⟩ := hw
  have hp : p ∈ symMap env n act := by rw [he]; simp
  obtain ⟨d, hd, rfl⟩ := List.mem_map.1 hp
  exact ⟨d, hd, r, hr, rfl⟩

/-- Active variables of a term in block order. -/
def sortedActive (env : Env R) (dvs : List Nat) : List Nat :=
  (dvs.filter env.active).insertionSort fun a b => env.blockIndex a ≤ env.blockIndex b

theorem mem_sortedActive (env : Env R) (dvs : List Nat) (d : Nat) :
    d ∈ sortedActive env dvs ↔ d ∈ dvs ∧ env.active d = true := by
  unfold sortedActive
  rw [List.mem_insertionSort, List.mem_filter]

theorem sortedActive_dims (env : Env R) (dvs : List Nat) :
    ((sortedActive env dvs).map env.dim).sum = ((dvs.filter env.active).map env.dim).sum :=
  ((List.perm_insertionSort _ _).map env.dim).sum_eq

/-- What the layout guarantees about the active variables and `rows`. -/
structure ColumnLayout (env : Env R) (rows : Nat) : Prop where
  block : ∀ d, env.active d = true → 0 ≤ env.blockIndex d
  nonneg : ∀ d, env.active d = true → 0 ≤ env.columnBase d
  fits : ∀ d, env.active d = true → env.columnBase d + env.dim d ≤ rows
  ordered : ∀ d d', env.active d = true → env.active d' = true → env.blockIndex d < env.blockIndex d' →
    env.columnBase d + env.dim d ≤ env.columnBase d'
  inj : ∀ d d', env.active d = true → env.active d' = true → env.blockIndex d = env.blockIndex d' → d = d'

/-- The columns a term gets before values are written. -/
def zeroCols (env : Env R) (t : Term R) : List (List (Nat × R)) :=
  List.replicate t.dim ((pattern env (sortedActive env t.dvs)).map fun i => (i, 0))

theorem offset_replicate (n j : Nat) (c : List (Nat × R)) (hj : j ≤ n) :
    CCS.offset (List.replicate n c) j = j * c.length := by
  unfold CCS.offset
  rw [List.take_replicate, min_eq_left hj]
  simp

theorem appendSymbolic_ok (debug : Bool) (env : Env R) (A : CCM R) (t : Term R) (hl : ColumnLayout env A.rows)
    (cols : List (List (Nat × R))) (hrep : Rep A cols) (hf : A.hasDiag = false)
    (hact : A.acceptConst = true ∨ ∃ d ∈ t.dvs, env.active d = true) :
    ∃ B, appendSymbolic debug env A t.dim t.dvs = .ok (B, ⟨A.values.length, (pattern env (sortedActive env t.dvs)).length,
        (sortedActive env t.dvs).length⟩) ∧ B.rows = A.rows ∧ B.hasDiag = false ∧ B.acceptConst = A.acceptConst ∧
      Rep B (cols ++ zeroCols env t) := by
  have ha := hrep.arr
  have harr := CCS.build_eq cols
  rw [← ha] at harr
  simp only [arrays, CCS.Arrays.mk.injEq] at harr
  obtain ⟨e1, e2, e3⟩ := harr
  have hvl : A.rowInd.length = A.values.length := by rw [e2, e3, List.length_map, List.length_map]
  have hlast : A.colPtr.getLast? = some A.values.length := by
    rw [e1, List.getLast?_map, List.getLast?_range]
    simp only [Nat.add_sub_cancel, Nat.add_eq_zero_iff, one_ne_zero, and_false, if_false, Option.map_some, CCS.offset_len, e3, List.length_map]
  set act := sortedActive env t.dvs with hactd
  have hmem : ∀ d ∈ act, env.active d = true := fun d hd => ((mem_sortedActive env t.dvs d).1 hd).2
  set epc := ((t.dvs.filter env.active).map env.dim).sum with hepc
  have hpl : (pattern env act).length = epc := by
    rw [pattern_length, hactd, sortedActive_dims]
  have hws : ∀ w ∈ symWrites env A.rowInd.length epc t.dim 0 act, 0 ≤ w.2 ∧ w.2 < A.rows := by
    intro w hw
    obtain ⟨d, hd, r, hr, h⟩ := mem_symWrites env _ _ _ _ w hw
    have h1 := hl.nonneg d (hmem d hd)
    have h2 := hl.fits d (hmem d hd)
    omega
  set B : CCM R := { A with
    rowInd := A.rowInd ++ (List.replicate t.dim (pattern env act)).flatten
    values := A.values ++ List.replicate (epc * t.dim) 0
    colPtr := A.colPtr ++ (List.range t.dim).map fun j => A.values.length + (j + 1) * epc
    cols := A.cols + t.dim } with hB
  have hBrep : Rep B (cols ++ zeroCols env t) := by
    constructor
    · rw [build_append, ← ha]
      simp only [arrays, hB]
      have z1 : (zeroCols env t).flatten.map Prod.fst = (List.replicate t.dim (pattern env act)).flatten := by
        unfold zeroCols
        rw [List.map_flatten, List.map_replicate, List.map_map]
        simp [Function.comp_def, hactd]
      have z2 : (zeroCols env t).flatten.map Prod.snd = List.replicate (epc * t.dim) (0 : R) := by
        rw [List.eq_replicate_iff]
        constructor
        · unfold zeroCols
          rw [← hactd]
          simp [hpl, Nat.mul_comm]
        · intro x hx
          obtain ⟨p, hp, rfl⟩ := List.mem_map.1 hx
          obtain ⟨c, hc, hp⟩ := List.mem_flatten.1 hp
          unfold zeroCols at hc
          rw [List.eq_of_mem_replicate hc] at hp
          obtain ⟨i, _, rfl⟩ := List.mem_map.1 hp
          rfl
      rw [z1, z2]
      congr 2
      have : (zeroCols env t).length = t.dim := by simp [zeroCols]
      rw [this]
      apply List.map_congr_left
      intro j hj
      have := List.mem_range.1 hj
      unfold zeroCols
      rw [offset_replicate _ _ _ (by omega), List.length_map, ← hactd, hpl]
    · simp [hB, hrep.len, zeroCols]
  refine ⟨B, ?_, rfl, hf, rfl, hBrep⟩
  unfold appendSymbolic
  rw [hf]
  simp only [Bool.false_eq_true, if_false]
  have c1 : (debug && (t.dvs.filter env.active).any fun d => decide (env.blockIndex d < 0)) = false := by
    rw [Bool.and_eq_false_iff]
    right
    rw [List.any_eq_false]
    intro d hd
    have := hl.block d (List.mem_filter.1 hd).2
    simp; omega
  have c2 : (!A.acceptConst && (t.dvs.filter env.active).isEmpty) = false := by
    rcases hact with h | ⟨d, h1, h2⟩
    · simp [h]
    · rw [Bool.and_eq_false_iff]
      right
      rw [List.isEmpty_eq_false_iff]
      exact List.ne_nil_of_mem (List.mem_filter.2 ⟨h1, h2⟩)
  have c3 : (debug && (symWrites env A.rowInd.length epc t.dim 0 act).any fun w => decide ((A.rows : Int) ≤ w.2)) = false := by
    rw [Bool.and_eq_false_iff]
    right
    rw [List.any_eq_false]
    intro w hw
    have := (hws w hw).2
    simp; omega
  have c4 : ((symWrites env A.rowInd.length epc t.dim 0 act).any fun w => decide (w.2 < 0)) = false := by
    rw [List.any_eq_false]
    intro w hw
    have := (hws w hw).1
    simp; omega
  rw [c1, c2]
  simp only [Bool.false_eq_true, if_false]
  rw [← hepc]
  change (if (debug && (symWrites env A.rowInd.length epc t.dim 0 act).any fun w => decide ((A.rows : Int) ≤ w.2)) = true
    then Res.exc else _) = _
  rw [c3]
  simp only [Bool.false_eq_true, if_false]
  change (if ((symWrites env A.rowInd.length epc t.dim 0 act).any fun w => decide (w.2 < 0)) = true
    then Res.ub else _) = _
  rw [c4]
  simp only [Bool.false_eq_true, if_false]
  have hrows : ∀ p ∈ symMap env t.dim act, p.2.rows = t.dim := by
    intro p hp; obtain ⟨d, _, rfl⟩ := List.mem_map.1 hp; rfl
  have hwd : width (symMap env t.dim act) = epc := by rw [symMap_width, hactd, sortedActive_dims]
  have hput : putAll (A.rowInd ++ List.replicate (epc * t.dim) 0)
      ((symWrites env A.rowInd.length epc t.dim 0 act).map fun w => (w.1, w.2.toNat)) =
      .ok (A.rowInd ++ (List.replicate t.dim (pattern env act)).flatten) := by
    rw [symWrites_eq, ← symMap_block]
    have hbl : (block (symMap env t.dim act) t.dim).length = epc * t.dim := by
      rw [block_length, hwd, Nat.mul_comm]
    apply putAll_eq
    · simp [hbl]
    · intro w hw
      obtain ⟨w', hw', rfl⟩ := List.mem_map.1 hw
      have hw2 : w' ∈ jacWrites A.rowInd.length (width (symMap env t.dim act)) 0 (symMap env t.dim act) := by
        rw [hwd]; exact hw'
      obtain ⟨s1, s2, s3⟩ := jacWrites_sound _ t.dim _ hrows w' hw2
      simp only
      rw [List.getElem?_append_right s1, List.getElem?_map, s3]
      rfl
    · intro k hk
      rcases Nat.lt_or_ge k A.rowInd.length with hlt | hge
      · right; rw [List.getElem?_append_left hlt, List.getElem?_append_left hlt]
      · left
        simp only [List.length_append, List.length_map] at hk
        have := jacWrites_complete A.rowInd.length t.dim _ hrows (k - A.rowInd.length) (by omega)
        rw [hwd] at this
        rw [List.map_map]
        rw [show A.rowInd.length + (k - A.rowInd.length) = k by omega] at this
        exact this
  change (putAll (A.rowInd ++ List.replicate (epc * t.dim) 0)
      ((symWrites env A.rowInd.length epc t.dim 0 act).map fun w => (w.1, w.2.toNat)) >>= fun ri => _) = _
  rw [hput, Res.bind_ok, ptrLoop_ok epc t.dim A.colPtr _ hlast, Res.bind_ok]
  have hBe : ({ A with
    rowInd := A.rowInd ++ (List.replicate t.dim (pattern env act)).flatten
    values := A.values ++ List.replicate (epc * t.dim) 0
    colPtr := A.colPtr ++ (List.range t.dim).map fun j => A.values.length + (j + 1) * epc
    cols := A.cols + t.dim, hasDiag := false } : CCM R) = B := by rw [hB, hf]
  rw [hBe, hBrep.check, Res.bind_ok, hvl, hpl]
  rfl

end Verif.CCM
