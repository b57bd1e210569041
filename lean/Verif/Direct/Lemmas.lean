import Verif.Direct.Model
import Verif.SBM.CCSProps

/-!
Lemmas about the exports used by the direct solvers: which part of them depends on the pattern only.
-/
namespace Verif.Direct
open Verif.SBM
open Verif.MatrixStack (DMat)

variable {K : Type} [CommRing K] {α : Type}

/-- A matrix the solvers can be given: legal, square with the same layout on both sides, no empty block,
not empty. -/
structure Good (A : SBM K) : Prop where
  wf : WF A
  square : A.rl.same A.cl = true
  pos : A.rl.Positive
  ne : 0 < A.cl.total

/-- Two matrices have the same layout and the same set of blocks. -/
def SamePattern (A A' : SBM K) : Prop :=
  A.rl = A'.rl ∧ A.cl = A'.cl ∧ ∀ c, (A.col c).map Prod.fst = (A'.col c).map Prod.fst

/-- Entries of one scalar column as exported. -/
def gcols (k : Kind) (A : SBM K) (ic : Nat × Nat) : List (Nat × K) :=
  match k with
  | .qr => downList true A ic ++ acrossList A ic
  | _ => downList true A ic

/-- The arrays exported for a matrix. -/
def arrays (k : Kind) (A : SBM K) : CCS.Arrays K := CCS.build ((scalarCols A.cl).map (gcols k A))

theorem full_eq {A : SBM K} (h : Good A) (k : Kind) (debug : Bool) :
    full k debug A = .ok ⟨(arrays k A).cp, (arrays k A).ci, (arrays k A).cx, (arrays k A).cx.length⟩ := by
  have hok : ∀ ic ∈ scalarCols A.cl, DownOk true A ic := by
    intro ic hic
    obtain ⟨h1, h2⟩ := scalarCols_mem.1 hic
    exact down_ok_upper h.wf h.square h.pos h1 h2
  cases k with
  | qr =>
    exact run_cols (fun ic => downList true A ic ++ acrossList A ic)
      (fun s ic => (fillDown debug true A ⟨s.cp ++ [s.nz], s.ci, s.cx, s.nz⟩ ic).bind fun s =>
        fillAcross debug A s ic) (scalarCols A.cl)
      (fun s ic hic => by
        rw [fillDown_eq debug true A ic (hok ic hic)]
        show fillAcross debug A _ ic = _
        rw [fillAcross_eq debug A h.wf h.square ic (scalarCols_mem.1 hic).1 (scalarCols_mem.1 hic).2,
          Buf.app_app])
  | cholmod =>
    exact run_cols (downList true A)
      (fun s ic => fillDown debug true A ⟨s.cp ++ [s.nz], s.ci, s.cx, s.nz⟩ ic) (scalarCols A.cl)
      (fun s ic hic => fillDown_eq debug true A ic (hok ic hic) _)
  | csparse =>
    exact run_cols (downList true A)
      (fun s ic => fillDown debug true A ⟨s.cp ++ [s.nz], s.ci, s.cx, s.nz⟩ ic) (scalarCols A.cl)
      (fun s ic hic => fillDown_eq debug true A ic (hok ic hic) _)

theorem values_eq {A : SBM K} (h : Good A) (k : Kind) (debug : Bool) :
    values k debug A = .ok (arrays k A).cx := by
  have hf := full_eq h k debug
  cases k with
  | qr =>
    obtain ⟨s, h1, h2⟩ := C53_fillSym_values_agree_partial debug A h.wf h.square h.pos
    have : full .qr debug A = .ok s := h1
    rw [this] at hf
    cases hf
    exact h2
  | cholmod =>
    obtain ⟨s, h1, h2⟩ := C53_fillCCS_values_agree_partial debug true A h.wf fun _ => ⟨h.square, h.pos⟩
    have : full .cholmod debug A = .ok s := h1
    rw [this] at hf
    cases hf
    exact h2
  | csparse =>
    obtain ⟨s, h1, h2⟩ := C53_fillCCS_values_agree_partial debug true A h.wf fun _ => ⟨h.square, h.pos⟩
    have : full .csparse debug A = .ok s := h1
    rw [this] at hf
    cases hf
    exact h2

theorem arrays_fit {A : SBM K} (h : Good A) (k : Kind) :
    (arrays k A).cx.length ≤ want k A ∧ (arrays k A).ci.length = (arrays k A).cx.length ∧
      (arrays k A).cp.length = A.cl.total + 1 ∧
      (arrays k A).cp.getD A.cl.total 0 = (arrays k A).cx.length := by
  have hf := full_eq h k true
  have hlen : ∀ k, (arrays k A).cp.getD A.cl.total 0 = (arrays k A).cx.length := by
    intro k
    unfold arrays
    rw [CCS.build_eq]
    simp only
    rw [CCS.getD_map_range]
    · have := CCS.offset_len ((scalarCols A.cl).map (gcols k A))
      rw [List.length_map, (scalarCols_get h.wf.cmono).1] at this
      rw [this, List.length_map]
    · rw [List.length_map, (scalarCols_get h.wf.cmono).1]; omega
  cases k with
  | qr =>
    obtain ⟨s, h1, h2, h3, h4⟩ := C68_sym_fits true A h.wf h.square h.pos
    have : full .qr true A = .ok s := h1
    rw [this] at hf
    cases hf
    exact ⟨h2, h3, h4, hlen _⟩
  | cholmod =>
    obtain ⟨s, h1, h2, h3, h4⟩ := C68_upper_fits true A h.wf h.square h.pos
    have : full .cholmod true A = .ok s := h1
    rw [this] at hf
    cases hf
    exact ⟨h2, h3, h4, hlen _⟩
  | csparse =>
    obtain ⟨s, h1, h2, h3, h4⟩ := C68_upper_fits true A h.wf h.square h.pos
    have : full .csparse true A = .ok s := h1
    rw [this] at hf
    cases hf
    exact ⟨h2, h3, h4, hlen _⟩

theorem build_pattern {cols cols' : List (List (Nat × K))}
    (h : cols.map (List.map Prod.fst) = cols'.map (List.map Prod.fst)) :
    (CCS.build cols).cp = (CCS.build cols').cp ∧ (CCS.build cols).ci = (CCS.build cols').ci := by
  rw [CCS.build_eq, CCS.build_eq]
  have hl : cols.length = cols'.length := by
    have := congrArg List.length h
    simpa using this
  constructor
  · simp only [hl]
    apply List.map_congr_left
    intro j _
    unfold CCS.offset
    have e : ∀ c : List (List (Nat × K)), (c.take j).map List.length =
        ((c.map (List.map Prod.fst)).take j).map List.length := by
      intro c
      rw [← List.map_take, List.map_map]
      apply List.map_congr_left
      intro x _
      simp
    rw [e, e, h]
  · simp only [List.map_flatten]
    rw [h]

omit [CommRing K] in
theorem find_isSome {l l' : List (Nat × DMat K)} (h : l.map Prod.fst = l'.map Prod.fst) (r : Nat) :
    (l.find? fun p => p.1 == r).isSome = (l'.find? fun p => p.1 == r).isSome := by
  have key : ∀ l : List (Nat × DMat K), (l.find? fun p => p.1 == r).isSome =
      (l.map Prod.fst).any (· == r) := by
    intro l
    induction l with
    | nil => rfl
    | cons p l ih =>
      rw [List.find?_cons, List.map_cons, List.any_cons]
      cases hp : p.1 == r
      · simpa using ih
      · rfl
  rw [key, key, h]

theorem samePattern_arrays {A A' : SBM K} (h : Good A) (h' : Good A') (hs : SamePattern A A') (k : Kind) :
    (arrays k A).cp = (arrays k A').cp ∧ (arrays k A).ci = (arrays k A').ci := by
  obtain ⟨h1, h2, h3⟩ := hs
  unfold arrays
  apply build_pattern
  rw [List.map_map, List.map_map, h2]
  apply List.map_congr_left
  intro ic hic
  obtain ⟨i1, i2⟩ := scalarCols_mem.1 hic
  have hd : (downList true A ic).map Prod.fst = (downList true A' ic).map Prod.fst := by
    have key : ∀ B : SBM K, WF B → ic.1 < B.cl.n → (downList true B ic).map Prod.fst =
        ((B.col ic.1).map Prod.fst).flatMap fun r =>
          (List.range (if B.rl.base r == B.cl.base ic.1 then ic.2 + 1 else B.rl.size r)).map
            fun t => B.rl.base r + t := by
      intro B hB hi
      unfold downList
      rw [List.map_flatMap, List.flatMap_map]
      apply List.flatMap_congr
      intro p hp
      rw [List.map_map]
      unfold elems
      rw [(hB.shape ic.1 hi p hp).2.1, Bool.true_and]
      rfl
    rw [key A h.wf (by rw [h2]; exact i1), key A' h'.wf i1, h3, h1, h2]
  have ha : (acrossList A ic).map Prod.fst = (acrossList A' ic).map Prod.fst := by
    unfold acrossList
    rw [List.map_flatMap, List.map_flatMap, h2]
    apply List.flatMap_congr
    intro cb _
    have hb : (A.block ic.1 cb).isSome = (A'.block ic.1 cb).isSome := by
      unfold SBM.block
      rw [Option.isSome_map, Option.isSome_map]
      exact find_isSome (h3 cb) ic.1
    unfold acrossOne
    cases e : A.block ic.1 cb <;> cases e' : A'.block ic.1 cb <;> rw [e, e'] at hb <;>
      simp at hb ⊢
    rw [h2]
    rfl
  cases k with
  | qr => simp only [Function.comp, gcols, List.map_append, hd, ha]
  | cholmod => exact hd
  | csparse => exact hd

/-- The arrays of a solver after an export of `A`. -/
structure Filled (k : Kind) (e : Ext K) (A : SBM K) : Prop where
  hasP : e.hasP = true
  cols : A.cl.total ≤ e.cols
  p : ∃ t, e.p = some ((arrays k A).cp ++ t)
  i : ∃ t, e.i = (arrays k A).ci ++ t
  x : ∃ t, e.x = (arrays k A).cx ++ t
  nz : (arrays k A).cx.length ≤ e.nzmax
  ncol : e.ncol = A.cl.total
  nrow : e.nrow = A.rl.total

/-- Allocated columns imply an allocated array. -/
def Cap (e : Ext K) : Prop := 0 < e.cols → e.hasP = true

theorem view_filled {k : Kind} {e : Ext K} {A : SBM K} (h : Good A) (hf : Filled k e A) :
    view e = .ok (arrays k A) := by
  obtain ⟨_, f2, f3, f4⟩ := arrays_fit h k
  obtain ⟨t, hp⟩ := hf.p
  obtain ⟨ti, hi⟩ := hf.i
  obtain ⟨tx, hx⟩ := hf.x
  unfold view
  rw [hp]
  simp only
  have e1 : ((arrays k A).cp ++ t).getD e.ncol 0 = (arrays k A).cx.length := by
    rw [hf.ncol, ← f4, List.getD_eq_getElem?_getD, List.getD_eq_getElem?_getD,
      List.getElem?_append_left (by omega)]
  rw [if_pos (by rw [hf.ncol, List.length_append]; omega), e1, hi, hx,
    if_pos (by simp only [List.length_append]; omega), hf.ncol, ← f3, List.take_left, List.take_left]
  rw [show (arrays k A).cx.length = (arrays k A).ci.length from f2.symm, List.take_left]

theorem fill_fresh {k : Kind} {e : Ext K} {A : SBM K} (h : Good A) (hc : Cap e) (debug : Bool) :
    ∃ e', fill k debug e A false = .ok e' ∧ Filled k e' A := by
  obtain ⟨f1, f2, f3, f4⟩ := arrays_fit h k
  have hne := h.ne
  unfold fill
  simp only [Bool.false_eq_true, if_false]
  rw [full_eq h k debug, Res.bind_ok]
  have g1 : (growVals (growCols e A.cl.total) (want k A)).hasP = true ∧
      A.cl.total ≤ (growVals (growCols e A.cl.total) (want k A)).cols ∧
      want k A ≤ (growVals (growCols e A.cl.total) (want k A)).nzmax := by
    have c1 : (growCols e A.cl.total).hasP = true ∧ A.cl.total ≤ (growCols e A.cl.total).cols := by
      unfold growCols
      by_cases hlt : e.cols < A.cl.total
      · rw [if_pos hlt]
        refine ⟨rfl, ?_⟩
        show _ ≤ (if e.cols = 0 then A.cl.total else 2 * A.cl.total)
        split <;> omega
      · rw [if_neg hlt]
        exact ⟨hc (by omega), by omega⟩
    generalize growCols e A.cl.total = e1 at c1 ⊢
    unfold growVals
    by_cases hlt : e1.nzmax < want k A
    · rw [if_pos hlt]
      refine ⟨c1.1, c1.2, ?_⟩
      show _ ≤ (if e1.nzmax = 0 then want k A else 2 * want k A)
      split <;> omega
    · rw [if_neg hlt]
      exact ⟨c1.1, c1.2, by omega⟩
  generalize growVals (growCols e A.cl.total) (want k A) = e2 at g1 ⊢
  obtain ⟨a1, a2, a3⟩ := g1
  rw [if_pos ⟨a1, by rw [f3]; omega, by simp only; omega⟩]
  refine ⟨_, rfl, ⟨a1, a2, ⟨_, rfl⟩, ⟨_, rfl⟩, ⟨_, rfl⟩, by simp only; omega, rfl, rfl⟩⟩

theorem fill_cached {k : Kind} {e : Ext K} {A A0 : SBM K} (h : Good A) (h0 : Good A0)
    (hs : SamePattern A0 A) (hf : Filled k e A0) (debug : Bool) :
    ∃ e', fill k debug e A true = .ok e' ∧ Filled k e' A := by
  obtain ⟨f1, f2, f3, f4⟩ := arrays_fit h k
  obtain ⟨g1, g2, g3, g4⟩ := arrays_fit h0 k
  obtain ⟨e1, e2⟩ := samePattern_arrays h0 h hs k
  have ht : A0.cl.total = A.cl.total := by rw [hs.2.1]
  unfold fill
  simp only [if_true]
  rw [values_eq h k debug, Res.bind_ok]
  have c1 : growCols e A.cl.total = e := by
    unfold growCols
    have := hf.cols
    rw [if_neg (by omega)]
  rw [c1]
  have hlen : (arrays k A).cx.length = (arrays k A0).cx.length := by rw [← f2, ← g2, e2]
  have := hf.nz
  rw [if_pos (by omega)]
  refine ⟨_, rfl, ⟨hf.hasP, by have := hf.cols; simp only; omega, ?_, ?_, ⟨_, rfl⟩, by simp only; omega, rfl, rfl⟩⟩
  · rw [← e1]; exact hf.p
  · rw [← e2]; exact hf.i

end Verif.Direct
