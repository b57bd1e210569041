import Verif.SBM.Algebra
import Verif.SBM.CCSModel

/-! Helper lemmas for the compressed-column exports. -/
namespace Verif.SBM
open Verif.MatrixStack (DMat)

variable {R : Type} [CommRing R]

/-- Append entries to the row-index and value buffers. -/
def Buf.app (s : Buf R) (l : List (Nat × R)) : Buf R :=
  ⟨s.cp, s.ci ++ l.map Prod.fst, s.cx ++ l.map Prod.snd, s.nz + l.length⟩

theorem Buf.app_nil (s : Buf R) : s.app [] = s := by simp [Buf.app]

theorem Buf.app_app (s : Buf R) (l m : List (Nat × R)) : (s.app l).app m = s.app (l ++ m) := by
  simp [Buf.app, Nat.add_assoc]

theorem run_app {ω : Type} (step : Buf R → ω → Res (Buf R)) (g : ω → List (Nat × R)) (os : List ω)
    (h : ∀ s, ∀ o ∈ os, step s o = .ok (s.app (g o))) (s : Buf R) :
    Res.run step s os = .ok (s.app (os.flatMap g)) := by
  induction os generalizing s with
  | nil => simp [Buf.app_nil]
  | cons o os ih =>
    rw [Res.run_cons, h s o (by simp), Res.bind_ok, ih (fun s o ho => h s o (by simp [ho])),
      Buf.app_app, List.flatMap_cons]

theorem run_appV {ω : Type} (step : List R → ω → Res (List R)) (g : ω → List R) (os : List ω)
    (h : ∀ s, ∀ o ∈ os, step s o = .ok (s ++ g o)) (s : List R) :
    Res.run step s os = .ok (s ++ os.flatMap g) := by
  induction os generalizing s with
  | nil => simp
  | cons o os ih =>
    rw [Res.run_cons, h s o (by simp), Res.bind_ok, ih (fun s o ho => h s o (by simp [ho])),
      List.flatMap_cons, List.append_assoc]

theorem run_emit (debug : Bool) (b : DMat R) (es : List (Nat × Nat × Nat))
    (h : ∀ e ∈ es, e.1 < b.rows ∧ e.2.1 < b.cols) (s : Buf R) :
    Res.run (emit debug b) s es = .ok (s.app (es.map fun e => (e.2.2, b.e e.1 e.2.1))) := by
  rw [run_app (emit debug b) (fun e => [(e.2.2, b.e e.1 e.2.1)]) es]
  · congr 2
    induction es with
    | nil => rfl
    | cons e es ih => simp [ih (fun e he => h e (by simp [he]))]
  · intro s e he
    simp [emit, h e he, Buf.app]

/-- Entries of the blocks of one scalar column, going down. -/
def downList (upper : Bool) (A : SBM R) (ic : Nat × Nat) : List (Nat × R) :=
  (A.col ic.1).flatMap fun p =>
    (List.range (elems upper A ic.1 ic.2 p)).map fun r => (A.rl.base p.1 + r, p.2.e r ic.2)

/-- The reads of the downward loop stay inside the blocks. -/
def DownOk (upper : Bool) (A : SBM R) (ic : Nat × Nat) : Prop :=
  ∀ p ∈ A.col ic.1, elems upper A ic.1 ic.2 p ≤ p.2.rows ∧ ic.2 < p.2.cols

theorem fillDown_eq (debug upper : Bool) (A : SBM R) (ic : Nat × Nat) (h : DownOk upper A ic)
    (s : Buf R) : fillDown debug upper A s ic = .ok (s.app (downList upper A ic)) := by
  unfold fillDown downList
  apply run_app _ (fun p : Nat × DMat R =>
    (List.range (elems upper A ic.1 ic.2 p)).map fun r => (A.rl.base p.1 + r, p.2.e r ic.2))
  intro s p hp
  obtain ⟨h1, h2⟩ := h p hp
  rw [run_emit]
  · rw [List.map_map]; rfl
  · intro e he
    obtain ⟨r, hr, rfl⟩ := List.mem_map.1 he
    have : r < elems upper A ic.1 ic.2 p := by simpa using hr
    exact ⟨by simp only; omega, h2⟩

/-- Entries of row `c` of the transposed block `(i, cb)`, right of the diagonal. -/
def acrossOne (A : SBM R) (i c cb : Nat) : List (Nat × R) :=
  match A.block i cb with
  | none => []
  | some b =>
    (List.range (A.cl.size cb - (if i = cb then c + 1 else 0))).map fun t =>
      (A.cl.base cb + ((if i = cb then c + 1 else 0) + t), b.e c ((if i = cb then c + 1 else 0) + t))

/-- Entries of the transposed blocks right of the diagonal. -/
def acrossList (A : SBM R) (ic : Nat × Nat) : List (Nat × R) :=
  ((List.range (A.cl.n - ic.1)).map fun k => ic.1 + k).flatMap (acrossOne A ic.1 ic.2)

theorem fillAcross_eq (debug : Bool) (A : SBM R) (hA : WF A) (hsq : A.rl.same A.cl = true)
    (ic : Nat × Nat) (h1 : ic.1 < A.cl.n) (h2 : ic.2 < A.cl.size ic.1) (s : Buf R) :
    fillAcross debug A s ic = .ok (s.app (acrossList A ic)) := by
  unfold fillAcross acrossList
  apply run_app _ (acrossOne A ic.1 ic.2)
  intro s cb hcb
  unfold acrossOne
  obtain ⟨k, hk, rfl⟩ := List.mem_map.1 hcb
  have hk' : ic.1 + k < A.cl.n := by have : k < A.cl.n - ic.1 := by simpa using hk
                                     omega
  cases hb : A.block ic.1 (ic.1 + k) with
  | none => simp [Buf.app_nil]
  | some b =>
    simp only
    obtain ⟨b1, b2, b3⟩ := block_lt hA hk' hb
    rw [run_emit]
    · rw [List.map_map]; rfl
    · intro e he
      obtain ⟨t, ht, rfl⟩ := List.mem_map.1 he
      have : t < A.cl.size (ic.1 + k) - (if ic.1 = ic.1 + k then ic.2 + 1 else 0) := by simpa using ht
      simp only
      rw [b2, b3, Layout.same_size hsq b1]
      exact ⟨h2, by omega⟩

/-! ### scalar columns -/

theorem scalarCols_mem {L : Layout} {ic : Nat × Nat} :
    ic ∈ scalarCols L ↔ ic.1 < L.n ∧ ic.2 < L.size ic.1 := by
  obtain ⟨i, c⟩ := ic
  simp only [scalarCols, List.mem_flatMap, List.mem_range, List.mem_map, Prod.mk.injEq]
  constructor
  · rintro ⟨i', h1, c', h2, rfl, rfl⟩; exact ⟨h1, h2⟩
  · rintro ⟨h1, h2⟩; exact ⟨i, h1, c, h2, rfl, rfl⟩

theorem scalarCols_get {L : Layout} (h : L.Mono) :
    (scalarCols L).length = L.total ∧
    ∀ r a, r < L.n → a < L.size r → (scalarCols L)[L.base r + a]? = some (r, a) := by
  have key : ∀ m, m ≤ L.n →
      ((List.range m).flatMap fun i => (List.range (L.size i)).map fun c => (i, c)).length = L.base m ∧
      ∀ r a, r < m → a < L.size r →
        ((List.range m).flatMap fun i => (List.range (L.size i)).map fun c => (i, c))[L.base r + a]? =
          some (r, a) := by
    intro m
    induction m with
    | zero => intro _; exact ⟨by simp [Layout.base], by intro r a hr; omega⟩
    | succ m ih =>
      intro hm
      obtain ⟨l1, l2⟩ := ih (by omega)
      have hb := Layout.base_add_size h (r := m) (by omega)
      rw [List.range_succ, List.flatMap_append]
      simp only [List.flatMap_cons, List.flatMap_nil, List.append_nil]
      refine ⟨by rw [List.length_append, l1]; simp; omega, ?_⟩
      intro r a hr ha
      by_cases hrm : r = m
      · subst hrm
        rw [List.getElem?_append_right (by omega), l1, show L.base r + a - L.base r = a by omega]
        simp [ha]
      · have h1 := Layout.base_add_size h (r := r) (by omega)
        have h2 := Layout.base_le h (r := r + 1) (s := m) (by omega) (by omega)
        rw [List.getElem?_append_left (by omega)]
        exact l2 r a (by omega) ha
  obtain ⟨k1, k2⟩ := key L.n (le_refl _)
  refine ⟨by rw [Layout.total_eq]; exact k1, k2⟩

/-- The outer loop over scalar columns builds the column lists one after the other. -/
theorem run_cols (g : Nat × Nat → List (Nat × R)) (step : Buf R → Nat × Nat → Res (Buf R))
    (cols : List (Nat × Nat))
    (h : ∀ s : Buf R, ∀ ic ∈ cols, step s ic = .ok ((⟨s.cp ++ [s.nz], s.ci, s.cx, s.nz⟩ : Buf R).app (g ic))) :
    (Res.run step ⟨[], [], [], 0⟩ cols).bind
      (fun s => .ok (⟨s.cp ++ [s.nz], s.ci, s.cx, s.nz⟩ : Buf R)) =
    .ok ⟨(CCS.build (cols.map g)).cp, (CCS.build (cols.map g)).ci, (CCS.build (cols.map g)).cx,
      (CCS.build (cols.map g)).cx.length⟩ := by
  have key : ∀ (s : Buf R), s.nz = s.cx.length → ∃ s', Res.run step s cols = .ok s' ∧
      s'.nz = s'.cx.length ∧
      (⟨s'.cp, s'.ci, s'.cx⟩ : CCS.Arrays R) =
        (cols.map g).foldl CCS.pushCol ⟨s.cp, s.ci, s.cx⟩ := by
    induction cols with
    | nil => intro s hs; exact ⟨s, rfl, hs, rfl⟩
    | cons ic cols ih =>
      intro s hs
      obtain ⟨s', e1, e2, e3⟩ := ih (fun s ic hic => h s ic (by simp [hic]))
        ((⟨s.cp ++ [s.nz], s.ci, s.cx, s.nz⟩ : Buf R).app (g ic)) (by simp [Buf.app, hs])
      refine ⟨s', ?_, e2, ?_⟩
      · rw [Res.run_cons, h s ic (by simp), Res.bind_ok, e1]
      · rw [e3]; simp [CCS.pushCol, Buf.app, hs]
  obtain ⟨s', e1, e2, e3⟩ := key ⟨[], [], [], 0⟩ rfl
  rw [e1]
  show Res.ok _ = _
  unfold CCS.build
  simp only
  rw [← e3, e2]

theorem read_cols {L : Layout} (h : L.Mono) (g : Nat × Nat → List (Nat × R)) {c b : Nat} (hc : c < L.n)
    (hb : b < L.size c) (i : Nat) :
    CCS.read (CCS.build ((scalarCols L).map g)) i (L.base c + b) =
      ((g (c, b)).map fun e => if e.1 = i then e.2 else 0).sum := by
  obtain ⟨h1, h2⟩ := scalarCols_get h
  have h3 := Layout.base_add_size_le_total h hc
  have hlt : L.base c + b < (scalarCols L).length := by omega
  rw [CCS.read_build _ _ _ (by simpa using hlt)]
  have : (scalarCols L)[L.base c + b] = (c, b) := by
    have := h2 c b hc hb
    rw [List.getElem?_eq_getElem hlt] at this
    exact Option.some.inj this
  simp only [List.getElem_map, this]

theorem sum_flatMap {ι S : Type} [AddCommMonoid S] (l : List ι) (f : ι → List (Nat × S)) (i : Nat) :
    ((l.flatMap f).map fun e => if e.1 = i then e.2 else 0).sum =
      (l.map fun x => ((f x).map fun e => if e.1 = i then e.2 else 0).sum).sum := by
  induction l with
  | nil => rfl
  | cons x l ih => simp [ih]

theorem sum_seg {S : Type} [AddCommMonoid S] (base n i : Nat) (f : Nat → S) :
    (((List.range n).map fun r => (base + r, f r)).map fun e => if e.1 = i then e.2 else 0).sum =
      if base ≤ i ∧ i < base + n then f (i - base) else 0 := by
  induction n with
  | zero => simp
  | succ n ih =>
    rw [List.range_succ, List.map_append, List.map_append, List.sum_append, ih]
    simp only [List.map_cons, List.map_nil, List.sum_cons, List.sum_nil, add_zero]
    by_cases h : base + n = i
    · subst h
      rw [if_neg (by omega), if_pos rfl, if_pos (by omega), zero_add]
      congr 1; omega
    · rw [if_neg h, add_zero]
      by_cases h2 : base ≤ i ∧ i < base + n
      · rw [if_pos h2, if_pos (by omega)]
      · rw [if_neg h2, if_neg (by omega)]

/-- Sum of the downward list for one row. -/
theorem down_sum {A : SBM R} (h : WF A) (upper : Bool) {r c a b : Nat} (hr : r < A.rl.n)
    (hc : c < A.cl.n) (ha : a < A.rl.size r) (hok : DownOk upper A (c, b)) :
    ((downList upper A (c, b)).map fun e => if e.1 = A.rl.base r + a then e.2 else 0).sum =
      (A.block r c).elim 0 fun B => if a < elems upper A c b (r, B) then B.e a b else 0 := by
  unfold downList
  rw [sum_flatMap]
  have e1 : ((A.col c).map fun p => (((List.range (elems upper A c b p)).map fun r =>
      (A.rl.base p.1 + r, p.2.e r b)).map fun e => if e.1 = A.rl.base r + a then e.2 else 0).sum) =
      (A.col c).map fun p => if p.1 = r then (if a < elems upper A c b (r, p.2) then p.2.e a b else 0) else 0 := by
    apply List.map_congr_left
    intro p hp
    rw [sum_seg]
    obtain ⟨s1, s2, s3⟩ := h.shape c hc p hp
    have s4 := (hok p hp).1
    simp only at s4
    by_cases hpr : p.1 = r
    · subst hpr
      rw [if_pos rfl]
      by_cases hlt : a < elems upper A c b p
      · rw [if_pos (by omega), if_pos hlt, Nat.add_sub_cancel_left]
      · rw [if_neg (by omega), if_neg hlt]
    · rw [if_neg hpr, if_neg]
      rintro ⟨g1, g2⟩
      exact hpr (Layout.unique h.rmono s1 hr g1 (by omega) (Nat.le_add_right _ _) (by omega))
  rw [e1, col_sum h hc (fun r' B => if r' = r then (if a < elems upper A c b (r, B) then B.e a b else 0) else 0)]
  rw [Finset.sum_eq_single r]
  · simp
  · intro r' _ hne
    cases A.block r' c <;> simp [hne]
  · intro hn; simp at hn; omega

theorem down_rows {A : SBM R} (h : WF A) (upper : Bool) {c b : Nat} (hc : c < A.cl.n)
    (hok : DownOk upper A (c, b)) :
    (∀ e ∈ downList upper A (c, b), e.1 < A.rl.total) ∧
    (downList upper A (c, b)).Pairwise fun x y => x.1 < y.1 := by
  constructor
  · intro e he
    obtain ⟨p, hp, he⟩ := List.mem_flatMap.1 he
    obtain ⟨r, hr, rfl⟩ := List.mem_map.1 he
    obtain ⟨s1, s2, s3⟩ := h.shape c hc p hp
    have s4 := (hok p hp).1
    have := Layout.base_add_size_le_total h.rmono s1
    have hr' : r < elems upper A c b p := by simpa using hr
    simp only at s4 ⊢
    omega
  · unfold downList
    rw [List.pairwise_flatMap]
    constructor
    · intro p hp
      rw [List.pairwise_map]
      refine List.Pairwise.imp ?_ List.pairwise_lt_range
      intro x y hxy
      simp only; omega
    · refine List.Pairwise.imp_of_mem ?_ (h.sorted c hc)
      intro p q hp hq hpq x hx y hy
      obtain ⟨r, hr, rfl⟩ := List.mem_map.1 hx
      obtain ⟨r', hr', rfl⟩ := List.mem_map.1 hy
      obtain ⟨s1, s2, s3⟩ := h.shape c hc p hp
      obtain ⟨t1, t2, t3⟩ := h.shape c hc q hq
      have s4 := (hok p hp).1
      have hr' : r < elems upper A c b p := by simpa using hr
      have u1 := Layout.base_add_size h.rmono s1
      have u2 := Layout.base_le h.rmono (r := p.1 + 1) (s := q.1) hpq (by omega)
      simp only at s4 ⊢
      omega

end Verif.SBM
