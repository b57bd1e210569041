import Verif.SBM.Algebra

/-!
Property theorems C51 and C52 for sparse block matrices.
-/
namespace Verif.SBM
open Verif.MatrixStack (DMat)

variable {R : Type} [CommRing R]

/-! ### C51: reading back what was written -/

/-- **C51** (element access). For every legal block matrix, element access returns the dense
expansion's value for every in-range index, and throws for every other index. -/
theorem C51_get_eq_dense (debug : Bool) (A : SBM R) (h : WF A) (i j : Nat) :
    A.get debug i j = if i < A.rl.total ∧ j < A.cl.total then .ok (A.toDense.e i j) else .exc := by
  by_cases hi : i < A.rl.total
  · by_cases hj : j < A.cl.total
    · rw [if_pos ⟨hi, hj⟩]
      obtain ⟨r, hr, a, ha, rfl⟩ := Layout.locate h.rmono hi
      obtain ⟨c, hc, b, hb, rfl⟩ := Layout.locate h.cmono hj
      rw [get_at h debug hr hc ha hb, toDense_at h hr hc ha hb]
    · rw [if_neg (fun hc => hj hc.2)]
      simp [SBM.get, hi, hj]
  · rw [if_neg (fun hc => hi hc.1)]
    simp [SBM.get, hi]

/-- A write through the pointer returned by `block(r, c, true)`: any change of the coefficients. -/
structure Write (R : Type) where
  r : Nat
  c : Nat
  f : (Nat → Nat → R) → Nat → Nat → R

/-- What a sequence of writes means: a table of blocks, initially zero. -/
def specWrites (ws : List (Write R)) : Nat → Nat → Nat → Nat → R :=
  ws.foldl (fun S w r c => if r = w.r ∧ c = w.c then w.f (S r c) else S r c) (fun _ _ _ _ => 0)

/-- Perform the writes on a block matrix. -/
def doWrites (debug : Bool) (A : SBM R) (ws : List (Write R)) : Res (SBM R) :=
  Res.run (fun A (w : Write R) => A.upd debug w.r w.c fun B => ⟨B.rows, B.cols, w.f B.e⟩) A ws

theorem doWrites_spec (debug : Bool) (ws : List (Write R)) (A : SBM R) (h : WF A)
    (hst : A.hasStorage = true) (hw : ∀ w ∈ ws, w.r < A.rl.n ∧ w.c < A.cl.n)
    (S : Nat → Nat → Nat → Nat → R) (hS : ∀ r c a b, A.at r c a b = S r c a b) :
    ∃ D, doWrites debug A ws = .ok D ∧ WF D ∧ D.rl = A.rl ∧ D.cl = A.cl ∧
      (∀ r c a b, D.at r c a b =
        ws.foldl (fun S w r c => if r = w.r ∧ c = w.c then w.f (S r c) else S r c) S r c a b) ∧
      D.hasStorage = true := by
  induction ws generalizing A S with
  | nil => exact ⟨A, rfl, h, rfl, rfl, hS, hst⟩
  | cons w ws ih =>
    obtain ⟨w1, w2⟩ := hw w (by simp)
    obtain ⟨A1, e1, f1, f2, f3, f4, f5⟩ := upd_spec h debug w1 w2 hst
      (fun B => ⟨B.rows, B.cols, w.f B.e⟩) (fun B h1 h2 => ⟨h1, h2⟩)
    obtain ⟨D, e2, g1, g2, g3, g4, g5⟩ := ih A1 f1 f4 (by
      intro v hv; rw [f2, f3]; exact hw v (by simp [hv]))
      (fun r c => if r = w.r ∧ c = w.c then w.f (S r c) else S r c) (by
        intro r c a b
        unfold SBM.at
        rw [f5]
        by_cases hk : r = w.r ∧ c = w.c
        · obtain ⟨rfl, rfl⟩ := hk
          simp only [and_self, if_true]
          have : ((A.block w.r w.c).getD (A.zeroBlock w.r w.c)).e = S w.r w.c := by
            funext a b
            rw [← hS]
            unfold SBM.at
            cases A.block w.r w.c <;> rfl
          rw [this]
        · rw [if_neg hk, if_neg hk]
          exact hS r c a b)
    refine ⟨D, ?_, g1, by rw [g2, f2], by rw [g3, f3], g4, g5⟩
    unfold doWrites at e2 ⊢
    rw [Res.run_cons, e1, Res.bind_ok, e2]

/-- **C51** (write then read). For every pair of layouts and every sequence of writes to blocks inside
the layout, starting from an empty matrix: no write fails, and the dense expansion holds at the offset
of each block exactly what the sequence of writes to that block describes, and zero for blocks never
written. -/
theorem C51_writes_read_back (debug : Bool) (rl cl : Layout) (hrl : rl.Mono) (hcl : cl.Mono)
    (ws : List (Write R)) (hw : ∀ w ∈ ws, w.r < rl.n ∧ w.c < cl.n) :
    ∃ D, doWrites debug (new rl cl) ws = .ok D ∧ D.toDense.rows = rl.total ∧
      D.toDense.cols = cl.total ∧
      ∀ r c a b, r < rl.n → c < cl.n → a < rl.size r → b < cl.size c →
        D.toDense.e (rl.base r + a) (cl.base c + b) = specWrites ws r c a b ∧
        D.get debug (rl.base r + a) (cl.base c + b) = .ok (specWrites ws r c a b) := by
  obtain ⟨D, e, h, h1, h2, h3, _⟩ := doWrites_spec debug ws (new rl cl) (new_WF rl cl hrl hcl true) rfl hw
    (fun _ _ _ _ => 0) (fun r c a b => new_at rl cl true r c a b)
  have h1' : D.rl = rl := h1
  have h2' : D.cl = cl := h2
  refine ⟨D, e, by simp [SBM.toDense, h1'], by simp [SBM.toDense, h2'], ?_⟩
  intro r c a b hr hc ha hb
  subst h1'; subst h2'
  rw [toDense_at h hr hc ha hb, get_at h debug hr hc ha hb, h3]
  exact ⟨rfl, rfl⟩

theorem clear_WF {A : SBM R} (h : WF A) (d : Bool) : WF (A.clear d) := by
  refine ⟨h.rmono, h.cmono, fun c hc => ?_, fun c hc p hp => ?_⟩
  · unfold SBM.clear
    dsimp only
    split
    · simp
    · rw [List.pairwise_map]; exact h.sorted c hc
  · unfold SBM.clear at hp
    dsimp only at hp
    split at hp
    · simp at hp
    · obtain ⟨q, hq, rfl⟩ := List.mem_map.1 hp
      exact h.shape c hc q hq

theorem clear_block (A : SBM R) (d : Bool) (r c : Nat) : (A.clear d).block r c =
    if (A.hasStorage && d) = true then none
    else (A.block r c).map fun B => ⟨B.rows, B.cols, fun _ _ => 0⟩ := by
  unfold SBM.block SBM.clear
  dsimp only
  split
  · rfl
  · rw [List.find?_map, Option.map_map, Option.map_map]
    rfl

theorem clear_at (A : SBM R) (d : Bool) (r c a b : Nat) : (A.clear d).at r c a b = 0 := by
  unfold SBM.at
  rw [clear_block]
  split
  · rfl
  · next B h =>
    split at h
    · cases h
    · cases hb : A.block r c with
      | none => rw [hb] at h; cases h
      | some B' => rw [hb] at h; cases h; rfl

/-- **C51** (clearing). Clearing leaves the layout alone and makes every coefficient zero. Which blocks
exist afterwards: with deallocation on a matrix that owns its blocks none, otherwise the same ones as
before with the same sizes. -/
theorem C51_clear (A : SBM R) (h : WF A) (d : Bool) (debug : Bool) :
    (A.clear d).rl = A.rl ∧ (A.clear d).cl = A.cl ∧
    (∀ i j, i < A.rl.total → j < A.cl.total → (A.clear d).get debug i j = .ok 0) ∧
    (∀ r c, ((A.clear d).block r c).map (fun B => (B.rows, B.cols)) =
      if A.hasStorage = true ∧ d = true then none
      else (A.block r c).map fun B => (B.rows, B.cols)) := by
  refine ⟨rfl, rfl, fun i j hi hj => ?_, fun r c => ?_⟩
  · obtain ⟨r, hr, a, ha, rfl⟩ := Layout.locate h.rmono hi
    obtain ⟨c, hc, b, hb, rfl⟩ := Layout.locate h.cmono hj
    have := get_at (clear_WF h d) debug hr hc ha hb
    rw [clear_at] at this
    exact this
  · rw [clear_block]
    cases A.hasStorage <;> cases d <;> simp <;> rfl

/-- **C51** (write, clear, write). For a matrix that owns its blocks, whatever was written before the
last `clear`, with or without deallocation, is forgotten: element access returns what the writes since
then describe. -/
theorem C51_clear_writes (debug : Bool) (rl cl : Layout) (hrl : rl.Mono) (hcl : cl.Mono) (d : Bool)
    (vs ws : List (Write R)) (hv : ∀ w ∈ vs, w.r < rl.n ∧ w.c < cl.n)
    (hw : ∀ w ∈ ws, w.r < rl.n ∧ w.c < cl.n) :
    ∃ A D, doWrites debug (new rl cl) vs = .ok A ∧ doWrites debug (A.clear d) ws = .ok D ∧
      ∀ r c a b, r < rl.n → c < cl.n → a < rl.size r → b < cl.size c →
        D.get debug (rl.base r + a) (cl.base c + b) = .ok (specWrites ws r c a b) := by
  obtain ⟨A, e, h, h1, h2, h3, hst⟩ := doWrites_spec debug vs (new rl cl) (new_WF rl cl hrl hcl true) rfl hv
    (fun _ _ _ _ => 0) (fun r c a b => new_at rl cl true r c a b)
  obtain ⟨D, e', g, g1, g2, g3, _⟩ := doWrites_spec debug ws (A.clear d) (clear_WF h d) hst
    (fun w hm => by
      have := hw w hm
      change w.r < A.rl.n ∧ w.c < A.cl.n
      rw [h1, h2]; exact this)
    (fun _ _ _ _ => 0) (clear_at A d)
  have h1' : D.rl = rl := g1.trans h1
  have h2' : D.cl = cl := g2.trans h2
  refine ⟨A, D, e, e', ?_⟩
  intro r c a b hr hc ha hb
  subst h1'; subst h2'
  rw [get_at g debug hr hc ha hb, g3]
  rfl

/-- Every scalar index belongs to exactly one block, so the theorem above describes the whole matrix. -/
theorem C51_offsets_cover (L : Layout) (h : L.Mono) (i : Nat) (hi : i < L.total) :
    ∃! p : Nat × Nat, p.1 < L.n ∧ p.2 < L.size p.1 ∧ i = L.base p.1 + p.2 := by
  obtain ⟨r, hr, a, ha, e⟩ := Layout.locate h hi
  refine ⟨(r, a), ⟨hr, ha, e⟩, ?_⟩
  rintro ⟨r', a'⟩ ⟨h1, h2, h3⟩
  simp only at h1 h2 h3
  have := Layout.unique h h1 hr (i := i) (by omega) (by omega) (by omega) (by omega)
  subst this
  simp; omega

/-! ### C52: algebra -/

/-- **C52** (sum). `add` into a destination of the same layout returns normally and the destination's
dense expansion grows by the dense expansion of the operand. -/
theorem C52_add_dense (debug : Bool) (A dest : SBM R) (hA : WF A) (hd : WF dest)
    (hst : dest.hasStorage = true) (hr : A.rl.same dest.rl = true) (hc : A.cl.same dest.cl = true) :
    ∃ D, A.add debug dest = some (.ok D) ∧ WF D ∧ D.rl = dest.rl ∧ D.cl = dest.cl ∧
      ∀ i j, i < dest.rl.total → j < dest.cl.total →
        D.toDense.e i j = dest.toDense.e i j + A.toDense.e i j := by
  obtain ⟨D, e, h, h1, h2, h3, h4⟩ := accum_spec debug A.visits dest hd hst (WF_of_layout hA hr hc)
  refine ⟨D, by simp [SBM.add, hst, hr, hc, e], h, h1, h2, ?_⟩
  intro i j hi hj
  obtain ⟨r, hr', a, ha, rfl⟩ := Layout.locate hd.rmono hi
  obtain ⟨c, hc', b, hb, rfl⟩ := Layout.locate hd.cmono hj
  rw [toDense_at hd hr' hc' ha hb]
  have e1 : D.toDense.e (dest.rl.base r + a) (dest.cl.base c + b) = D.at r c a b := by
    rw [← h1, ← h2]
    exact toDense_at h (by rw [h1]; exact hr') (by rw [h2]; exact hc') (by rw [h1]; exact ha)
      (by rw [h2]; exact hb)
  have hrA : r < A.rl.n := by rw [Layout.same_n hr]; exact hr'
  have hcA : c < A.cl.n := by rw [Layout.same_n hc]; exact hc'
  have e2 : A.toDense.e (dest.rl.base r + a) (dest.cl.base c + b) = A.at r c a b := by
    rw [← Layout.same_base hr hrA.le, ← Layout.same_base hc hcA.le]
    exact toDense_at hA hrA hcA (by rw [Layout.same_size hr hrA]; exact ha)
      (by rw [Layout.same_size hc hcA]; exact hb)
  rw [e1, e2, h4, visits_at hA hrA hcA]

/-- `add` refuses (returns `false`) a destination of another layout or a view. -/
theorem C52_add_refuses (debug : Bool) (A dest : SBM R)
    (h : dest.hasStorage = false ∨ A.rl.same dest.rl = false ∨ A.cl.same dest.cl = false) :
    A.add debug dest = none := by
  unfold SBM.add
  rcases h with h | h | h <;> simp [h]

/-- **C52** (scale). -/
theorem C52_scale_dense (A : SBM R) (h : WF A) (x : R) (i j : Nat) (hi : i < A.rl.total)
    (hj : j < A.cl.total) : (A.scale x).toDense.e i j = A.toDense.e i j * x := by
  obtain ⟨r, hr, a, ha, rfl⟩ := Layout.locate h.rmono hi
  obtain ⟨c, hc, b, hb, rfl⟩ := Layout.locate h.cmono hj
  rw [toDense_at h hr hc ha hb]
  have : (A.scale x).toDense.e ((A.scale x).rl.base r + a) ((A.scale x).cl.base c + b) =
      (A.scale x).at r c a b := toDense_at (scale_WF h x) hr hc ha hb
  refine this.trans ?_
  unfold SBM.at
  rw [scale_block]
  cases A.block r c <;> simp

/-- **C52** (transpose). Transposing into a new matrix returns normally and transposes the dense
expansion. -/
theorem C52_transpose_dense_partial (debug : Bool) (A : SBM R) (h : WF A) :
    ∃ D, A.transposeInto debug (new A.cl A.rl) = some (.ok D) ∧ WF D ∧ D.rl = A.cl ∧ D.cl = A.rl ∧
      ∀ i j, i < A.rl.total → j < A.cl.total → D.toDense.e j i = A.toDense.e i j := by
  obtain ⟨D, e, hD, h1, h2, h3, h4⟩ := assign_spec debug
    (A.visits.map fun v => (v.2.1, v.1, trans v.2.2)) (new A.cl A.rl)
    (new_WF A.cl A.rl h.cmono h.rmono true) rfl (by
      intro w hw
      obtain ⟨v, hv, rfl⟩ := List.mem_map.1 hw
      obtain ⟨v1, v2, v3, v4⟩ := visits_fitting h v hv
      exact ⟨v2, v1, v4, v3⟩)
  have h1' : D.rl = A.cl := h1
  have h2' : D.cl = A.rl := h2
  refine ⟨D, by simp [SBM.transposeInto, new, Layout.same_refl] at e ⊢; exact e, hD, h1', h2', ?_⟩
  intro i j hi hj
  obtain ⟨r, hr, a, ha, rfl⟩ := Layout.locate h.rmono hi
  obtain ⟨c, hc, b, hb, rfl⟩ := Layout.locate h.cmono hj
  rw [toDense_at h hr hc ha hb]
  have e1 : D.toDense.e (A.cl.base c + b) (A.rl.base r + a) = D.at c r b a := by
    rw [← h1', ← h2']
    exact toDense_at hD (by rw [h1']; exact hc) (by rw [h2']; exact hr) (by rw [h1']; exact hb)
      (by rw [h2']; exact ha)
  rw [e1]
  have hblk : D.block c r = (A.block r c).map trans := by
    apply h4 c r
    · intro w hw
      obtain ⟨⟨r', c', B⟩, hv, rfl⟩ := List.mem_map.1 hw
      simp only
      rintro rfl rfl
      rw [(block_eq_some h hc).2 (mem_visits.1 hv).2]
      rfl
    · cases hB : A.block r c with
      | none => right; simp [new, SBM.block]
      | some B =>
        left
        exact ⟨_, List.mem_map.2 ⟨(r, c, B), mem_visits.2 ⟨hc, (block_eq_some h hc).1 hB⟩, rfl⟩, rfl, rfl⟩
  unfold SBM.at
  rw [hblk]
  cases A.block r c <;> rfl

/-- A one-by-one layout. -/
def unitLayout : Layout := ⟨1, fun _ => 1⟩

/-- **C52, limit.** Transposing into an *existing* destination of the right layout does not clear it:
blocks the source does not have survive, so the result is not the transpose (here the transpose of an
empty, i.e. zero, matrix has a non-zero element). -/
theorem C52_transpose_into_existing_counterexample :
    ∃ (A dest D : SBM Int), WF A ∧ WF dest ∧ A.transposeInto true dest = some (.ok D) ∧
      A.toDense.e 0 0 = 0 ∧ D.toDense.e 0 0 = 5 := by
  refine ⟨new unitLayout unitLayout,
    ⟨unitLayout, unitLayout, true, fun _ => [(0, ⟨1, 1, fun _ _ => 5⟩)]⟩,
    ⟨unitLayout, unitLayout, true, fun _ => [(0, ⟨1, 1, fun _ _ => 5⟩)]⟩, ?_, ?_, ?_, ?_, ?_⟩
  · exact new_WF _ _ (by intro r hr; simp [unitLayout] at hr) (by intro r hr; simp [unitLayout] at hr) true
  · refine ⟨by intro r hr; simp [unitLayout] at hr, by intro r hr; simp [unitLayout] at hr, by simp, ?_⟩
    intro c hc p hp
    have : c = 0 := by simpa [unitLayout] using hc
    simp only [List.mem_singleton] at hp
    subst this; subst hp
    simp [unitLayout, Layout.size]
  · rfl
  · rfl
  · rfl

/-- **C52** (product). `multiply` returns normally and adds the dense product to what the destination
held; with a newly created (or empty) destination the result is the product. -/
theorem C52_mul_dense_partial (debug : Bool) (A M dest : SBM R) (hA : WF A) (hM : WF M) (hd : WF dest)
    (hst : dest.hasStorage = true) (hin : A.cl.same M.rl = true) (hr : A.rl.same dest.rl = true)
    (hc : M.cl.same dest.cl = true) :
    ∃ D, A.mul debug M dest = some (.ok D) ∧ WF D ∧ D.rl = dest.rl ∧ D.cl = dest.cl ∧
      ∀ i j, i < A.rl.total → j < M.cl.total →
        D.toDense.e i j = dest.toDense.e i j +
          ∑ k ∈ Finset.range A.cl.total, A.toDense.e i k * M.toDense.e k j := by
  obtain ⟨D, e, h, h1, h2, h3, h4⟩ := accum_spec debug _ dest hd hst (mul_fitting hA hM hin hr hc)
  refine ⟨D, by simp [SBM.mul, hst, hin, e], h, h1, h2, ?_⟩
  intro i j hi hj
  obtain ⟨r, hrA, a, ha, rfl⟩ := Layout.locate hA.rmono hi
  obtain ⟨c, hcM, b, hb, rfl⟩ := Layout.locate hM.cmono hj
  have hr' : r < dest.rl.n := by rw [← Layout.same_n hr]; exact hrA
  have hc' : c < dest.cl.n := by rw [← Layout.same_n hc]; exact hcM
  have ha' : a < dest.rl.size r := by rw [← Layout.same_size hr hrA]; exact ha
  have hb' : b < dest.cl.size c := by rw [← Layout.same_size hc hcM]; exact hb
  have e1 : D.toDense.e (dest.rl.base r + a) (dest.cl.base c + b) = D.at r c a b := by
    rw [← h1, ← h2]
    exact toDense_at h (by rw [h1]; exact hr') (by rw [h2]; exact hc') (by rw [h1]; exact ha')
      (by rw [h2]; exact hb')
  rw [Layout.sum_blocks hA.cmono]
  have e2 : ∀ k ∈ Finset.range A.cl.n, ∑ t ∈ Finset.range (A.cl.size k),
      A.toDense.e (A.rl.base r + a) (A.cl.base k + t) * M.toDense.e (A.cl.base k + t) (M.cl.base c + b) =
      ∑ t ∈ Finset.range (A.cl.size k), A.at r k a t * M.at k c t b := by
    intro k hk
    have hk' : k < A.cl.n := by simpa using hk
    refine Finset.sum_congr rfl fun t ht => ?_
    have ht' : t < A.cl.size k := by simpa using ht
    rw [toDense_at hA hrA hk' ha ht', Layout.same_base hin hk'.le,
      toDense_at hM (by rw [← Layout.same_n hin]; exact hk') hcM
        (by rw [← Layout.same_size hin hk']; exact ht') hb]
  rw [Finset.sum_congr rfl e2, Layout.same_base hr hrA.le, Layout.same_base hc hcM.le, e1,
    toDense_at hd hr' hc' ha' hb', h4, mul_at hA hM hin hrA hcM]

/-- The header documents `dest = (*this) * M`; an existing non-zero destination is *not* overwritten
(here 1·1 into a destination holding 5 gives 6). -/
theorem C52_mul_overwrite_counterexample :
    ∃ (A M dest D : SBM Int), WF A ∧ WF M ∧ WF dest ∧ A.mul true M dest = some (.ok D) ∧
      A.toDense.e 0 0 * M.toDense.e 0 0 = 1 ∧ D.toDense.e 0 0 = 6 := by
  have wf : ∀ x : Int, WF (⟨unitLayout, unitLayout, true, fun _ => [(0, ⟨1, 1, fun _ _ => x⟩)]⟩ : SBM Int) := by
    intro x
    refine ⟨by intro r hr; simp [unitLayout] at hr, by intro r hr; simp [unitLayout] at hr, by simp, ?_⟩
    intro c hc p hp
    have : c = 0 := by simpa [unitLayout] using hc
    simp only [List.mem_singleton] at hp
    subst this; subst hp
    simp [unitLayout, Layout.size]
  obtain ⟨D, e, -, -, -, h⟩ := C52_mul_dense_partial true _ _ _ (wf 1) (wf 1) (wf 5) rfl rfl rfl rfl
  refine ⟨_, _, _, D, wf 1, wf 1, wf 5, e, rfl, ?_⟩
  rw [h 0 0 (by simp [Layout.total, unitLayout]) (by simp [Layout.total, unitLayout])]
  rfl

/-- **C52** (matrix-vector products). The accumulating variant adds `A x` to the destination. -/
theorem C52_mulVec_accumulates (A : SBM R) (h : WF A) (dest src : Nat → R) (i : Nat)
    (hi : i < A.rl.total) :
    A.mulVecAcc dest src i = dest i + ∑ j ∈ Finset.range A.cl.total, A.toDense.e i j * src j := by
  obtain ⟨r, hr, a, ha, rfl⟩ := Layout.locate h.rmono hi
  rw [mulVecAcc_at h dest src hr ha, Layout.sum_blocks h.cmono]
  congr 1
  refine Finset.sum_congr rfl fun c hc => Finset.sum_congr rfl fun t ht => ?_
  rw [toDense_at h hr (by simpa using hc) ha (by simpa using ht)]

/-- **C52** (matrix-vector products). The overwriting variant returns `A x`. -/
theorem C52_mulVec_dense (A : SBM R) (h : WF A) (src : Nat → R) (i : Nat) (hi : i < A.rl.total) :
    A.mulVec src i = ∑ j ∈ Finset.range A.cl.total, A.toDense.e i j * src j := by
  unfold SBM.mulVec
  rw [C52_mulVec_accumulates A h _ src i hi, zero_add]

/-- **C52** (matrix-vector products). `rightMultiply` returns `Aᵀ x`. -/
theorem C52_rightMulVec_dense (A : SBM R) (h : WF A) (src : Nat → R) (j : Nat) (hj : j < A.cl.total) :
    A.rightMulVec src j = ∑ i ∈ Finset.range A.rl.total, A.toDense.e i j * src i := by
  obtain ⟨c, hc, b, hb, rfl⟩ := Layout.locate h.cmono hj
  rw [rightMulVec_at h src hc hb, Layout.sum_blocks h.rmono]
  refine Finset.sum_congr rfl fun r hr => Finset.sum_congr rfl fun t ht => ?_
  rw [toDense_at h (by simpa using hr) hc (by simpa using ht) hb]

theorem sliceLayout_base {L : Layout} (h : L.Mono) {lo hi : Nat} (hhi : hi ≤ L.n) {i : Nat}
    (hi' : lo + i ≤ hi) : L.base lo + (sliceLayout L lo hi).base i = L.base (lo + i) := by
  induction i with
  | zero => simp [Layout.base]
  | succ i ih =>
    have h1 := Layout.base_add_size (sliceLayout_mono L lo hi) (r := i) (by simp only [sliceLayout]; omega)
    have h2 := Layout.base_add_size h (r := lo + i) (by omega)
    rw [sliceLayout_size] at h1
    have h3 := ih (by omega)
    rw [← Nat.add_assoc, ← h2, ← h1]
    omega

/-- **C52** (slice). A slice over a non-empty block range inside the layout returns normally and its
dense expansion is the corresponding dense sub-block. -/
theorem C52_slice_dense (A : SBM R) (h : WF A) (rmin rmax cmin cmax : Nat) (alloc : Bool)
    (h1 : rmin < rmax) (h2 : rmax ≤ A.rl.n) (h3 : cmin < cmax) (h4 : cmax ≤ A.cl.n) :
    ∃ S, A.slice rmin rmax cmin cmax alloc = .ok S ∧
      S.rl.total = A.rl.base rmax - A.rl.base rmin ∧ S.cl.total = A.cl.base cmax - A.cl.base cmin ∧
      ∀ i j, i < S.rl.total → j < S.cl.total →
        S.toDense.e i j = A.toDense.e (A.rl.base rmin + i) (A.cl.base cmin + j) := by
  obtain ⟨S, e, hS, l1, l2, hb⟩ := slice_spec h h1 h2 h3 h4 alloc
  have t1 : S.rl.total = A.rl.base rmax - A.rl.base rmin := by
    rw [l1, Layout.total_eq]
    have := sliceLayout_base h.rmono (lo := rmin) (hi := rmax) h2 (i := rmax - rmin) (by omega)
    rw [show rmin + (rmax - rmin) = rmax by omega] at this
    simp only [show (sliceLayout A.rl rmin rmax).n = rmax - rmin from rfl]
    omega
  have t2 : S.cl.total = A.cl.base cmax - A.cl.base cmin := by
    rw [l2, Layout.total_eq]
    have := sliceLayout_base h.cmono (lo := cmin) (hi := cmax) h4 (i := cmax - cmin) (by omega)
    rw [show cmin + (cmax - cmin) = cmax by omega] at this
    simp only [show (sliceLayout A.cl cmin cmax).n = cmax - cmin from rfl]
    omega
  refine ⟨S, e, t1, t2, ?_⟩
  intro i j hi hj
  obtain ⟨r, hr, a, ha, rfl⟩ := Layout.locate hS.rmono hi
  obtain ⟨c, hc, b, hb', rfl⟩ := Layout.locate hS.cmono hj
  rw [toDense_at hS hr hc ha hb']
  rw [l1] at hr ha ⊢
  rw [l2] at hc hb' ⊢
  have hr' : r < rmax - rmin := hr
  have hc' : c < cmax - cmin := hc
  rw [sliceLayout_size] at ha hb'
  rw [← Nat.add_assoc, ← Nat.add_assoc, sliceLayout_base h.rmono h2 (by omega),
    sliceLayout_base h.cmono h4 (by omega), toDense_at h (by omega) (by omega) ha hb']
  unfold SBM.at
  rw [hb r c hr' hc']

/-- `pinv` permutes `0 … n-1`. -/
def IsPerm (n : Nat) (pinv : Nat → Nat) : Prop :=
  (∀ i, i < n → pinv i < n) ∧ ∀ i j, i < n → j < n → pinv i = pinv j → i = j

/-- **C52** (symmetric permutation, both triangles). For every block permutation of a matrix with equal
row and column layout: returns normally and moves every block `(r,c)` to `(pinv r, pinv c)`. -/
theorem C52_symmPerm_dense (debug : Bool) (A : SBM R) (h : WF A) (pinv : Nat → Nat)
    (hsq : A.rl.same A.cl = true) (hp : IsPerm A.rl.n pinv) :
    ∃ D, A.symmPerm debug pinv false = .ok D ∧ WF D ∧
      ∀ r c a b, r < A.rl.n → c < A.cl.n → a < A.rl.size r → b < A.cl.size c →
        a < D.rl.size (pinv r) ∧ b < D.cl.size (pinv c) ∧
        D.toDense.e (D.rl.base (pinv r) + a) (D.cl.base (pinv c) + b) =
          A.toDense.e (A.rl.base r + a) (A.cl.base c + b) := by
  have hn := Layout.same_n hsq
  have hfit : Fitting (permLayout A.rl pinv) (permLayout A.rl pinv) (permWrites A pinv false) := by
    intro w hw
    obtain ⟨v, hv, rfl⟩ := List.mem_map.1 hw
    obtain ⟨v1, v2, v3, v4⟩ := visits_fitting h v hv
    simp only [Bool.not_false, Bool.true_or, if_true]
    rw [← hn] at v2
    refine ⟨hp.1 _ v1, hp.1 _ v2, ?_, ?_⟩
    · rw [permLayout_size hp.2 v1, v3]
    · rw [permLayout_size hp.2 v2, v4, Layout.same_size hsq v2]
  obtain ⟨D, e, hD, h1, h2, h3, h4⟩ := assign_spec debug (permWrites A pinv false)
    (new (permLayout A.rl pinv) (permLayout A.rl pinv))
    (new_WF _ _ (permLayout_mono _ _) (permLayout_mono _ _) true) rfl hfit
  have h1' : D.rl = permLayout A.rl pinv := h1
  have h2' : D.cl = permLayout A.rl pinv := h2
  refine ⟨D, e, hD, ?_⟩
  intro r c a b hr hc ha hb
  have hc' : c < A.rl.n := by rw [hn]; exact hc
  have ha' : a < D.rl.size (pinv r) := by rw [h1', permLayout_size hp.2 hr]; exact ha
  have hb' : b < D.cl.size (pinv c) := by
    rw [h2', permLayout_size hp.2 hc', Layout.same_size hsq hc']; exact hb
  refine ⟨ha', hb', ?_⟩
  rw [toDense_at h hr hc ha hb,
    toDense_at hD (by rw [h1']; exact hp.1 _ hr) (by rw [h2']; exact hp.1 _ hc') ha' hb']
  have hblk : D.block (pinv r) (pinv c) = A.block r c := by
    apply h4
    · intro w hw
      obtain ⟨⟨r', c', B⟩, hv, rfl⟩ := List.mem_map.1 hw
      obtain ⟨v1, v2, -, -⟩ := visits_fitting h _ hv
      simp only [Bool.not_false, Bool.true_or, if_true]
      intro er ec
      have er' := hp.2 _ _ v1 hr er
      have ec' := hp.2 _ _ (by rw [hn]; exact v2) hc' ec
      simp only at er' ec'
      subst er'; subst ec'
      rw [(block_eq_some h hc).2 (mem_visits.1 hv).2]
    · cases hB : A.block r c with
      | none => right; simp [new, SBM.block]
      | some B =>
        left
        refine ⟨_, List.mem_map.2 ⟨(r, c, B), mem_visits.2 ⟨hc, (block_eq_some h hc).1 hB⟩, rfl⟩, ?_⟩
        simp
  unfold SBM.at
  rw [hblk]

/-- **C52** (symmetric permutation, upper triangle only). For a matrix that stores only blocks on or
above the diagonal, the permuted matrix again stores only such blocks, and each block goes to its
permuted position, transposed if that lies below the diagonal. -/
theorem C52_symmPerm_upper_dense (debug : Bool) (A : SBM R) (h : WF A) (pinv : Nat → Nat)
    (hsq : A.rl.same A.cl = true) (hp : IsPerm A.rl.n pinv)
    (hup : ∀ r c, c < A.cl.n → c < r → A.block r c = none) :
    ∃ D, A.symmPerm debug pinv true = .ok D ∧ WF D ∧
      (∀ r c, c < D.cl.n → c < r → D.block r c = none) ∧
      ∀ r c a b, r ≤ c → c < A.cl.n → a < A.rl.size r → b < A.cl.size c →
        A.toDense.e (A.rl.base r + a) (A.cl.base c + b) =
          if pinv r ≤ pinv c then D.toDense.e (D.rl.base (pinv r) + a) (D.cl.base (pinv c) + b)
          else D.toDense.e (D.rl.base (pinv c) + b) (D.cl.base (pinv r) + a) := by
  have hn := Layout.same_n hsq
  have hfit : Fitting (permLayout A.rl pinv) (permLayout A.rl pinv) (permWrites A pinv true) := by
    intro w hw
    obtain ⟨v, hv, rfl⟩ := List.mem_map.1 hw
    obtain ⟨v1, v2, v3, v4⟩ := visits_fitting h v hv
    simp only [Bool.not_true, Bool.false_or, decide_eq_true_eq]
    rw [← hn] at v2
    split
    · refine ⟨hp.1 _ v1, hp.1 _ v2, ?_, ?_⟩
      · rw [permLayout_size hp.2 v1, v3]
      · rw [permLayout_size hp.2 v2, v4, Layout.same_size hsq v2]
    · refine ⟨hp.1 _ v2, hp.1 _ v1, ?_, ?_⟩
      · rw [permLayout_size hp.2 v2, Layout.same_size hsq v2]; exact v4
      · rw [permLayout_size hp.2 v1]; exact v3
  obtain ⟨D, e, hD, h1, h2, h3, h4⟩ := assign_spec debug (permWrites A pinv true)
    (new (permLayout A.rl pinv) (permLayout A.rl pinv))
    (new_WF _ _ (permLayout_mono _ _) (permLayout_mono _ _) true) rfl hfit
  have h1' : D.rl = permLayout A.rl pinv := h1
  have h2' : D.cl = permLayout A.rl pinv := h2
  have hvis : ∀ r' c' B, (r', c', B) ∈ A.visits → r' < A.rl.n ∧ c' < A.rl.n ∧ r' ≤ c' ∧
      A.block r' c' = some B := by
    intro r' c' B hv
    obtain ⟨v1, v2, -, -⟩ := visits_fitting h _ hv
    have hb := (block_eq_some h v2).2 (mem_visits.1 hv).2
    refine ⟨v1, by rw [hn]; exact v2, ?_, hb⟩
    by_contra hlt
    rw [hup r' c' v2 (by omega)] at hb
    cases hb
  refine ⟨D, e, hD, ?_, ?_⟩
  · intro r c hc hlt
    apply h4
    · intro w hw
      obtain ⟨v, hv, rfl⟩ := List.mem_map.1 hw
      simp only [Bool.not_true, Bool.false_or, decide_eq_true_eq]
      split
      · intro er ec; simp only at er ec; omega
      · intro er ec; simp only at er ec; omega
    · right; simp [new, SBM.block]
  · intro r c a b hrc hc ha hb
    have hc' : c < A.rl.n := by rw [hn]; exact hc
    have hr : r < A.rl.n := by omega
    have ha' : a < D.rl.size (pinv r) := by rw [h1', permLayout_size hp.2 hr]; exact ha
    have hb' : b < D.cl.size (pinv c) := by
      rw [h2', permLayout_size hp.2 hc', Layout.same_size hsq hc']; exact hb
    rw [toDense_at h hr hc ha hb]
    split
    · rename_i hle
      rw [toDense_at hD (by rw [h1']; exact hp.1 _ hr) (by rw [h2']; exact hp.1 _ hc') ha' hb']
      have hblk : D.block (pinv r) (pinv c) = A.block r c := by
        apply h4
        · intro w hw
          obtain ⟨⟨r', c', B⟩, hv, rfl⟩ := List.mem_map.1 hw
          obtain ⟨v1, v2, v3, v4⟩ := hvis r' c' B hv
          simp only [Bool.not_true, Bool.false_or, decide_eq_true_eq]
          split
          · intro er ec
            have er' := hp.2 _ _ v1 hr er
            have ec' := hp.2 _ _ v2 hc' ec
            subst er'; subst ec'
            rw [v4]
          · intro er ec
            have er' := hp.2 _ _ v2 hr er
            have ec' := hp.2 _ _ v1 hc' ec
            exact absurd (show pinv r' ≤ pinv c' by rw [show r' = c' by omega]) (by assumption)
        · cases hB : A.block r c with
          | none => right; simp [new, SBM.block]
          | some B =>
            left
            refine ⟨_, List.mem_map.2 ⟨(r, c, B), mem_visits.2 ⟨hc, (block_eq_some h hc).1 hB⟩, rfl⟩, ?_⟩
            simp [hle]
      unfold SBM.at
      rw [hblk]
    · rename_i hle
      rw [toDense_at hD (by rw [h1']; exact hp.1 _ hc') (by rw [h2']; exact hp.1 _ hr)
        (by rw [h1', ← h2']; exact hb') (by rw [h2', ← h1']; exact ha')]
      have hblk : D.block (pinv c) (pinv r) = (A.block r c).map trans := by
        apply h4
        · intro w hw
          obtain ⟨⟨r', c', B⟩, hv, rfl⟩ := List.mem_map.1 hw
          obtain ⟨v1, v2, v3, v4⟩ := hvis r' c' B hv
          simp only [Bool.not_true, Bool.false_or, decide_eq_true_eq]
          split
          · intro er ec
            have er' := hp.2 _ _ v1 hc' er
            have ec' := hp.2 _ _ v2 hr ec
            rename_i hle'
            subst er'; subst ec'
            rw [show c' = r' by omega] at hle; exact absurd (le_refl _) hle
          · intro er ec
            have er' := hp.2 _ _ v2 hc' er
            have ec' := hp.2 _ _ v1 hr ec
            subst er'; subst ec'
            rw [v4]; rfl
        · cases hB : A.block r c with
          | none => right; simp [new, SBM.block]
          | some B =>
            left
            refine ⟨_, List.mem_map.2 ⟨(r, c, B), mem_visits.2 ⟨hc, (block_eq_some h hc).1 hB⟩, rfl⟩, ?_⟩
            simp [hle]
      unfold SBM.at
      rw [hblk]
      cases A.block r c <;> rfl

/-! ### Concrete instance -/

/-- Block sizes 2, 1. -/
def demoLayout : Layout := ⟨2, fun i => if i = 0 then 2 else 3⟩

theorem demoLayout_mono : demoLayout.Mono := by
  intro r hr
  simp only [demoLayout] at hr ⊢
  have : r = 0 := by omega
  subst this; decide

/-- Writing, clearing without deallocation and writing again: the hypotheses of the clearing theorems are
met, the block not written again still exists and is zero. -/
example : ∃ A D : SBM Int, doWrites (R := Int) true (new demoLayout demoLayout)
      [⟨0, 0, fun B a b => B a b + a + 1⟩, ⟨0, 1, fun _ _ _ => 7⟩] = .ok A ∧
    doWrites true (A.clear false) [⟨0, 0, fun B a b => B a b + 5⟩] = .ok D ∧
    D.get true 0 0 = .ok 5 := by
  obtain ⟨A, D, h1, h2, h3⟩ := C51_clear_writes (R := Int) true demoLayout demoLayout demoLayout_mono
    demoLayout_mono false [⟨0, 0, fun B a b => B a b + a + 1⟩, ⟨0, 1, fun _ _ _ => 7⟩]
    [⟨0, 0, fun B a b => B a b + 5⟩] (by decide) (by decide)
  exact ⟨A, D, h1, h2, h3 0 0 0 0 (by decide) (by decide) (by decide) (by decide)⟩

/-- Two writes to one block, one to another, one block missing: the hypotheses of C51 and (through the
resulting matrix) of C52 are met, and the values are as expected. -/
example : ∃ D : SBM Int, doWrites (R := Int) true (new demoLayout demoLayout)
    [⟨0, 0, fun B a b => B a b + a⟩, ⟨0, 1, fun _ _ _ => 7⟩, ⟨0, 0, fun B a b => B a b * 3⟩] = .ok D ∧
    WF D ∧ D.toDense.e 1 0 = 3 ∧ D.toDense.e 0 2 = 7 ∧ D.toDense.e 2 2 = 0 := by
  obtain ⟨D, e, h, h1, h2, h3, _⟩ := doWrites_spec (R := Int) true
    [⟨0, 0, fun B a b => B a b + a⟩, ⟨0, 1, fun _ _ _ => 7⟩, ⟨0, 0, fun B a b => B a b * 3⟩]
    (new demoLayout demoLayout) (new_WF _ _ demoLayout_mono demoLayout_mono true) rfl
    (by decide) (fun _ _ _ _ => 0) (fun r c a b => new_at _ _ true r c a b)
  have h1' : D.rl = demoLayout := h1
  have h2' : D.cl = demoLayout := h2
  have g : ∀ r c a b, r < 2 → c < 2 → a < demoLayout.size r → b < demoLayout.size c →
      D.toDense.e (demoLayout.base r + a) (demoLayout.base c + b) = D.at r c a b := by
    intro r c a b hr hc ha hb
    rw [← h1'] at ha
    rw [← h2'] at hb
    have := toDense_at h (r := r) (c := c) (a := a) (b := b) (by rw [h1']; exact hr)
      (by rw [h2']; exact hc) ha hb
    rw [h1', h2'] at this
    exact this
  refine ⟨D, e, h, ?_, ?_, ?_⟩
  · rw [show D.toDense.e 1 0 = _ from g 0 0 1 0 (by decide) (by decide) (by decide) (by decide), h3]; rfl
  · rw [show D.toDense.e 0 2 = _ from g 0 1 0 0 (by decide) (by decide) (by decide) (by decide), h3]; rfl
  · rw [show D.toDense.e 2 2 = _ from g 1 1 0 0 (by decide) (by decide) (by decide) (by decide), h3]; rfl

end Verif.SBM
