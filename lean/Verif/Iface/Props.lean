import Verif.Iface.Model
import Verif.CCM.Props
import Verif.SBM.Props

/-! C89: the implementations of the matrix interface are interchangeable. -/
namespace Verif.Iface
open Verif.MatrixStack (DMat)

variable {K : Type} [CommRing K]

/-! ### What the calls mean -/

/-- The answer a matrix with `m` rows, `n` columns and elements `e` gives, in textbook terms. -/
def answer (M : DMat K) : Ask K → Ans K
  | .rows => .size M.rows
  | .cols => .size M.cols
  | .get r c => .num (M.e r c)
  | .dense => .mat ((List.range M.rows).map fun i => (List.range M.cols).map fun j => M.e i j)
  | .right x => .vec ((List.range M.rows).map fun i => ∑ j ∈ Finset.range M.cols, M.e i j * x.getD j 0)
  | .left x => .vec ((List.range M.cols).map fun j => ∑ i ∈ Finset.range M.rows, M.e i j * x.getD i 0)

/-- A question that makes sense for an `m × n` matrix. -/
def Ask.Fits (m n : Nat) : Ask K → Prop
  | .get r c => r < m ∧ c < n
  | .right x => x.length = n
  | .left x => x.length = m
  | _ => True

/-- A call that makes sense for `m × n` matrices: sizes fit and the tolerance is not negative. -/
def Call.Fits [LinearOrder K] (m n : Nat) : Call K → Prop
  | .load M tol => M.rows = m ∧ M.cols = n ∧ 0 ≤ tol
  | .loadAll M => M.rows = m ∧ M.cols = n
  | .ask q => q.Fits m n

/-- The matrix with the entries of magnitude at most `tol` replaced by zero. -/
def cleaned [LinearOrder K] (M : DMat K) (tol : K) : DMat K :=
  ⟨M.rows, M.cols, fun i j => if |M.e i j| ≤ tol then 0 else M.e i j⟩

/-- What a script of calls should answer. -/
def script [LinearOrder K] (s : DMat K × List (Ans K)) : Call K → DMat K × List (Ans K)
  | .load M tol => (cleaned M tol, s.2)
  | .loadAll M => (M, s.2)
  | .ask q => (s.1, s.2 ++ [answer s.1 q])

/-- A usable object of size `m × n` for the block matrix, of any size for the others; what it holds does not matter. -/
def Usable (m n : Nat) : Impl K → Prop
  | .dense _ => True
  | .compressed A => A.hasDiag = false
  | .block A => SBM.WF A ∧ A.hasStorage = true ∧ A.rl.total = m ∧ A.cl.total = n

/-- The object holds the matrix `M`. -/
def Holds (M : DMat K) : Impl K → Prop
  | .dense D => D.rows = M.rows ∧ D.cols = M.cols ∧ ∀ i j, i < M.rows → j < M.cols → D.e i j = M.e i j
  | .compressed A => CCM.WF A ∧ A.rows = M.rows ∧ A.cols = M.cols ∧
      ∀ i j, i < M.rows → j < M.cols → CCS.read (CCM.arrays A) i j = M.e i j
  | .block A => ∀ i j, i < M.rows → j < M.cols → A.toDense.e i j = M.e i j

/-! ### Loading the block matrix -/

theorem mem_positions (rl cl : SBM.Layout) (c r b a : Nat) :
    (c, r, b, a) ∈ positions rl cl ↔ c < cl.n ∧ r < rl.n ∧ b < cl.size c ∧ a < rl.size r := by
  unfold positions
  simp only [List.mem_flatMap, List.mem_range, List.mem_map, Prod.mk.injEq]
  constructor
  · rintro ⟨_, h1, _, h2, _, h3, _, h4, rfl, rfl, rfl, rfl⟩
    exact ⟨h1, h2, h3, h4⟩
  · rintro ⟨h1, h2, h3, h4⟩
    exact ⟨c, h1, r, h2, b, h3, a, h4, rfl, rfl, rfl, rfl⟩

theorem writeEntries (debug : Bool) (cmp : Cmp K) (M : DMat K) (tol : K) (ps : List (Nat × Nat × Nat × Nat))
    (A : SBM.SBM K) (h : SBM.WF A) (hst : A.hasStorage = true) (hp : ∀ p ∈ ps, p.1 < A.cl.n ∧ p.2.1 < A.rl.n) :
    ∃ D, Res.run (writeEntry debug cmp M tol) A ps = .ok D ∧ SBM.WF D ∧ D.rl = A.rl ∧ D.cl = A.cl ∧
      D.hasStorage = true ∧ ∀ r c a b, D.at r c a b =
        if (c, r, b, a) ∈ ps ∧ cmp.gt (cmp.abs (M.e (A.rl.base r + a) (A.cl.base c + b))) tol = true
        then M.e (A.rl.base r + a) (A.cl.base c + b) else A.at r c a b := by
  induction ps generalizing A with
  | nil => exact ⟨A, rfl, h, rfl, rfl, hst, fun r c a b => by simp⟩
  | cons p ps ih =>
    obtain ⟨c₀, r₀, b₀, a₀⟩ := p
    by_cases hb : cmp.gt (cmp.abs (M.e (A.rl.base r₀ + a₀) (A.cl.base c₀ + b₀))) tol = true
    · obtain ⟨hc, hr⟩ := hp _ List.mem_cons_self
      obtain ⟨A1, e1, f1, f2, f3, f4, f5⟩ := SBM.upd_spec h debug (r := r₀) (c := c₀) hr hc hst
        (fun B => ⟨B.rows, B.cols, fun i j => if i = a₀ ∧ j = b₀ then
          M.e (A.rl.base r₀ + a₀) (A.cl.base c₀ + b₀) else B.e i j⟩) (fun B h1 h2 => ⟨h1, h2⟩)
      obtain ⟨D, e2, g1, g2, g3, g4, g5⟩ := ih A1 f1 f4 (fun q hq => by
        rw [f2, f3]; exact hp q (List.mem_cons_of_mem _ hq))
      have hs : writeEntry debug cmp M tol A (c₀, r₀, b₀, a₀) = .ok A1 := by
        unfold writeEntry
        simp only [hb, if_true]
        exact e1
      refine ⟨D, by rw [Res.run_cons, hs, Res.bind_ok, e2], g1, g2.trans f2, g3.trans f3, g4, ?_⟩
      intro r c a b
      rw [g5, f2, f3]
      have hat : A1.at r c a b = if r = r₀ ∧ c = c₀ ∧ a = a₀ ∧ b = b₀ then
          M.e (A.rl.base r₀ + a₀) (A.cl.base c₀ + b₀) else A.at r c a b := by
        unfold SBM.SBM.at
        rw [f5]
        by_cases hk : r = r₀ ∧ c = c₀
        · obtain ⟨rfl, rfl⟩ := hk
          simp only [and_self, if_true, true_and]
          by_cases hab : a = a₀ ∧ b = b₀
          · rw [if_pos hab, if_pos hab]
          · rw [if_neg hab, if_neg hab]
            cases A.block r c <;> rfl
        · rw [if_neg hk, if_neg (fun h => hk ⟨h.1, h.2.1⟩)]
      rw [hat]
      by_cases hin : (c, r, b, a) ∈ ps ∧ cmp.gt (cmp.abs (M.e (A.rl.base r + a) (A.cl.base c + b))) tol = true
      · rw [if_pos hin, if_pos ⟨List.mem_cons_of_mem _ hin.1, hin.2⟩]
      · rw [if_neg hin]
        by_cases he : r = r₀ ∧ c = c₀ ∧ a = a₀ ∧ b = b₀
        · obtain ⟨rfl, rfl, rfl, rfl⟩ := he
          rw [if_pos ⟨rfl, rfl, rfl, rfl⟩, if_pos ⟨List.mem_cons_self, hb⟩]
        · rw [if_neg he, if_neg]
          rintro ⟨hm, hg⟩
          rcases List.mem_cons.1 hm with h1 | h1
          · simp only [Prod.mk.injEq] at h1
            exact he ⟨h1.2.1, h1.1, h1.2.2.2, h1.2.2.1⟩
          · exact hin ⟨h1, hg⟩
    · obtain ⟨D, e2, g1, g2, g3, g4, g5⟩ := ih A h hst (fun q hq => hp q (List.mem_cons_of_mem _ hq))
      have hs : writeEntry debug cmp M tol A (c₀, r₀, b₀, a₀) = .ok A := by
        unfold writeEntry
        simp [hb]
      refine ⟨D, by rw [Res.run_cons, hs, Res.bind_ok, e2], g1, g2, g3, g4, ?_⟩
      intro r c a b
      rw [g5]
      by_cases hin : (c, r, b, a) ∈ ps ∧ cmp.gt (cmp.abs (M.e (A.rl.base r + a) (A.cl.base c + b))) tol = true
      · rw [if_pos hin, if_pos ⟨List.mem_cons_of_mem _ hin.1, hin.2⟩]
      · rw [if_neg hin, if_neg]
        rintro ⟨hm, hg⟩
        rcases List.mem_cons.1 hm with h1 | h1
        · simp only [Prod.mk.injEq] at h1
          obtain ⟨rfl, rfl, rfl, rfl⟩ := h1
          exact hb hg
        · exact hin ⟨h1, hg⟩

theorem blockLoad_ok (debug : Bool) (cmp : Cmp K) (A : SBM.SBM K) (h : SBM.WF A) (hst : A.hasStorage = true)
    (M : DMat K) (tol : K) (hr : M.rows = A.rl.total) (hc : M.cols = A.cl.total) :
    ∃ D, blockLoad debug cmp A M tol = .ok D ∧ SBM.WF D ∧ D.rl = A.rl ∧ D.cl = A.cl ∧ D.hasStorage = true ∧
      ∀ i j, i < M.rows → j < M.cols → D.toDense.e i j =
        if cmp.gt (cmp.abs (M.e i j)) tol = true then M.e i j else 0 := by
  obtain ⟨D, e, g1, g2, g3, g4, g5⟩ := writeEntries debug cmp M tol (positions A.rl A.cl) (A.clear true)
    (SBM.clear_WF h true) hst (fun p hp => by
      obtain ⟨c, r, b, a⟩ := p
      have := (mem_positions A.rl A.cl c r b a).1 hp
      exact ⟨this.1, this.2.1⟩)
  have g2' : D.rl = A.rl := g2
  have g3' : D.cl = A.cl := g3
  refine ⟨D, ?_, g1, g2', g3', g4, ?_⟩
  · unfold blockLoad
    rw [if_neg (by simpa using hr), if_neg (by simpa using hc)]
    exact e
  intro i j hi hj
  rw [hr] at hi
  rw [hc] at hj
  obtain ⟨r, hrn, a, ha, rfl⟩ := SBM.Layout.locate h.rmono hi
  obtain ⟨c, hcn, b, hb, rfl⟩ := SBM.Layout.locate h.cmono hj
  have hd := SBM.toDense_at (A := D) g1 (r := r) (c := c) (a := a) (b := b) (by rw [g2']; exact hrn)
    (by rw [g3']; exact hcn) (by rw [g2']; exact ha) (by rw [g3']; exact hb)
  rw [g2', g3'] at hd
  rw [hd, g5, SBM.clear_at]
  have hm := (mem_positions A.rl A.cl c r b a).2 ⟨hcn, hrn, hb, ha⟩
  simp only [hm, true_and]
  rfl

/-! ### Loading and asking, implementation by implementation -/

theorem load_holds (debug : Bool) (cmp : Cmp K) (m n : Nat) (o : Impl K) (ho : Usable m n o) (M N : DMat K) (tol : K)
    (hm : M.rows = m) (hn : M.cols = n) (h1 : N.rows = m) (h2 : N.cols = n)
    (hd : ∀ i j, i < m → j < n → N.e i j = if cmp.le (cmp.abs (M.e i j)) tol = true then 0 else M.e i j)
    (hc : ∀ i j, i < m → j < n → N.e i j = if cmp.gt (cmp.abs (M.e i j)) (cmp.abs tol) = true then M.e i j else 0)
    (hb : ∀ i j, i < m → j < n → N.e i j = if cmp.gt (cmp.abs (M.e i j)) tol = true then M.e i j else 0) :
    ∃ o', load debug cmp M tol o = .ok o' ∧ Usable m n o' ∧ Holds N o' := by
  subst hm hn
  cases o with
  | dense D =>
    refine ⟨.dense (denseLoad cmp M tol), rfl, trivial, h1.symm, h2.symm, fun i j hi hj => ?_⟩
    rw [hd i j (h1 ▸ hi) (h2 ▸ hj)]
    rfl
  | compressed A =>
    obtain ⟨B, e, g1, g2, g3, g4, g5⟩ := CCM.fromDense_ok (fun x => cmp.gt (cmp.abs x) (cmp.abs tol)) A M
    have hwf : CCM.WF B := g5.wf (by rw [g1]; exact CCM.denseColumn_ok _ M)
    refine ⟨.compressed B, by simp only [load, e, Res.bind_ok], g3.trans ho, hwf, g1.trans h1.symm, g2.trans h2.symm, ?_⟩
    intro i j hi hj
    rw [g5.read i j (by simpa using h2 ▸ hj)]
    simp only [List.getElem_map, List.getElem_range]
    rw [CCM.denseColumn_read _ M j i (h1 ▸ hi), hc i j (h1 ▸ hi) (h2 ▸ hj)]
  | block A =>
    obtain ⟨hwf, hst, hr, hc'⟩ := ho
    obtain ⟨D, e, g1, g2, g3, g4, g5⟩ := blockLoad_ok debug cmp A hwf hst M tol hr.symm hc'.symm
    refine ⟨.block D, by simp only [load, e, Res.bind_ok], ⟨g1, g4, by rw [g2, hr], by rw [g3, hc']⟩, ?_⟩
    intro i j hi hj
    rw [g5 i j (h1 ▸ hi) (h2 ▸ hj), hb i j (h1 ▸ hi) (h2 ▸ hj)]

omit [CommRing K] in
theorem vecOf_congr {n : Nat} {y z : Nat → K} (h : ∀ i, i < n → y i = z i) : vecOf n y = vecOf n z := by
  unfold vecOf
  exact List.map_congr_left fun i hi => h i (List.mem_range.1 hi)

omit [CommRing K] in
theorem matOf_congr {m n : Nat} {e f : Nat → Nat → K} (h : ∀ i j, i < m → j < n → e i j = f i j) :
    matOf m n e = matOf m n f := by
  unfold matOf
  exact List.map_congr_left fun i hi => List.map_congr_left fun j hj => h i j (List.mem_range.1 hi) (List.mem_range.1 hj)

theorem ask_holds (debug : Bool) (M : DMat K) (o : Impl K) (hu : Usable M.rows M.cols o) (ho : Holds M o) (q : Ask K)
    (hq : q.Fits M.rows M.cols) : ask debug q o = .ok (answer M q) := by
  have hsr : ∀ (x : List K) (e : Nat → Nat → K), (∀ i j, i < M.rows → j < M.cols → e i j = M.e i j) →
      ∀ i, i < M.rows → (∑ j ∈ Finset.range M.cols, e i j * x.getD j 0) = ∑ j ∈ Finset.range M.cols, M.e i j * x.getD j 0 :=
    fun x e he i hi => Finset.sum_congr rfl fun j hj => by rw [he i j hi (Finset.mem_range.1 hj)]
  have hsl : ∀ (x : List K) (e : Nat → Nat → K), (∀ i j, i < M.rows → j < M.cols → e i j = M.e i j) →
      ∀ j, j < M.cols → (∑ i ∈ Finset.range M.rows, e i j * x.getD i 0) = ∑ i ∈ Finset.range M.rows, M.e i j * x.getD i 0 :=
    fun x e he j hj => Finset.sum_congr rfl fun i hi => by rw [he i j (Finset.mem_range.1 hi) hj]
  cases o with
  | dense D =>
    obtain ⟨h1, h2, h3⟩ := ho
    cases q with
    | rows => simp only [ask, askDense, answer, h1]
    | cols => simp only [ask, askDense, answer, h2]
    | get r c =>
      simp only [ask, askDense, answer, h1, h2]
      rw [if_pos (show _ ∧ _ from hq), h3 r c hq.1 hq.2]
    | dense =>
      simp only [ask, askDense, answer, h1, h2]
      rw [matOf_congr h3]
      rfl
    | right x =>
      simp only [ask, askDense, answer, h1, h2]
      rw [if_pos (show x.length = _ from hq), vecOf_congr (hsr x D.e h3)]
      rfl
    | left x =>
      simp only [ask, askDense, answer, h1, h2]
      rw [if_pos (show x.length = _ from hq), vecOf_congr (hsl x D.e h3)]
      rfl
  | compressed A =>
    obtain ⟨hwf, h1, h2, h3⟩ := ho
    have hf : A.hasDiag = false := hu
    obtain ⟨E, eE, hE, _⟩ := CCM.C12_lookup_is_dense debug A hwf
    obtain ⟨p1, p2, _, _⟩ := CCM.C15_products A hwf hf
    cases q with
    | rows => simp only [ask, askCompressed, answer, h1]
    | cols => simp only [ask, askCompressed, answer, h2]
    | get r c =>
      have h := hE r c (h1 ▸ hq.1) (h2 ▸ hq.2)
      simp only [ask, askCompressed, answer, h.1, Res.bind_ok]
      rw [h.2.2, h3 r c hq.1 hq.2]
    | dense =>
      simp only [ask, askCompressed, answer, eE, Res.bind_ok, h1, h2]
      rw [matOf_congr (f := M.e) fun i j hi hj => by
        rw [(hE i j (h1 ▸ hi) (h2 ▸ hj)).2.2, h3 i j hi hj]]
      rfl
    | right x =>
      obtain ⟨y, ey, hy⟩ := p1 x (by rw [h2]; exact hq)
      simp only [ask, askCompressed, answer, ey, Res.bind_ok, h1]
      rw [vecOf_congr (z := fun i => ∑ j ∈ Finset.range M.cols, M.e i j * x.getD j 0) fun i hi => by
        rw [hy i (h1 ▸ hi), h2, hsr x _ h3 i hi]]
      rfl
    | left x =>
      obtain ⟨y, ey, hy⟩ := p2 x (by rw [h1]; exact hq)
      have hp : CCM.prodCols A = M.cols := by simp [CCM.prodCols, hf, h2]
      simp only [ask, askCompressed, answer, ey, Res.bind_ok, hp]
      rw [vecOf_congr (z := fun j => ∑ i ∈ Finset.range M.rows, M.e i j * x.getD i 0) fun j hj => by
        rw [hy j (h2 ▸ hj), h1, hsl x _ h3 j hj]]
      rfl
  | block A =>
    obtain ⟨hwf, hst, h1, h2⟩ := hu
    have h3 : ∀ i j, i < M.rows → j < M.cols → A.toDense.e i j = M.e i j := ho
    cases q with
    | rows => simp only [ask, askBlock, answer, h1]
    | cols => simp only [ask, askBlock, answer, h2]
    | get r c =>
      simp only [ask, askBlock, answer]
      rw [SBM.C51_get_eq_dense debug A hwf, h1, h2, if_pos (show _ ∧ _ from hq), Res.bind_ok, h3 r c hq.1 hq.2]
    | dense =>
      simp only [ask, askBlock, answer, h1, h2]
      rw [matOf_congr h3]
      rfl
    | right x =>
      simp only [ask, askBlock, answer, h1, h2]
      rw [if_pos (show x.length = _ from hq), vecOf_congr (z := fun i => ∑ j ∈ Finset.range M.cols, M.e i j * x.getD j 0) fun i hi => by
        rw [SBM.C52_mulVec_dense A hwf _ i (by rw [h1]; exact hi), h2, hsr x _ h3 i hi]]
      rfl
    | left x =>
      simp only [ask, askBlock, answer, h1, h2]
      rw [if_pos (show x.length = _ from hq), vecOf_congr (z := fun j => ∑ i ∈ Finset.range M.rows, M.e i j * x.getD i 0) fun j hj => by
        rw [SBM.C52_rightMulVec_dense A hwf _ j (by rw [h2]; exact hj), h1, hsl x _ h3 j hj]]
      rfl

section ordered
variable {F : Type} [CommRing F] [LinearOrder F] [IsStrictOrderedRing F]

/-- A call that fills the matrix. -/
def Call.Loads : Call K → Prop
  | .ask _ => False
  | _ => True

theorem load_step (debug : Bool) (m n : Nat) (o : Impl F) (ho : Usable m n o) (c : Call F) (hc : c.Fits m n) (hl : c.Loads)
    (as : List (Ans F)) (N : DMat F) :
    ∃ o', call debug (Cmp.exact F) (o, as) c = .ok (o', as) ∧ (script (N, as) c).2 = as ∧
      (script (N, as) c).1.rows = m ∧ (script (N, as) c).1.cols = n ∧ Usable m n o' ∧ Holds (script (N, as) c).1 o' := by
  cases c with
  | ask q => exact hl.elim
  | load M tol =>
    obtain ⟨h1, h2, h3⟩ := hc
    obtain ⟨o', e, hu, hh⟩ := load_holds debug (Cmp.exact F) m n o ho M (cleaned M tol) tol h1 h2 h1 h2
      (fun i j _ _ => by simp [cleaned, Cmp.exact])
      (fun i j _ _ => by
        simp only [cleaned, Cmp.exact, abs_of_nonneg h3, decide_eq_true_eq]
        by_cases h : |M.e i j| ≤ tol
        · rw [if_pos h, if_neg (not_lt.2 h)]
        · rw [if_neg h, if_pos (not_le.1 h)])
      (fun i j _ _ => by
        simp only [cleaned, Cmp.exact, decide_eq_true_eq]
        by_cases h : |M.e i j| ≤ tol
        · rw [if_pos h, if_neg (not_lt.2 h)]
        · rw [if_neg h, if_pos (not_le.1 h)])
    exact ⟨o', by simp only [call, e, Res.bind_ok], rfl, h1, h2, hu, hh⟩
  | loadAll M =>
    obtain ⟨h1, h2⟩ := hc
    have hz : ∀ i j, M.e i j = if (0 : F) < |M.e i j| then M.e i j else 0 := fun i j => by
      by_cases h : (0 : F) < |M.e i j|
      · rw [if_pos h]
      · rw [if_neg h]; exact abs_nonpos_iff.1 (not_lt.1 h)
    have hload : ∀ o : Impl F, Usable m n o → ∃ o', load debug (Cmp.exact F) M 0 o = .ok o' ∧ Usable m n o' ∧ Holds M o' :=
      fun o ho => load_holds debug (Cmp.exact F) m n o ho M M 0 h1 h2 h1 h2
        (fun i j _ _ => by
          simp only [Cmp.exact, decide_eq_true_eq]
          by_cases h : |M.e i j| ≤ 0
          · rw [if_pos h]; exact abs_nonpos_iff.1 h
          · rw [if_neg h])
        (fun i j _ _ => by simp [Cmp.exact])
        (fun i j _ _ => by simp [Cmp.exact])
    cases o with
    | dense D =>
      exact ⟨.dense M, rfl, rfl, h1, h2, trivial, rfl, rfl, fun _ _ _ _ => rfl⟩
    | compressed A =>
      obtain ⟨o', e, hu, hh⟩ := hload _ ho
      exact ⟨o', by simp only [call, loadAll, e, Res.bind_ok], rfl, h1, h2, hu, hh⟩
    | block A =>
      obtain ⟨o', e, hu, hh⟩ := hload _ ho
      exact ⟨o', by simp only [call, loadAll, e, Res.bind_ok], rfl, h1, h2, hu, hh⟩

theorem calls (debug : Bool) (m n : Nat) (cs : List (Call F)) (hcs : ∀ c ∈ cs, c.Fits m n) (o : Impl F) (M : DMat F)
    (as : List (Ans F)) (hm : M.rows = m) (hn : M.cols = n) (hu : Usable m n o) (hh : Holds M o) :
    ∃ o', Res.run (call debug (Cmp.exact F)) (o, as) cs = .ok (o', (cs.foldl script (M, as)).2) := by
  induction cs generalizing o M as with
  | nil => exact ⟨o, rfl⟩
  | cons c cs ih =>
    have hc := hcs c List.mem_cons_self
    have hcs' := fun c' h => hcs c' (List.mem_cons_of_mem _ h)
    by_cases hl : c.Loads
    · obtain ⟨o', e, e2, h1, h2, hu', hh'⟩ := load_step debug m n o hu c hc hl as M
      obtain ⟨o'', e'⟩ := ih hcs' o' _ as h1 h2 hu' hh'
      refine ⟨o'', ?_⟩
      rw [Res.run_cons, e, Res.bind_ok, e', List.foldl_cons]
      congr 3
      rw [← Prod.mk.eta (p := script (M, as) c), e2]
    · cases c with
      | load _ _ => exact (hl trivial).elim
      | loadAll _ => exact (hl trivial).elim
      | ask q =>
        have e := ask_holds debug M o (hm ▸ hn ▸ hu) hh q (by rw [hm, hn]; exact hc)
        obtain ⟨o'', e'⟩ := ih hcs' o M (as ++ [answer M q]) hm hn hu hh
        refine ⟨o'', ?_⟩
        rw [Res.run_cons]
        simp only [call, e, Res.bind_ok]
        rw [e', List.foldl_cons]
        rfl

/-- **C89** (the three classes are interchangeable; partial: tolerances must not be negative, numbers comparable and
the compressed matrix without appended diagonal). Take any usable object of any of the three classes, whatever it
holds, and any script of calls through the interface that starts with filling the matrix and whose sizes fit: every
call returns normally, and the answers are those of the last matrix loaded, with the entries of magnitude at most the
tolerance replaced by zero. They do not depend on the class. -/
theorem C89_interchangeable_partial (debug : Bool) (m n : Nat) (o : Impl F) (ho : Usable m n o) (c : Call F) (hl : c.Loads)
    (cs : List (Call F)) (hcs : ∀ c' ∈ c :: cs, c'.Fits m n) (N : DMat F) :
    ∃ o', Res.run (call debug (Cmp.exact F)) (o, []) (c :: cs) = .ok (o', ((c :: cs).foldl script (N, [])).2) := by
  obtain ⟨o', e, e2, h1, h2, hu, hh⟩ := load_step debug m n o ho c (hcs c List.mem_cons_self) hl [] N
  obtain ⟨o'', e'⟩ := calls debug m n cs (fun c' h => hcs c' (List.mem_cons_of_mem _ h)) o' _ [] h1 h2 hu hh
  refine ⟨o'', ?_⟩
  rw [Res.run_cons, e, Res.bind_ok, e', List.foldl_cons]
  congr 3
  rw [← Prod.mk.eta (p := script (N, []) c), e2]

end ordered

/-- **C89** (sizes). The block matrix rejects a matrix that does not fit its block structure, whatever the tolerance;
the other two take any size. -/
theorem C89_block_sizes (debug : Bool) (cmp : Cmp K) (A : SBM.SBM K) (M : DMat K) (tol : K)
    (h : M.rows ≠ A.rl.total ∨ M.cols ≠ A.cl.total) :
    load debug cmp M tol (.block A) = .exc ∧ loadAll debug cmp M (.block A) = .exc ∧
    (∀ D, ∃ o, load debug cmp M tol (.dense D) = .ok o) ∧ ∀ B, ∃ o, load debug cmp M tol (.compressed B) = .ok o := by
  have e : ∀ t, blockLoad debug cmp A M t = .exc := fun t => by
    unfold blockLoad
    by_cases h1 : M.rows = A.rl.total
    · rw [if_neg (by simpa using h1), if_pos (h.resolve_left (by simpa using h1))]
    · rw [if_pos h1]
  refine ⟨by simp only [load, e, Res.bind_exc], by simp only [loadAll, load, e, Res.bind_exc], fun D => ⟨_, rfl⟩, fun B => ?_⟩
  obtain ⟨C, eC, _⟩ := CCM.fromDense_ok (fun x => cmp.gt (cmp.abs x) (cmp.abs tol)) B M
  exact ⟨.compressed C, by simp only [load, eC, Res.bind_ok]⟩

/-! ### Examples -/

/-- A block matrix with block rows 2, 1 and block columns 1, 1. -/
def exBlock : SBM.SBM Int := SBM.new SBM.demoLayout ⟨2, fun i => i + 1⟩

theorem exBlock_usable : Usable 3 2 (.block exBlock) :=
  ⟨SBM.new_WF _ _ SBM.demoLayout_mono (by intro r h; simp) true, rfl, rfl, rfl⟩

/-- A 3 × 2 matrix. -/
def exM : DMat Int := ⟨3, 2, fun i j => 3 * i - 4 * j⟩

/-- A script with two loads and every kind of question. -/
def exScript : List (Call Int) :=
  [.load exM 1, .ask (.get 2 1), .ask (.right [1, 2]), .loadAll exM, .ask .dense, .ask (.left [1, -1, 5]), .ask .rows]

example : (∀ c ∈ exScript, c.Fits 3 2) ∧ (exScript.foldl script (exM, [])).2 =
    [.num 2, .vec [-8, 3, 10], .mat [[0, -4], [3, -1], [6, 2]], .vec [27, 7], .size 3] := by
  constructor
  · intro c hc
    simp only [exScript, List.mem_cons, List.not_mem_nil, or_false] at hc
    rcases hc with rfl | rfl | rfl | rfl | rfl | rfl | rfl <;> simp [Call.Fits, Ask.Fits, exM]
  · decide +kernel

/-- The object the script is run on may be any of the three. -/
example : ∃ o₁ o₂ o₃, ∃ as : List (Ans Int), as.length = 5 ∧
    Res.run (call true (Cmp.exact Int)) (.dense ⟨0, 0, fun _ _ => 0⟩, []) exScript = .ok (o₁, as) ∧
    Res.run (call true (Cmp.exact Int)) (.compressed CCM.demo, []) exScript = .ok (o₂, as) ∧
    Res.run (call true (Cmp.exact Int)) (.block exBlock, []) exScript = .ok (o₃, as) := by
  have hf : ∀ c ∈ exScript, c.Fits 3 2 := by
    intro c hc
    simp only [exScript, List.mem_cons, List.not_mem_nil, or_false] at hc
    rcases hc with rfl | rfl | rfl | rfl | rfl | rfl | rfl <;> simp [Call.Fits, Ask.Fits, exM]
  obtain ⟨o₁, e₁⟩ := C89_interchangeable_partial true 3 2 (.dense ⟨0, 0, fun _ _ => 0⟩) trivial (.load exM 1) trivial _ hf exM
  obtain ⟨o₂, e₂⟩ := C89_interchangeable_partial true 3 2 (.compressed CCM.demo) rfl (.load exM 1) trivial _ hf exM
  obtain ⟨o₃, e₃⟩ := C89_interchangeable_partial true 3 2 (.block exBlock) exBlock_usable (.load exM 1) trivial _ hf exM
  exact ⟨o₁, o₂, o₃, _, by decide +kernel, e₁, e₂, e₃⟩

/-! ### Where the classes differ -/

/-- A one by one matrix. -/
def one (x : Int) : DMat Int := ⟨1, 1, fun _ _ => x⟩

/-- Usable objects of the three classes for one by one matrices. -/
def exObjects : List (Impl Int) :=
  [.dense (one 0), .compressed (CCM.new 1 1), .block (SBM.new SBM.unitLayout SBM.unitLayout)]

example : ∀ o ∈ exObjects, Usable 1 1 o := by
  intro o ho
  simp only [exObjects, List.mem_cons, List.not_mem_nil, or_false] at ho
  rcases ho with rfl | rfl | rfl
  · trivial
  · rfl
  · exact ⟨SBM.new_WF _ _ (by intro r h; simp [SBM.unitLayout]) (by intro r h; simp [SBM.unitLayout]) true, rfl, rfl, rfl⟩

/-- The answers of the three objects to a script. -/
def answers (cmp : Cmp Int) (cs : List (Call Int)) : List (Res (List (Ans Int))) :=
  exObjects.map fun o => Res.run (call true cmp) (o, []) cs >>= fun s => .ok s.2

/-- **C89, limit.** With a negative tolerance the compressed matrix drops small entries, the others keep everything. -/
theorem C89_negative_tolerance_counterexample :
    answers (Cmp.exact Int) [.load (one 1) (-2), .ask (.get 0 0)] = [.ok [.num 1], .ok [.num 0], .ok [.num 1]] := by
  decide +kernel

/-- Comparisons in which the number 7 plays the part of NaN: every comparison with it is false. -/
def withNaN : Cmp Int :=
  ⟨fun x => if x = 7 then 7 else |x|, fun x y => x ≠ 7 && y ≠ 7 && decide (x ≤ y), fun x y => x ≠ 7 && y ≠ 7 && decide (y < x)⟩

/-- **C89, limit.** NaN is kept by the dense matrix and silently becomes zero in the other two, with `fromDense` as
well as with a tolerance. -/
theorem C89_nan_counterexample :
    answers withNaN [.load (one 7) 1, .ask (.get 0 0)] = [.ok [.num 7], .ok [.num 0], .ok [.num 0]] ∧
    answers withNaN [.loadAll (one 7), .ask (.get 0 0)] = [.ok [.num 7], .ok [.num 0], .ok [.num 0]] := by
  decide +kernel

/-- **C89, limit.** Filling a compressed matrix does not forget an appended diagonal: products with vectors of the right
length are rejected afterwards. -/
theorem C89_diagonal_counterexample : ∃ A : CCM.CCM Int, CCM.pushDiag (CCM.new 1 1) [5] = .ok A ∧
    (Res.run (call true (Cmp.exact Int)) (.compressed A, []) [.loadAll (one 3), .ask (.right [1])] >>= fun s => .ok s.2) =
      .exc := by
  refine ⟨_, rfl, ?_⟩
  decide +kernel

/-- **C89, limit.** A vector of the wrong length is rejected by the compressed matrix only; the other two read or write
outside of their data (in debug builds an assertion ends the program). -/
theorem C89_length_counterexample :
    answers (Cmp.exact Int) [.load (one 1) 0, .ask (.right [1, 2])] = [.ub, .exc, .ub] := by
  decide +kernel

end Verif.Iface
