import Verif.SBM.Spec

/-! Helper lemmas for sparse block matrices. -/
namespace Verif.SBM
open Verif.MatrixStack (DMat)

/-! ### layouts -/

namespace Layout
variable {L : Layout}

theorem base_succ (L : Layout) (r : Nat) : L.base (r + 1) = L.idx r := by simp [base]

theorem base_zero (L : Layout) : L.base 0 = 0 := by simp [base]

theorem base_add_size (h : L.Mono) {r : Nat} (hr : r < L.n) : L.base r + L.size r = L.base (r + 1) := by
  rw [base_succ]
  cases r with
  | zero => simp [base, size]
  | succ r =>
    have := h r hr
    simp [base, size]; omega

theorem base_le (h : L.Mono) {r s : Nat} (hrs : r ≤ s) (hs : s ≤ L.n) : L.base r ≤ L.base s := by
  induction s with
  | zero => simp_all
  | succ s ih =>
    by_cases he : r = s + 1
    · rw [he]
    · have h1 := ih (by omega) (by omega)
      have h2 := base_add_size h (r := s) (by omega)
      omega

theorem total_eq (L : Layout) : L.total = L.base L.n := by
  unfold total base
  rfl

theorem base_add_size_le_total (h : L.Mono) {r : Nat} (hr : r < L.n) :
    L.base r + L.size r ≤ L.total := by
  rw [base_add_size h hr, total_eq]
  exact base_le h (by omega) (le_refl _)

theorem locate (h : L.Mono) {i : Nat} (hi : i < L.total) :
    ∃ r, r < L.n ∧ ∃ a, a < L.size r ∧ i = L.base r + a := by
  rw [total_eq] at hi
  have : ∀ m, m ≤ L.n → i < L.base m → ∃ r, r < m ∧ ∃ a, a < L.size r ∧ i = L.base r + a := by
    intro m
    induction m with
    | zero => intro _ h; simp [base] at h
    | succ m ih =>
      intro hm hi
      by_cases hlt : i < L.base m
      · obtain ⟨r, hr, h⟩ := ih (by omega) hlt
        exact ⟨r, by omega, h⟩
      · have := base_add_size h (r := m) (by omega)
        exact ⟨m, by omega, i - L.base m, by omega, by omega⟩
  exact this L.n (le_refl _) hi

theorem unique (h : L.Mono) {r s i : Nat} (hr : r < L.n) (hs : s < L.n)
    (h1 : L.base r ≤ i) (h2 : i < L.base r + L.size r) (h3 : L.base s ≤ i)
    (h4 : i < L.base s + L.size s) : r = s := by
  rw [base_add_size h hr] at h2
  rw [base_add_size h hs] at h4
  by_contra hne
  rcases Nat.lt_or_gt_of_ne hne with hlt | hlt
  · have := base_le h (r := r + 1) (s := s) (by omega) (by omega); omega
  · have := base_le h (r := s + 1) (s := r) (by omega) (by omega); omega

theorem upperBound_eq (h : L.Mono) {r i : Nat} (hr : r < L.n) (h1 : L.base r ≤ i)
    (h2 : i < L.base r + L.size r) : L.upperBound i = r := by
  have key : (List.range L.n).find? (fun k => decide (i < L.idx k)) = some r := by
    rw [List.find?_range_eq_some]
    refine ⟨by rw [base_add_size h hr, base_succ] at h2; simpa using h2, by simpa using hr, ?_⟩
    intro s hs
    have := base_le h (r := s + 1) (s := r) (by omega) (by omega)
    rw [base_succ] at this
    simp; omega
  simp [upperBound, key]

theorem sum_blocks {R : Type} [AddCommMonoid R] (h : L.Mono) (f : Nat → R) :
    ∑ i ∈ Finset.range L.total, f i =
      ∑ r ∈ Finset.range L.n, ∑ a ∈ Finset.range (L.size r), f (L.base r + a) := by
  rw [total_eq]
  have : ∀ m, m ≤ L.n → ∑ i ∈ Finset.range (L.base m), f i =
      ∑ r ∈ Finset.range m, ∑ a ∈ Finset.range (L.size r), f (L.base r + a) := by
    intro m
    induction m with
    | zero => intro _; simp [base]
    | succ m ih =>
      intro hm
      rw [← base_add_size h (by omega), Finset.sum_range_add, ih (by omega), Finset.sum_range_succ]
  exact this _ (le_refl _)

theorem same_n {M : Layout} (h : L.same M = true) : L.n = M.n := by
  simp only [same, Bool.and_eq_true, beq_iff_eq] at h; exact h.1

theorem same_idx {M : Layout} (h : L.same M = true) {i : Nat} (hi : i < L.n) : L.idx i = M.idx i := by
  simp only [same, Bool.and_eq_true, List.all_eq_true, beq_iff_eq] at h
  exact h.2 i (by simpa using hi)

theorem same_base {M : Layout} (h : L.same M = true) {i : Nat} (hi : i ≤ L.n) : L.base i = M.base i := by
  cases i with
  | zero => simp [base]
  | succ i => rw [base_succ, base_succ]; exact same_idx h (by omega)

theorem same_size {M : Layout} (h : L.same M = true) {i : Nat} (hi : i < L.n) : L.size i = M.size i := by
  cases i with
  | zero => simp [size, same_idx h hi]
  | succ i => simp [size, same_idx h hi, same_idx h (i := i) (by omega)]

theorem same_total {M : Layout} (h : L.same M = true) : L.total = M.total := by
  rw [total_eq, total_eq, ← same_n h, same_base h (le_refl _)]

theorem same_refl (L : Layout) : L.same L = true := by simp [same]

end Layout

/-! ### block columns -/

variable {R : Type} [CommRing R]

theorem block_eq_some {A : SBM R} (h : WF A) {r c : Nat} (hc : c < A.cl.n) {B : DMat R} :
    A.block r c = some B ↔ (r, B) ∈ A.col c := by
  unfold SBM.block
  have hs := h.sorted c hc
  generalize A.col c = l at hs
  induction l with
  | nil => simp
  | cons p ps ih =>
    rw [List.pairwise_cons] at hs
    rw [List.find?_cons]
    by_cases hp : p.1 = r
    · subst hp
      simp only [beq_self_eq_true, Option.map_some, Option.some.injEq, List.mem_cons]
      constructor
      · rintro rfl; left; rfl
      · rintro (h | h)
        · rw [← h]
        · have := hs.1 _ h; simp only at this; omega
    · have : (p.1 == r) = false := by simpa using hp
      rw [this]
      simp only [List.mem_cons]
      have ih' := ih hs.2
      constructor
      · exact fun h => Or.inr (ih'.1 h)
      · rintro (h | h)
        · rw [← h] at hp; exact absurd rfl hp
        · exact ih'.2 h

theorem block_lt {A : SBM R} (h : WF A) {r c : Nat} (hc : c < A.cl.n) {B : DMat R}
    (hb : A.block r c = some B) : r < A.rl.n ∧ B.rows = A.rl.size r ∧ B.cols = A.cl.size c :=
  h.shape c hc _ ((block_eq_some h hc).1 hb)

theorem mem_visits {A : SBM R} {r c : Nat} {B : DMat R} :
    (r, c, B) ∈ A.visits ↔ c < A.cl.n ∧ (r, B) ∈ A.col c := by
  simp only [SBM.visits, List.mem_flatMap, List.mem_range, List.mem_map, Prod.mk.injEq]
  constructor
  · rintro ⟨c', hc', p, hp, rfl, rfl, rfl⟩
    exact ⟨hc', hp⟩
  · rintro ⟨hc, hp⟩
    exact ⟨c, hc, _, hp, rfl, rfl, rfl⟩

/-- Sum over a block column as a sum over all block rows. -/
theorem col_sum {S : Type} [AddCommMonoid S] {A : SBM R} (h : WF A) {c : Nat} (hc : c < A.cl.n)
    (f : Nat → DMat R → S) :
    ((A.col c).map fun p => f p.1 p.2).sum =
      ∑ r ∈ Finset.range A.rl.n, (A.block r c).elim 0 (f r) := by
  unfold SBM.block
  have hs := h.sorted c hc
  have hlt : ∀ p ∈ A.col c, p.1 < A.rl.n := fun p hp => (h.shape c hc p hp).1
  generalize A.col c = l at hs hlt
  induction l with
  | nil => simp
  | cons p ps ih =>
    rw [List.pairwise_cons] at hs
    rw [List.map_cons, List.sum_cons, ih hs.2 (fun q hq => hlt q (by simp [hq]))]
    have hp := hlt p (by simp)
    rw [show f p.1 p.2 = ∑ r ∈ Finset.range A.rl.n, (if p.1 = r then f p.1 p.2 else 0) by
      rw [Finset.sum_ite_eq]; simp [hp]]
    rw [← Finset.sum_add_distrib]
    refine Finset.sum_congr rfl fun r _ => ?_
    rw [List.find?_cons]
    by_cases he : p.1 = r
    · subst he
      have hn : ps.find? (fun q => q.1 == p.1) = none := by
        rw [List.find?_eq_none]
        intro q hq
        have := hs.1 q hq
        simp; omega
      simp [hn]
    · have : (p.1 == r) = false := by simpa using he
      rw [this]
      simp [he]

theorem visits_sum {S : Type} [AddCommMonoid S] {A : SBM R} (h : WF A)
    (f : Nat → Nat → DMat R → S) :
    (A.visits.map fun v => f v.1 v.2.1 v.2.2).sum =
      ∑ c ∈ Finset.range A.cl.n, ∑ r ∈ Finset.range A.rl.n, (A.block r c).elim 0 (f r c) := by
  have key : ∀ m, m ≤ A.cl.n →
      (((List.range m).flatMap fun c => (A.col c).map fun p => (p.1, c, p.2)).map
        fun v : Nat × Nat × DMat R => f v.1 v.2.1 v.2.2).sum =
      ∑ c ∈ Finset.range m, ∑ r ∈ Finset.range A.rl.n, (A.block r c).elim 0 (f r c) := by
    intro m
    induction m with
    | zero => intro _; simp
    | succ m ih =>
      intro hm
      rw [List.range_succ, List.flatMap_append, List.map_append, List.sum_append, ih (by omega),
        Finset.sum_range_succ, ← col_sum h (show m < A.cl.n by omega)]
      simp [List.map_map, Function.comp_def]
  exact key _ (le_refl _)

/-! ### dense expansion -/

theorem foldl_write {ι : Type} (P : ι → Nat → Nat → Prop) [∀ v i j, Decidable (P v i j)]
    (f : ι → Nat → Nat → R) (vs : List ι) (H : Nat → Nat → R) (i j : Nat) (x : R)
    (hx : ∀ v ∈ vs, P v i j → f v i j = x) (hex : (∃ v ∈ vs, P v i j) ∨ H i j = x) :
    vs.foldl (fun H v i j => if P v i j then f v i j else H i j) H i j = x := by
  induction vs generalizing H with
  | nil => simpa using hex
  | cons v vs ih =>
    rw [List.foldl_cons]
    apply ih _ (fun w hw => hx w (by simp [hw]))
    by_cases hv : P v i j
    · right; simp only [hv, if_true]; exact hx v (by simp) hv
    · rcases hex with ⟨w, hw, hp⟩ | h
      · rcases List.mem_cons.1 hw with rfl | hw
        · exact absurd hp hv
        · exact .inl ⟨w, hw, hp⟩
      · right; simpa [hv] using h

theorem toDense_at {A : SBM R} (h : WF A) {r c a b : Nat} (hr : r < A.rl.n) (hc : c < A.cl.n)
    (ha : a < A.rl.size r) (hb : b < A.cl.size c) :
    A.toDense.e (A.rl.base r + a) (A.cl.base c + b) = A.at r c a b := by
  have huniq : ∀ v ∈ A.visits, (A.rl.base v.1 ≤ A.rl.base r + a ∧
      A.rl.base r + a < A.rl.base v.1 + A.rl.size v.1 ∧ A.cl.base v.2.1 ≤ A.cl.base c + b ∧
      A.cl.base c + b < A.cl.base v.2.1 + A.cl.size v.2.1) →
      v.1 = r ∧ v.2.1 = c ∧ A.block r c = some v.2.2 := by
    rintro ⟨r', c', B⟩ hv ⟨h1, h2, h3, h4⟩
    obtain ⟨hc', hm⟩ := mem_visits.1 hv
    have e1 := Layout.unique h.rmono (h.shape c' hc' _ hm).1 hr h1 h2 (by omega) (by omega)
    have e2 := Layout.unique h.cmono hc' hc h3 h4 (by omega) (by omega)
    simp only at e1 e2
    subst e1; subst e2
    exact ⟨rfl, rfl, (block_eq_some h hc).2 hm⟩
  unfold SBM.toDense SBM.at
  simp only
  apply foldl_write (fun (v : Nat × Nat × DMat R) i j => A.rl.base v.1 ≤ i ∧ i < A.rl.base v.1 + A.rl.size v.1 ∧
      A.cl.base v.2.1 ≤ j ∧ j < A.cl.base v.2.1 + A.cl.size v.2.1)
    (fun v i j => v.2.2.e (i - A.rl.base v.1) (j - A.cl.base v.2.1))
  · intro v hv hp
    obtain ⟨e1, e2, e3⟩ := huniq v hv hp
    rw [e3, e1, e2]
    simp
  · cases hblk : A.block r c with
    | none => right; rfl
    | some B =>
      left
      exact ⟨(r, c, B), mem_visits.2 ⟨hc, (block_eq_some h hc).1 hblk⟩, by simp only; omega⟩

theorem get_at {A : SBM R} (h : WF A) (debug : Bool) {r c a b : Nat} (hr : r < A.rl.n)
    (hc : c < A.cl.n) (ha : a < A.rl.size r) (hb : b < A.cl.size c) :
    A.get debug (A.rl.base r + a) (A.cl.base c + b) = .ok (A.at r c a b) := by
  have h1 := Layout.base_add_size_le_total h.rmono hr
  have h2 := Layout.base_add_size_le_total h.cmono hc
  unfold SBM.get SBM.at
  rw [if_neg (by omega), if_neg (by omega)]
  rw [Layout.upperBound_eq h.rmono hr (by omega) (by omega),
    Layout.upperBound_eq h.cmono hc (by omega) (by omega)]
  simp only
  rw [if_neg (by simp [hr, hc])]
  cases hblk : A.block r c with
  | none => rfl
  | some B =>
    obtain ⟨_, s1, s2⟩ := block_lt h hc hblk
    simp only
    rw [if_pos (by rw [s1, s2]; omega)]
    simp

/-! ### writes -/

theorem insertRow_find (r : Nat) (B : DMat R) (l : List (Nat × DMat R)) (hr : ∀ p ∈ l, p.1 ≠ r)
    (r' : Nat) :
    (insertRow r B l).find? (fun p => p.1 == r') =
      if r' = r then some (r, B) else l.find? (fun p => p.1 == r') := by
  induction l with
  | nil =>
    by_cases h : r' = r
    · simp [insertRow, h]
    · have : (r == r') = false := by simpa using fun e => h e.symm
      simp [insertRow, h, List.find?_cons, this]
  | cons p ps ih =>
    have ih := ih (fun q hq => hr q (by simp [hq]))
    have hp := hr p (by simp)
    simp only [insertRow]
    split
    · by_cases h : r' = r
      · simp [h]
      · have : (r == r') = false := by simpa using fun e => h e.symm
        simp only [h, if_false]
        rw [List.find?_cons, this]
    · rw [List.find?_cons, ih, List.find?_cons]
      by_cases h : p.1 = r'
      · have : r' ≠ r := by omega
        simp [h, this]
      · have : (p.1 == r') = false := by simpa using h
        rw [this]

theorem insertRow_mem (r : Nat) (B : DMat R) (l : List (Nat × DMat R)) (q : Nat × DMat R) :
    q ∈ insertRow r B l ↔ q = (r, B) ∨ q ∈ l := by
  induction l with
  | nil => simp [insertRow]
  | cons p ps ih =>
    simp only [insertRow]
    split
    · simp
    · simp only [List.mem_cons, ih]; tauto

theorem insertRow_sorted (r : Nat) (B : DMat R) (l : List (Nat × DMat R)) (hr : ∀ p ∈ l, p.1 ≠ r)
    (hs : l.Pairwise fun p q => p.1 < q.1) : (insertRow r B l).Pairwise fun p q => p.1 < q.1 := by
  induction l with
  | nil => simp [insertRow]
  | cons p ps ih =>
    rw [List.pairwise_cons] at hs
    have ih := ih (fun q hq => hr q (by simp [hq])) hs.2
    have hp := hr p (by simp)
    simp only [insertRow]
    split
    · rename_i hlt
      rw [List.pairwise_cons]
      refine ⟨?_, List.pairwise_cons.2 hs⟩
      intro q hq
      rcases List.mem_cons.1 hq with rfl | hq
      · exact hlt
      · have := hs.1 q hq; simp only; omega
    · rw [List.pairwise_cons]
      refine ⟨?_, ih⟩
      intro q hq
      rcases (insertRow_mem r B ps q).1 hq with rfl | hq
      · simp only; omega
      · exact hs.1 q hq

theorem upd_spec {A : SBM R} (h : WF A) (debug : Bool) {r c : Nat} (hr : r < A.rl.n)
    (hc : c < A.cl.n) (hst : A.hasStorage = true) (f : DMat R → DMat R)
    (hf : ∀ B, B.rows = A.rl.size r → B.cols = A.cl.size c →
      (f B).rows = A.rl.size r ∧ (f B).cols = A.cl.size c) :
    ∃ A', A.upd debug r c f = .ok A' ∧ WF A' ∧ A'.rl = A.rl ∧ A'.cl = A.cl ∧ A'.hasStorage = true ∧
      ∀ r' c', A'.block r' c' =
        if r' = r ∧ c' = c then some (f ((A.block r c).getD (A.zeroBlock r c))) else A.block r' c' := by
  unfold SBM.upd
  rw [if_neg (by simp [hr, hc])]
  cases hblk : A.block r c with
  | some B =>
    refine ⟨_, rfl, ⟨h.rmono, h.cmono, ?_, ?_⟩, rfl, rfl, hst, ?_⟩
    · intro c' hc'
      simp only [Function.update_apply]
      split
      · rw [List.pairwise_map]
        refine (h.sorted c hc).imp ?_
        intro p q hpq
        split <;> split <;> exact hpq
      · exact h.sorted c' hc'
    · intro c' hc' p hp
      simp only [Function.update_apply] at hp
      split at hp
      · rename_i he; subst he
        obtain ⟨q, hq, rfl⟩ := List.mem_map.1 hp
        obtain ⟨s0, s1, s2⟩ := h.shape c' hc' q hq
        split
        · rename_i he; subst he
          exact ⟨s0, hf _ s1 s2⟩
        · exact ⟨s0, s1, s2⟩
      · exact h.shape c' hc' p hp
    · intro r' c'
      simp only [SBM.block, Function.update_apply]
      by_cases hcc : c' = c
      · subst hcc
        simp only [if_true, and_true]
        have hcond : ∀ l : List (Nat × DMat R),
            (l.map fun p => if p.1 = r then (p.1, f p.2) else p).find? (fun p => p.1 == r') =
            (l.find? fun p => p.1 == r').map fun p => if p.1 = r then (p.1, f p.2) else p := by
          intro l
          rw [List.find?_map]
          congr 2
          funext p
          simp only [Function.comp]
          split <;> rfl
        rw [hcond]
        by_cases hrr : r' = r
        · subst hrr
          unfold SBM.block at hblk
          obtain ⟨q, hq, e⟩ := Option.map_eq_some_iff.1 hblk
          have hq1 : q.1 = r' := by simpa using List.find?_some hq
          simp [hq, hq1, e]
        · rw [if_neg hrr]
          cases hq : (A.col c').find? (fun p => p.1 == r') with
          | none => rfl
          | some q =>
            have hq1 : q.1 = r' := by simpa using List.find?_some hq
            have : ¬ q.1 = r := by omega
            simp [this]
      · simp [hcc]
  | none =>
    have hnone : ∀ p ∈ A.col c, p.1 ≠ r := by
      intro p hp he
      unfold SBM.block at hblk
      rw [Option.map_eq_none_iff, List.find?_eq_none] at hblk
      have := hblk p hp
      simp [he] at this
    simp only [hst, if_true]
    refine ⟨_, rfl, ⟨h.rmono, h.cmono, ?_, ?_⟩, rfl, rfl, rfl, ?_⟩
    · intro c' hc'
      simp only [Function.update_apply]
      split
      · exact insertRow_sorted _ _ _ hnone (h.sorted c hc)
      · exact h.sorted c' hc'
    · intro c' hc' p hp
      simp only [Function.update_apply] at hp
      split at hp
      · rename_i he; subst he
        rcases (insertRow_mem _ _ _ _).1 hp with rfl | hp
        · exact ⟨hr, hf _ rfl rfl⟩
        · exact h.shape c' hc' p hp
      · exact h.shape c' hc' p hp
    · intro r' c'
      simp only [SBM.block, Function.update_apply]
      by_cases hcc : c' = c
      · subst hcc
        simp only [if_true, and_true]
        rw [insertRow_find _ _ _ hnone]
        by_cases hrr : r' = r
        · simp [hrr]
        · simp [hrr]
      · simp [hcc]

/-- A write list whose keys are in range and whose blocks have the prescribed sizes. -/
def Fitting (rl cl : Layout) (ws : List (Nat × Nat × DMat R)) : Prop :=
  ∀ w ∈ ws, w.1 < rl.n ∧ w.2.1 < cl.n ∧ w.2.2.rows = rl.size w.1 ∧ w.2.2.cols = cl.size w.2.1

theorem accum_spec (debug : Bool) (ws : List (Nat × Nat × DMat R)) (D : SBM R) (h : WF D)
    (hst : D.hasStorage = true) (hw : Fitting D.rl D.cl ws) :
    ∃ D', accum debug D ws = .ok D' ∧ WF D' ∧ D'.rl = D.rl ∧ D'.cl = D.cl ∧ D'.hasStorage = true ∧
      ∀ r c a b, D'.at r c a b = D.at r c a b +
        (ws.map fun w => if w.1 = r ∧ w.2.1 = c then w.2.2.e a b else 0).sum := by
  induction ws generalizing D with
  | nil => exact ⟨D, rfl, h, rfl, rfl, hst, by simp⟩
  | cons w ws ih =>
    obtain ⟨w1, w2, w3, w4⟩ := hw w (by simp)
    have hsz : ((D.block w.1 w.2.1).getD (D.zeroBlock w.1 w.2.1)).rows = D.rl.size w.1 ∧
        ((D.block w.1 w.2.1).getD (D.zeroBlock w.1 w.2.1)).cols = D.cl.size w.2.1 := by
      cases hb : D.block w.1 w.2.1 with
      | none => exact ⟨rfl, rfl⟩
      | some B => exact (block_lt h w2 hb).2
    obtain ⟨D1, e1, f1, f2, f3, f4, f5⟩ := upd_spec h debug w1 w2 hst (fun B => addBlock B w.2.2)
      (fun B h1 h2 => ⟨h1, h2⟩)
    obtain ⟨D2, e2, g1, g2, g3, g4, g5⟩ := ih D1 f1 f4 (by
      intro v hv
      rw [f2, f3]
      exact hw v (by simp [hv]))
    refine ⟨D2, ?_, g1, by rw [g2, f2], by rw [g3, f3], g4, ?_⟩
    · unfold accum at e2 ⊢
      rw [Res.run_cons, if_neg (by rw [hsz.1, hsz.2, w3, w4]; simp), e1, Res.bind_ok, e2]
    · intro r c a b
      rw [g5, List.map_cons, List.sum_cons, ← add_assoc]
      congr 1
      unfold SBM.at
      rw [f5]
      by_cases hk : r = w.1 ∧ c = w.2.1
      · obtain ⟨rfl, rfl⟩ := hk
        simp only [and_self, if_true]
        cases hb : D.block w.1 w.2.1 with
        | none => simp [addBlock, SBM.zeroBlock]
        | some B => simp [addBlock]
      · rw [if_neg hk, if_neg (by rintro ⟨rfl, rfl⟩; exact hk ⟨rfl, rfl⟩)]
        simp

theorem assign_spec (debug : Bool) (ws : List (Nat × Nat × DMat R)) (D : SBM R) (h : WF D)
    (hst : D.hasStorage = true) (hw : Fitting D.rl D.cl ws) :
    ∃ D', assign debug D ws = .ok D' ∧ WF D' ∧ D'.rl = D.rl ∧ D'.cl = D.cl ∧ D'.hasStorage = true ∧
      ∀ r c, (∀ x : Option (DMat R), (∀ w ∈ ws, w.1 = r → w.2.1 = c → some w.2.2 = x) →
        ((∃ w ∈ ws, w.1 = r ∧ w.2.1 = c) ∨ D.block r c = x) → D'.block r c = x) := by
  induction ws generalizing D with
  | nil => exact ⟨D, rfl, h, rfl, rfl, hst, by simp⟩
  | cons w ws ih =>
    obtain ⟨w1, w2, w3, w4⟩ := hw w (by simp)
    obtain ⟨D1, e1, f1, f2, f3, f4, f5⟩ := upd_spec h debug w1 w2 hst (fun _ => w.2.2)
      (fun B h1 h2 => ⟨w3, w4⟩)
    obtain ⟨D2, e2, g1, g2, g3, g4, g5⟩ := ih D1 f1 f4 (by
      intro v hv
      rw [f2, f3]
      exact hw v (by simp [hv]))
    refine ⟨D2, ?_, g1, by rw [g2, f2], by rw [g3, f3], g4, ?_⟩
    · unfold assign at e2 ⊢
      rw [Res.run_cons, e1, Res.bind_ok, e2]
    · intro r c x hx hex
      apply g5 r c x (fun v hv => hx v (by simp [hv]))
      by_cases hk : w.1 = r ∧ w.2.1 = c
      · right
        rw [f5, if_pos ⟨hk.1.symm, hk.2.symm⟩]
        exact hx w (by simp) hk.1 hk.2
      · rcases hex with ⟨v, hv, hp⟩ | hb
        · rcases List.mem_cons.1 hv with rfl | hv
          · exact absurd hp hk
          · exact .inl ⟨v, hv, hp⟩
        · right
          rw [f5, if_neg (fun hc => hk ⟨hc.1.symm, hc.2.symm⟩), hb]

theorem new_WF (rl cl : Layout) (h1 : rl.Mono) (h2 : cl.Mono) (st : Bool) :
    WF (new rl cl st : SBM R) :=
  ⟨h1, h2, by simp [new], by simp [new]⟩

theorem new_at (rl cl : Layout) (st : Bool) (r c a b : Nat) : (new rl cl st : SBM R).at r c a b = 0 := by
  simp [new, SBM.at, SBM.block]

theorem visits_fitting {A : SBM R} (h : WF A) : Fitting A.rl A.cl A.visits := by
  rintro ⟨r, c, B⟩ hv
  obtain ⟨hc, hm⟩ := mem_visits.1 hv
  obtain ⟨h1, h2, h3⟩ := h.shape c hc _ hm
  exact ⟨h1, hc, h2, h3⟩

theorem visits_at {A : SBM R} (h : WF A) {r c : Nat} (hr : r < A.rl.n) (hc : c < A.cl.n) (a b : Nat) :
    (A.visits.map fun w => if w.1 = r ∧ w.2.1 = c then w.2.2.e a b else 0).sum = A.at r c a b := by
  rw [visits_sum h (fun r' c' B => if r' = r ∧ c' = c then B.e a b else 0)]
  rw [Finset.sum_eq_single c, Finset.sum_eq_single r]
  · simp only [and_self, if_true, SBM.at]
    cases A.block r c <;> rfl
  · intro r' _ hne
    simp only [hne, false_and, if_false]
    cases A.block r' c <;> rfl
  · intro hn; simp at hn; omega
  · intro c' _ hne
    apply Finset.sum_eq_zero
    intro r' _
    simp only [hne, and_false, if_false]
    cases A.block r' c' <;> rfl
  · intro hn; simp at hn; omega

theorem WF_of_layout {A : SBM R} (h : WF A) {rl cl : Layout} (hr : A.rl.same rl = true)
    (hc : A.cl.same cl = true) : Fitting rl cl A.visits := by
  intro w hw
  obtain ⟨h1, h2, h3, h4⟩ := visits_fitting h w hw
  refine ⟨by rw [← Layout.same_n hr]; exact h1, by rw [← Layout.same_n hc]; exact h2, ?_, ?_⟩
  · rw [h3, Layout.same_size hr h1]
  · rw [h4, Layout.same_size hc h2]

end Verif.SBM
