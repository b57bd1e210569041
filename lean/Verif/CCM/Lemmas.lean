import Verif.CCM.Model
import Mathlib.Algebra.BigOperators.Group.Finset.Basic
import Mathlib.Algebra.BigOperators.Ring.Finset
import Mathlib.Data.List.Induction
import Mathlib.Tactic.Ring

/-! Facts about the model of compressed-column matrices. -/
namespace Verif.CCM
open Verif.MatrixStack Verif.Jacobian

variable {R : Type}

theorem elt_ok {α : Type} (v : List α) (k : Nat) (d : α) (h : k < v.length) : elt v k = .ok (v.getD k d) := by
  simp [elt, h]

theorem elt_getElem {α : Type} (v : List α) (k : Nat) (h : k < v.length) : elt v k = .ok v[k] := by
  simp [elt, h]

/-- The arrays of a matrix. -/
def arrays (A : CCM R) : CCS.Arrays R := ⟨A.colPtr, A.rowInd, A.values⟩

/-- Well-formed matrix: the stored arrays are legal compressed-column storage for `rows × cols`. -/
def WF [AddCommMonoid R] (A : CCM R) : Prop := CCS.Legal (arrays A) A.rows A.cols

theorem mono_le {f : Nat → Nat} {n : Nat} (h : ∀ j, j < n → f j ≤ f (j + 1)) {a b : Nat} (hab : a ≤ b)
    (hb : b ≤ n) : f a ≤ f b := by
  induction b with
  | zero => have : a = 0 := by omega
            subst this; exact le_refl _
  | succ b ih =>
    rcases Nat.lt_or_ge a (b + 1) with hlt | hge
    · exact le_trans (ih (by omega) (by omega)) (h b (by omega))
    · have : a = b + 1 := by omega
      subst this; exact le_refl _

section legal
variable [AddCommMonoid R] {M : CCS.Arrays R} {m n : Nat}

theorem cp_le (h : CCS.Legal M m n) {j : Nat} (hj : j ≤ n) : M.cp.getD j 0 ≤ M.cx.length := by
  rw [← h.cp_last]
  exact mono_le (f := fun j => M.cp.getD j 0) h.cp_mono hj (le_refl _)

theorem incr_lt (h : CCS.Legal M m n) {j : Nat} (hj : j < n) {k l : Nat} (hk : M.cp.getD j 0 ≤ k)
    (hkl : k < l) (hl : l < M.cp.getD (j + 1) 0) : M.ci.getD k 0 < M.ci.getD l 0 := by
  induction l with
  | zero => omega
  | succ l ih =>
    have hs := h.incr j hj l (by omega) hl
    rcases Nat.lt_or_ge k l with hlt | hge
    · exact lt_trans (ih hlt (by omega)) hs
    · have : k = l := by omega
      subst this; exact hs

theorem sum_range_single {S : Type} [AddCommMonoid S] (L : Nat) (f : Nat → S) (t : Nat) (ht : t < L)
    (hz : ∀ u, u < L → u ≠ t → f u = 0) : ((List.range L).map f).sum = f t := by
  induction L with
  | zero => omega
  | succ L ih =>
    rw [List.range_succ, List.map_append, List.sum_append]
    simp only [List.map_cons, List.map_nil, List.sum_cons, List.sum_nil, add_zero]
    rcases Nat.lt_or_ge t L with hlt | hge
    · rw [ih hlt (fun u hu hne => hz u (by omega) hne), hz L (by omega) (by omega), add_zero]
    · have : t = L := by omega
      subst this
      have : ((List.range t).map f).sum = 0 := by
        apply List.sum_eq_zero
        intro x hx
        obtain ⟨u, hu, rfl⟩ := List.mem_map.1 hx
        have := List.mem_range.1 hu
        exact hz u (by omega) (by omega)
      rw [this, zero_add]

theorem read_hit (h : CCS.Legal M m n) {j : Nat} (hj : j < n) {k : Nat} (hk : M.cp.getD j 0 ≤ k)
    (hk2 : k < M.cp.getD (j + 1) 0) : CCS.read M (M.ci.getD k 0) j = M.cx.getD k 0 := by
  unfold CCS.read
  obtain ⟨t, rfl⟩ := Nat.exists_eq_add_of_le hk
  rw [sum_range_single _ _ t (by omega)]
  · simp
  · intro u hu hne
    rw [if_neg]
    rcases Nat.lt_or_ge u t with hlt | hge
    · have := incr_lt h hj (k := M.cp.getD j 0 + u) (l := M.cp.getD j 0 + t) (by omega) (by omega) hk2
      omega
    · have := incr_lt h hj (k := M.cp.getD j 0 + t) (l := M.cp.getD j 0 + u) (by omega) (by omega) (by omega)
      omega

theorem read_miss {j i : Nat} (hno : ∀ k, M.cp.getD j 0 ≤ k → k < M.cp.getD (j + 1) 0 →
    M.ci.getD k 0 ≠ i) : CCS.read M i j = 0 := by
  unfold CCS.read
  apply List.sum_eq_zero
  intro x hx
  obtain ⟨u, hu, rfl⟩ := List.mem_map.1 hx
  have := List.mem_range.1 hu
  rw [if_neg (hno _ (by omega) (by omega))]

end legal

theorem lowerBound_spec (ri : List Nat) (r : Nat) (len first : Nat) (hlen : first + len ≤ ri.length)
    (hmono : ∀ i k, first ≤ i → i < k → k < first + len → ri.getD i 0 ≤ ri.getD k 0) :
    ∃ k, lowerBound ri r first len = .ok k ∧ first ≤ k ∧ k ≤ first + len ∧
      (∀ i, first ≤ i → i < k → ri.getD i 0 < r) ∧
      (∀ i, k ≤ i → i < first + len → r ≤ ri.getD i 0) := by
  induction len using Nat.strong_induction_on generalizing first with
  | _ len ih =>
    rw [lowerBound]
    by_cases h0 : len = 0
    · subst h0
      exact ⟨first, by simp, le_refl _, by omega, by omega, by omega⟩
    rw [dif_neg h0]
    have hhalf : len / 2 < len := Nat.div_lt_self (by omega) (by omega)
    rw [elt_ok ri _ 0 (by omega)]
    simp only [Res.bind_ok]
    by_cases hx : ri.getD (first + len / 2) 0 < r
    · rw [if_pos hx]
      obtain ⟨k, e, h1, h2, h3, h4⟩ := ih (len - len / 2 - 1) (by omega) (first + len / 2 + 1) (by omega)
        (fun i k hi hik hk => hmono i k (by omega) hik (by omega))
      refine ⟨k, e, by omega, by omega, ?_, ?_⟩
      · intro i hi hik
        rcases Nat.lt_trichotomy i (first + len / 2) with hlt | heq | hgt
        · exact lt_of_le_of_lt (hmono i _ hi hlt (by omega)) hx
        · rw [heq]; exact hx
        · exact h3 i (by omega) hik
      · intro i hi hik
        exact h4 i hi (by omega)
    · rw [if_neg hx]
      obtain ⟨k, e, h1, h2, h3, h4⟩ := ih (len / 2) hhalf first (by omega)
        (fun i k hi hik hk => hmono i k hi hik (by omega))
      refine ⟨k, e, h1, by omega, h3, ?_⟩
      intro i hi hik
      rcases Nat.lt_or_ge i (first + len / 2) with hlt | hge
      · exact h4 i hi hlt
      · rcases Nat.lt_or_ge (first + len / 2) i with hgt | hle
        · exact le_trans (by omega) (hmono _ i (by omega) hgt hik)
        · have : i = first + len / 2 := by omega
          rw [this]; omega

section ring
variable [Semiring R] {A : CCM R}

/-- Element access of a well-formed matrix. -/
theorem access_ok (debug : Bool) (h : WF A) {r c : Nat} (hr : r < A.rows) (hc : c < A.cols) :
    access debug A r c = .ok (CCS.read (arrays A) r c) := by
  have hl1 := h.cp_len
  have hll := h.len
  have hc1 := cp_le h (j := c) (by omega)
  have hc2 := cp_le h (j := c + 1) (by omega)
  have hm := h.cp_mono c hc
  simp only [arrays] at hl1 hll hc1 hc2 hm
  unfold access
  rw [if_neg (by simp [hr, hc]), elt_ok _ _ 0 (by omega), Res.bind_ok, elt_ok _ _ 0 (by omega), Res.bind_ok,
    if_neg (by omega)]
  obtain ⟨k, e, h1, h2, h3, h4⟩ := lowerBound_spec A.rowInd r
    (A.colPtr.getD (c + 1) 0 - A.colPtr.getD c 0) (A.colPtr.getD c 0) (by omega) (by
      intro i k hi hik hk
      exact le_of_lt (incr_lt h hc hi hik (by simp only [arrays]; omega)))
  rw [e, Res.bind_ok]
  by_cases hk : k = A.colPtr.getD (c + 1) 0
  · rw [if_pos hk, read_miss]
    intro i hi hi2
    have := h3 i hi (by simp only [arrays] at hi2; omega)
    simp only [arrays]; omega
  · rw [if_neg hk, elt_ok _ _ 0 (by omega), Res.bind_ok]
    by_cases hx : A.rowInd.getD k 0 = r
    · rw [if_pos hx, elt_ok _ _ 0 (by omega)]
      have := read_hit h hc (k := k) h1 (by simp only [arrays]; omega)
      simp only [arrays] at this
      rw [← this, hx]
      rfl
    · rw [if_neg hx, read_miss]
      intro i hi hi2
      simp only [arrays] at hi hi2 ⊢
      rcases Nat.lt_trichotomy i k with hlt | heq | hgt
      · have := h3 i hi hlt; omega
      · rw [heq]; exact hx
      · have a1 := h4 k (le_refl _) (by omega)
        have a2 := incr_lt h hc (k := k) (l := i) h1 hgt hi2
        simp only [arrays] at a2
        omega

/-- A loop over the storage of one column. -/
theorem col_run {σ : Type} (f : σ → Nat → Res σ) (P : Nat → σ → Prop) (b L : Nat) (s : σ) (h0 : P 0 s)
    (hs : ∀ t s, t < L → P t s → ∃ s', f s (b + t) = .ok s' ∧ P (t + 1) s') :
    ∃ s', Res.run f s (List.range' b L) = .ok s' ∧ P L s' := by
  induction L generalizing b s P with
  | zero => exact ⟨s, rfl, h0⟩
  | succ L ih =>
    obtain ⟨s1, e1, p1⟩ := hs 0 s (by omega) h0
    obtain ⟨s2, e2, p2⟩ := ih (fun t => P (t + 1)) (b + 1) s1 p1 (fun t s ht hp => by
      obtain ⟨s', e, p⟩ := hs (t + 1) s (by omega) hp
      exact ⟨s', by rw [← e]; congr 1; omega, p⟩)
    refine ⟨s2, ?_, p2⟩
    rw [List.range'_succ, Res.run_cons, show b = b + 0 by omega, e1]
    exact e2

/-- Partial sums over the storage of a column. -/
def psum (A : CCM R) (f : Nat → R) (c t : Nat) : R :=
  ((List.range t).map fun u => f (A.colPtr.getD c 0 + u)).sum

theorem psum_succ (f : Nat → R) (c t : Nat) :
    psum A f c (t + 1) = psum A f c t + f (A.colPtr.getD c 0 + t) := by
  simp [psum, List.range_succ]

theorem denseCol_ok (h : WF A) {c : Nat} (hc : c < A.cols) (M : Nat → Nat → R) (hM : ∀ i, M i c = 0) :
    ∃ M', denseCol A M c = .ok M' ∧ (∀ i, M' i c = CCS.read (arrays A) i c) ∧
      ∀ i c', c' ≠ c → M' i c' = M i c' := by
  have hl1 := h.cp_len
  have hll := h.len
  have hc2 := cp_le h (j := c + 1) (by omega)
  have hm := h.cp_mono c hc
  have hrows := h.rows
  simp only [arrays] at hl1 hll hc2 hm hrows
  obtain ⟨M', e, p1, p2⟩ := col_run (denseStep A c)
    (fun t M' => (∀ i, M' i c = psum A (fun k => if A.rowInd.getD k 0 = i then A.values.getD k 0 else 0) c t) ∧
      ∀ i c', c' ≠ c → M' i c' = M i c')
    (A.colPtr.getD c 0) (A.colPtr.getD (c + 1) 0 - A.colPtr.getD c 0) M
    ⟨fun i => by simp [psum, hM], fun _ _ _ => rfl⟩ (by
      rintro t M1 ht ⟨q1, q2⟩
      refine ⟨_, by
        unfold denseStep
        rw [elt_ok _ _ 0 (by omega), Res.bind_ok, elt_ok _ _ 0 (by omega), Res.bind_ok,
          if_pos ⟨hrows _ (by omega), hc⟩], ?_, ?_⟩
      · intro i
        rw [psum_succ]
        by_cases hi : i = A.rowInd.getD (A.colPtr.getD c 0 + t) 0
        · have hz : psum A (fun k => if A.rowInd.getD k 0 = i then A.values.getD k 0 else 0) c t = 0 := by
            apply List.sum_eq_zero
            intro x hx
            obtain ⟨u, hu, rfl⟩ := List.mem_map.1 hx
            have hu := List.mem_range.1 hu
            have := incr_lt h hc (k := A.colPtr.getD c 0 + u) (l := A.colPtr.getD c 0 + t)
              (by simp only [arrays]; omega) (by omega) (by simp only [arrays]; omega)
            simp only [arrays] at this
            beta_reduce
            rw [if_neg (by omega)]
          rw [hz, if_pos ⟨hi, rfl⟩, if_pos hi.symm, zero_add]
        · rw [if_neg (fun hh => hi hh.1), q1, if_neg (Ne.symm hi), add_zero]
      · intro i c' hne
        rw [if_neg (fun hh => hne hh.2)]
        exact q2 i c' hne)
  refine ⟨M', ?_, ?_, p2⟩
  · unfold denseCol
    rw [elt_ok _ _ 0 (by omega), Res.bind_ok, elt_ok _ _ 0 (by omega), Res.bind_ok]
    exact e
  · intro i
    rw [p1 i]
    rfl

theorem range_run {σ : Type} (f : σ → Nat → Res σ) (P : Nat → σ → Prop) (L : Nat) (s : σ) (h0 : P 0 s)
    (hs : ∀ t s, t < L → P t s → ∃ s', f s t = .ok s' ∧ P (t + 1) s') :
    ∃ s', Res.run f s (List.range L) = .ok s' ∧ P L s' := by
  rw [List.range_eq_range']
  exact col_run f P 0 L s h0 (fun t s ht hp => by rw [zero_add]; exact hs t s ht hp)

theorem toDense_ok (h : WF A) :
    ∃ M, toDense A = .ok M ∧ ∀ i j, j < A.cols → M i j = CCS.read (arrays A) i j := by
  have hl1 := h.cp_len
  simp only [arrays] at hl1
  obtain ⟨M, e, p, -⟩ := range_run (denseCol A)
    (fun t M => (∀ i j, j < t → M i j = CCS.read (arrays A) i j) ∧ ∀ i j, t ≤ j → M i j = 0)
    A.cols (fun _ _ => 0) ⟨fun _ _ h => by omega, fun _ _ _ => rfl⟩ (by
      rintro t M ht ⟨q1, q2⟩
      obtain ⟨M', e, r1, r2⟩ := denseCol_ok h ht M (fun i => q2 i t (le_refl _))
      refine ⟨M', e, ?_, ?_⟩
      · intro i j hj
        by_cases hjt : j = t
        · subst hjt; exact r1 i
        · rw [r2 i j hjt]; exact q1 i j (by omega)
      · intro i j hj
        rw [r2 i j (by omega)]; exact q2 i j (by omega))
  exact ⟨M, by unfold toDense; rw [hl1]; exact e, p⟩

theorem rightCol_ok (h : WF A) {c : Nat} (hc : c < A.cols) (x : List R) (hx : c < x.length) (y : Nat → R) :
    ∃ y', rightCol A x y c = .ok y' ∧ ∀ i, y' i = y i + CCS.read (arrays A) i c * x.getD c 0 := by
  have hl1 := h.cp_len
  have hll := h.len
  have hc2 := cp_le h (j := c + 1) (by omega)
  have hm := h.cp_mono c hc
  have hrows := h.rows
  simp only [arrays] at hl1 hll hc2 hm hrows
  obtain ⟨y', e, p1⟩ := col_run (rightStep A x c)
    (fun t y' => ∀ i, y' i = y i +
      psum A (fun k => if A.rowInd.getD k 0 = i then A.values.getD k 0 else 0) c t * x.getD c 0)
    (A.colPtr.getD c 0) (A.colPtr.getD (c + 1) 0 - A.colPtr.getD c 0) y
    (fun i => by simp [psum]) (by
      intro t y1 ht q1
      refine ⟨_, by
        unfold rightStep
        rw [elt_ok _ _ 0 (by omega), Res.bind_ok, elt_ok _ _ 0 (by omega), Res.bind_ok,
          elt_ok _ _ 0 hx, Res.bind_ok, if_pos (hrows _ (by omega))], ?_⟩
      intro i
      rw [psum_succ]
      by_cases hi : i = A.rowInd.getD (A.colPtr.getD c 0 + t) 0
      · rw [if_pos hi, if_pos hi.symm, q1, add_mul, add_assoc]
      · rw [if_neg hi, if_neg (Ne.symm hi), add_zero, q1])
  refine ⟨y', ?_, ?_⟩
  · unfold rightCol
    rw [elt_ok _ _ 0 (by omega), Res.bind_ok, elt_ok _ _ 0 (by omega), Res.bind_ok]
    exact e
  · intro i
    rw [p1 i]
    rfl

theorem rightMultiply_ok (h : WF A) (hp : prodCols A ≤ A.cols) (x : List R) (hx : x.length = prodCols A) :
    ∃ y, rightMultiply A x = .ok y ∧
      ∀ i, y i = ∑ j ∈ Finset.range (prodCols A), CCS.read (arrays A) i j * x.getD j 0 := by
  unfold rightMultiply
  rw [if_neg (by omega)]
  exact range_run (rightCol A x)
    (fun t y => ∀ i, y i = ∑ j ∈ Finset.range t, CCS.read (arrays A) i j * x.getD j 0)
    (prodCols A) (fun _ => 0) (fun i => by simp) (by
      intro t y ht q
      obtain ⟨y', e, p⟩ := rightCol_ok h (c := t) (by omega) x (by omega) y
      exact ⟨y', e, fun i => by rw [p, q, Finset.sum_range_succ]⟩)

theorem leftCol_ok (h : WF A) {c : Nat} (hc : c < A.cols) (x : List R) (hx : x.length = A.rows) (y : Nat → R)
    (hy : y c = 0) :
    ∃ y', leftCol A x y c = .ok y' ∧
      y' c = ∑ i ∈ Finset.range A.rows, CCS.read (arrays A) i c * x.getD i 0 ∧
      ∀ c', c' ≠ c → y' c' = y c' := by
  have hl1 := h.cp_len
  have hll := h.len
  have hc2 := cp_le h (j := c + 1) (by omega)
  have hm := h.cp_mono c hc
  have hrows := h.rows
  simp only [arrays] at hl1 hll hc2 hm hrows
  obtain ⟨s, e, p1⟩ := col_run (leftStep A x)
    (fun t s => s = ∑ i ∈ Finset.range A.rows,
      psum A (fun k => if A.rowInd.getD k 0 = i then A.values.getD k 0 else 0) c t * x.getD i 0)
    (A.colPtr.getD c 0) (A.colPtr.getD (c + 1) 0 - A.colPtr.getD c 0) (y c)
    (by simp [psum, hy]) (by
      intro t s ht q1
      have hi := hrows (A.colPtr.getD c 0 + t) (by omega)
      refine ⟨_, by
        unfold leftStep
        rw [elt_ok _ _ 0 (by omega), Res.bind_ok, elt_ok _ _ 0 (by omega), Res.bind_ok,
          elt_ok _ _ 0 (by omega), Res.bind_ok], ?_⟩
      simp only [psum_succ, add_mul, Finset.sum_add_distrib, ite_mul, zero_mul]
      rw [Finset.sum_ite_eq, if_pos (Finset.mem_range.2 hi), q1])
  refine ⟨fun c' => if c' = c then s else y c', ?_, ?_, ?_⟩
  · unfold leftCol
    rw [elt_ok _ _ 0 (by omega), Res.bind_ok, elt_ok _ _ 0 (by omega), Res.bind_ok, e, Res.bind_ok]
  · beta_reduce
    rw [if_pos rfl, p1]
    rfl
  · intro c' hne
    beta_reduce
    rw [if_neg hne]

theorem leftMultiply_ok (h : WF A) (hp : prodCols A ≤ A.cols) (x : List R) (hx : x.length = A.rows) :
    ∃ y, leftMultiply A x = .ok y ∧ ∀ j, j < prodCols A →
      y j = ∑ i ∈ Finset.range A.rows, CCS.read (arrays A) i j * x.getD i 0 := by
  unfold leftMultiply
  rw [if_neg (by omega)]
  obtain ⟨y, e, p, -⟩ := range_run (leftCol A x)
    (fun t y => (∀ j, j < t → y j = ∑ i ∈ Finset.range A.rows, CCS.read (arrays A) i j * x.getD i 0) ∧
      ∀ j, t ≤ j → y j = 0)
    (prodCols A) (fun _ => 0) ⟨fun _ h => by omega, fun _ _ => rfl⟩ (by
      rintro t y ht ⟨q1, q2⟩
      obtain ⟨y', e, p1, p2⟩ := leftCol_ok h (c := t) (by omega) x hx y (q2 t (le_refl _))
      refine ⟨y', e, ?_, ?_⟩
      · intro j hj
        by_cases hjt : j = t
        · subst hjt; exact p1
        · rw [p2 j hjt]; exact q1 j (by omega)
      · intro j hj
        rw [p2 j (by omega)]; exact q2 j (by omega))
  exact ⟨y, e, p⟩

end ring

end Verif.CCM
