import Verif.SBM.Lemmas

/-! Helper lemmas: block-matrix algebra in block coordinates. -/
namespace Verif.SBM
open Verif.MatrixStack (DMat)

variable {R : Type} [CommRing R]

theorem at_elim (A : SBM R) (r c a b : Nat) : A.at r c a b = (A.block r c).elim 0 (fun B => B.e a b) := by
  unfold SBM.at; cases A.block r c <;> rfl

theorem scale_block (A : SBM R) (x : R) (r c : Nat) : (A.scale x).block r c =
    (A.block r c).map fun B => ⟨B.rows, B.cols, fun i j => B.e i j * x⟩ := by
  unfold SBM.scale SBM.block
  simp only [List.find?_map, Option.map_map]
  rfl

theorem scale_WF {A : SBM R} (h : WF A) (x : R) : WF (A.scale x) where
  rmono := h.rmono
  cmono := h.cmono
  sorted c hc := by
    simp only [SBM.scale, List.pairwise_map]
    exact h.sorted c hc
  shape c hc p hp := by
    simp only [SBM.scale, List.mem_map] at hp
    obtain ⟨q, hq, rfl⟩ := hp
    exact h.shape c hc q hq

theorem mul_at {A M : SBM R} (hA : WF A) (hM : WF M) (hs : A.cl.same M.rl = true) {r c : Nat}
    (hr : r < A.rl.n) (hc : c < M.cl.n) (a b : Nat) :
    ((M.visits.flatMap fun v => (A.col v.1).map fun p => (p.1, v.2.1, mulBlock p.2 v.2.2)).map
      fun w : Nat × Nat × DMat R => if w.1 = r ∧ w.2.1 = c then w.2.2.e a b else 0).sum =
    ∑ k ∈ Finset.range A.cl.n, ∑ t ∈ Finset.range (A.cl.size k), A.at r k a t * M.at k c t b := by
  have step1 : ((M.visits.flatMap fun v => (A.col v.1).map fun p =>
      (p.1, v.2.1, mulBlock p.2 v.2.2)).map
      fun w : Nat × Nat × DMat R => if w.1 = r ∧ w.2.1 = c then w.2.2.e a b else 0).sum =
      (M.visits.map fun v => ((A.col v.1).map fun p =>
        if p.1 = r ∧ v.2.1 = c then (mulBlock p.2 v.2.2).e a b else 0).sum).sum := by
    induction M.visits with
    | nil => simp
    | cons v vs ih => simp only [List.flatMap_cons, List.map_append, List.sum_append, ih, List.map_cons,
        List.sum_cons, List.map_map, Function.comp_def]
  rw [step1, visits_sum hM (fun k c' B => ((A.col k).map fun p =>
        if p.1 = r ∧ c' = c then (mulBlock p.2 B).e a b else 0).sum)]
  rw [Finset.sum_eq_single c, ← Layout.same_n hs]
  · refine Finset.sum_congr rfl fun k hk => ?_
    have hk' : k < A.cl.n := by simpa using hk
    simp only [at_elim M]
    cases hB : M.block k c with
    | none => simp
    | some B =>
      simp only [Option.elim]
      rw [col_sum hA hk' (fun r' P => if r' = r ∧ True then (mulBlock P B).e a b else 0)]
      rw [Finset.sum_eq_single r]
      · rw [show (∑ t ∈ Finset.range (A.cl.size k), A.at r k a t * B.e t b) =
          (A.block r k).elim 0 (fun P => ∑ t ∈ Finset.range (A.cl.size k), P.e a t * B.e t b) by
            simp only [at_elim A]; cases A.block r k <;> simp]
        cases hP : A.block r k with
        | none => simp
        | some P => simp [mulBlock, (block_lt hA hk' hP).2.2]
      · intro r' _ hne
        cases A.block r' k <;> simp [hne]
      · intro hn; simp at hn; omega
  · intro c' _ hne
    apply Finset.sum_eq_zero
    intro k _
    cases M.block k c' <;> simp [hne]
  · intro hn; simp at hn; omega

theorem mul_fitting {A M : SBM R} (hA : WF A) (hM : WF M) (hs : A.cl.same M.rl = true)
    {rl cl : Layout} (hr : A.rl.same rl = true) (hc : M.cl.same cl = true) :
    Fitting rl cl (M.visits.flatMap fun v =>
      (A.col v.1).map fun p => (p.1, v.2.1, mulBlock p.2 v.2.2)) := by
  intro w hw
  obtain ⟨v, hv, hw⟩ := List.mem_flatMap.1 hw
  obtain ⟨p, hp, rfl⟩ := List.mem_map.1 hw
  obtain ⟨v1, v2, v3, v4⟩ := visits_fitting hM v hv
  rw [← Layout.same_n hs] at v1
  obtain ⟨p1, p2, p3⟩ := hA.shape v.1 v1 p hp
  refine ⟨by rw [← Layout.same_n hr]; exact p1, by rw [← Layout.same_n hc]; exact v2, ?_, ?_⟩
  · simp only [mulBlock]; rw [p2, Layout.same_size hr p1]
  · simp only [mulBlock]; rw [v4, Layout.same_size hc v2]

/-! ### vectors -/

theorem foldl_add_sum {ι : Type} (upd : (Nat → R) → ι → Nat → R) (g : ι → Nat → R)
    (h : ∀ y v i, upd y v i = y i + g v i) (vs : List ι) (y : Nat → R) (i : Nat) :
    vs.foldl upd y i = y i + (vs.map fun v => g v i).sum := by
  induction vs generalizing y with
  | nil => simp
  | cons v vs ih => rw [List.foldl_cons, ih, h, List.map_cons, List.sum_cons, add_assoc]

theorem mulVecAcc_at {A : SBM R} (h : WF A) (dest src : Nat → R) {r a : Nat} (hr : r < A.rl.n)
    (ha : a < A.rl.size r) :
    A.mulVecAcc dest src (A.rl.base r + a) = dest (A.rl.base r + a) +
      ∑ c ∈ Finset.range A.cl.n, ∑ t ∈ Finset.range (A.cl.size c),
        A.at r c a t * src (A.cl.base c + t) := by
  unfold SBM.mulVecAcc
  rw [foldl_add_sum _ (fun v i => if A.rl.base v.1 ≤ i ∧ i < A.rl.base v.1 + v.2.2.rows then
      ∑ t ∈ Finset.range v.2.2.cols, v.2.2.e (i - A.rl.base v.1) t * src (A.cl.base v.2.1 + t) else 0)]
  · congr 1
    rw [visits_sum h (fun r' c B => if A.rl.base r' ≤ A.rl.base r + a ∧
      A.rl.base r + a < A.rl.base r' + B.rows then
      ∑ t ∈ Finset.range B.cols, B.e (A.rl.base r + a - A.rl.base r') t * src (A.cl.base c + t) else 0)]
    refine Finset.sum_congr rfl fun c hc => ?_
    have hc' : c < A.cl.n := by simpa using hc
    rw [Finset.sum_eq_single r]
    · simp only [at_elim A]
      cases hB : A.block r c with
      | none => simp
      | some B =>
        obtain ⟨_, s1, s2⟩ := block_lt h hc' hB
        simp only [Option.elim]
        rw [if_pos (by omega), s2]
        simp
    · intro r' hr' hne
      cases hB : A.block r' c with
      | none => simp
      | some B =>
        obtain ⟨s0, s1, s2⟩ := block_lt h hc' hB
        simp only [Option.elim]
        rw [if_neg]
        rintro ⟨h1, h2⟩
        rw [s1] at h2
        exact hne (Layout.unique h.rmono s0 hr h1 h2 (by omega) (by omega))
    · intro hn; simp at hn; omega
  · intro y v i
    unfold axpy
    split
    · rfl
    · simp

theorem rightMulVec_at {A : SBM R} (h : WF A) (src : Nat → R) {c b : Nat} (hc : c < A.cl.n)
    (hb : b < A.cl.size c) :
    A.rightMulVec src (A.cl.base c + b) =
      ∑ r ∈ Finset.range A.rl.n, ∑ t ∈ Finset.range (A.rl.size r),
        A.at r c t b * src (A.rl.base r + t) := by
  unfold SBM.rightMulVec
  rw [foldl_add_sum _ (fun v i => if A.cl.base v.2.1 ≤ i ∧ i < A.cl.base v.2.1 + v.2.2.cols then
      ∑ t ∈ Finset.range v.2.2.rows, v.2.2.e t (i - A.cl.base v.2.1) * src (A.rl.base v.1 + t) else 0)]
  · rw [zero_add]
    rw [visits_sum h (fun r c' B => if A.cl.base c' ≤ A.cl.base c + b ∧
      A.cl.base c + b < A.cl.base c' + B.cols then
      ∑ t ∈ Finset.range B.rows, B.e t (A.cl.base c + b - A.cl.base c') * src (A.rl.base r + t) else 0)]
    rw [Finset.sum_eq_single c]
    · refine Finset.sum_congr rfl fun r hr => ?_
      simp only [at_elim A]
      cases hB : A.block r c with
      | none => simp
      | some B =>
        obtain ⟨_, s1, s2⟩ := block_lt h hc hB
        simp only [Option.elim]
        rw [if_pos (by omega), s1]
        simp
    · intro c' hc' hne
      have hc'' : c' < A.cl.n := by simpa using hc'
      apply Finset.sum_eq_zero
      intro r _
      cases hB : A.block r c' with
      | none => simp
      | some B =>
        obtain ⟨s0, s1, s2⟩ := block_lt h hc'' hB
        simp only [Option.elim]
        rw [if_neg]
        rintro ⟨h1, h2⟩
        rw [s2] at h2
        exact hne (Layout.unique h.cmono hc'' hc h1 h2 (by omega) (by omega))
    · intro hn; simp at hn; omega
  · intro y v i
    unfold atxpy
    split
    · rfl
    · simp

/-! ### slices -/

theorem sliceLayout_size (L : Layout) (lo hi i : Nat) :
    (sliceLayout L lo hi).size i = L.size (lo + i) := by
  cases i with
  | zero => simp [sliceLayout, Layout.size]
  | succ i =>
    simp only [Layout.size, sliceLayout, Nat.add_eq_zero_iff, one_ne_zero, and_false, if_false,
      Nat.add_sub_cancel]
    rw [Finset.sum_range_succ]
    simp [Layout.size]

theorem sliceLayout_mono (L : Layout) (lo hi : Nat) : (sliceLayout L lo hi).Mono := by
  intro r _
  simp only [sliceLayout]
  rw [Finset.sum_range_succ _ (r + 1)]
  omega

theorem slice_spec {A : SBM R} (h : WF A) {rmin rmax cmin cmax : Nat} (h1 : rmin < rmax)
    (h2 : rmax ≤ A.rl.n) (h3 : cmin < cmax) (h4 : cmax ≤ A.cl.n) (alloc : Bool) :
    ∃ S, A.slice rmin rmax cmin cmax alloc = .ok S ∧ WF S ∧
      S.rl = sliceLayout A.rl rmin rmax ∧ S.cl = sliceLayout A.cl cmin cmax ∧
      ∀ r c, r < rmax - rmin → c < cmax - cmin → S.block r c = A.block (rmin + r) (cmin + c) := by
  unfold SBM.slice
  rw [if_neg (by simp [h1, h2, h3, h4])]
  refine ⟨_, rfl, ⟨sliceLayout_mono _ _ _, sliceLayout_mono _ _ _, ?_, ?_⟩, rfl, rfl, ?_⟩
  · intro c hc
    simp only [sliceLayout] at hc
    simp only [List.pairwise_map]
    refine ((h.sorted (cmin + c) (by omega)).filter _).imp_of_mem ?_
    intro p q hp hq hpq
    simp only [List.mem_filter, decide_eq_true_eq] at hp hq
    omega
  · intro c hc p hp
    simp only [sliceLayout] at hc
    obtain ⟨q, hq, rfl⟩ := List.mem_map.1 hp
    simp only [List.mem_filter, decide_eq_true_eq] at hq
    obtain ⟨s0, s1, s2⟩ := h.shape (cmin + c) (by omega) q hq.1
    refine ⟨by simp only [sliceLayout]; omega, ?_, ?_⟩
    · simp only [sliceLayout_size]
      rw [s1]; congr 1; omega
    · simp only [sliceLayout_size]; exact s2
  · intro r c hr hc
    simp only [SBM.block, List.find?_map, Option.map_map, List.find?_filter, Function.comp_def]
    have : (fun a : Nat × DMat R => decide (decide (rmin ≤ a.1 ∧ a.1 < rmax) = true ∧
        (a.1 - rmin == r) = true)) = fun p => p.1 == rmin + r := by
      funext p
      simp only [decide_eq_true_eq, beq_iff_eq]
      rw [Bool.eq_iff_iff]
      simp only [decide_eq_true_eq, beq_iff_eq]
      omega
    rw [this]

/-! ### symmetric permutation -/

theorem scatter {S : Type} (n : Nat) (pinv : Nat → Nat) (sz : Nat → S) (z : Nat → S)
    (hinj : ∀ i j, i < n → j < n → pinv i = pinv j → i = j) {i : Nat} (hi : i < n) :
    (List.range n).foldl (fun s i => Function.update s (pinv i) (sz i)) z (pinv i) = sz i := by
  induction n with
  | zero => omega
  | succ n ih =>
    rw [List.range_succ, List.foldl_append, List.foldl_cons, List.foldl_nil]
    by_cases he : i = n
    · subst he; simp
    · have hne : pinv i ≠ pinv n := fun e => he (hinj i n hi (by omega) e)
      rw [Function.update_of_ne hne]
      exact ih (fun i j hi hj => hinj i j (by omega) (by omega)) (by omega)

theorem permLayout_size {L : Layout} {pinv : Nat → Nat}
    (hinj : ∀ i j, i < L.n → j < L.n → pinv i = pinv j → i = j) {i : Nat} (hi : i < L.n) :
    (permLayout L pinv).size (pinv i) = L.size i := by
  have key : ∀ k, (permLayout L pinv).size k =
      (List.range L.n).foldl (fun s i => Function.update s (pinv i) (L.size i)) (fun _ => 0) k := by
    intro k
    cases k with
    | zero => simp [permLayout, Layout.size]
    | succ k =>
      simp only [Layout.size, permLayout, Nat.add_eq_zero_iff, one_ne_zero, and_false, if_false,
        Nat.add_sub_cancel]
      rw [Finset.sum_range_succ]
      simp [Layout.size]
  rw [key, scatter L.n pinv L.size _ hinj hi]

theorem permLayout_mono (L : Layout) (pinv : Nat → Nat) : (permLayout L pinv).Mono := by
  intro r _
  simp only [permLayout]
  rw [Finset.sum_range_succ _ (r + 1)]
  omega

end Verif.SBM
