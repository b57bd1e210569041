import Verif.DesignVar.Props

/-!
`MatrixBasic` with an update pattern (`aslam_backend_expressions/src/MatrixBasic.cpp`, below `M`): the constructor that turns the
3x3 pattern of integers into the matrix `_B` of the class modelled in `Verif.DesignVar.Model` (there any matrix).
-/
namespace Verif.DesignVar

/-- The matrix while it is filled and the counter `non_zero_elements`, M:18-19. -/
structure Fill where
  B : Mat 9 9
  n : Nat

/-- The body of the inner loop, M:22-25. Writing outside the matrix is undefined. -/
noncomputable def Fill.visit (P : Matrix (Fin 3) (Fin 3) ℤ) (row : Fin 3) (s : Fill) (col : Fin 3) : Res Fill :=
  if P row col ≠ 0 then
    if h : s.n < 9 then
      .ok ⟨fun i j => if i = ⟨col.val * 3 + row.val, by omega⟩ ∧ j = ⟨s.n, h⟩ then 1 else s.B i j, s.n + 1⟩
    else .ub
  else .ok s

/-- The loops over rows and columns, M:20-28. -/
noncomputable def Fill.loops (P : Matrix (Fin 3) (Fin 3) ℤ) : Res Fill :=
  Res.run (fun s row => Res.run (Fill.visit P row) s [0, 1, 2]) ⟨fun _ _ => 0, 0⟩ [0, 1, 2]

/-- `_B` and its number of columns after `conservativeResize`, M:29. More than the nine columns there are would stay
uninitialised. -/
noncomputable def pattern (P : Matrix (Fin 3) (Fin 3) ℤ) : Res (Σ n, Mat 9 n) := do
  let s ← Fill.loops P
  if h : s.n ≤ 9 then .ok ⟨s.n, fun i j => s.B i ⟨j.val, by omega⟩⟩ else .ub

/-- M:59-62 with M:47-49: what `evaluateJacobians` adds to the container for a chain rule matrix, if anything. -/
noncomputable def addsJacobian {m n : Nat} (B : Mat 9 n) (C : Mat m 9) : Option (Mat m n) :=
  if n ≠ 0 then some (C * B) else none

/-- M:68-72 with M:47-49: whether the variable is reported. -/
def reported {n : Nat} (_ : Mat 9 n) : Bool := n ≠ 0

/-- The marked entries, row by row. -/
def marked (P : Matrix (Fin 3) (Fin 3) ℤ) : List (Fin 3 × Fin 3) :=
  (([0, 1, 2] : List (Fin 3)).flatMap fun i => ([0, 1, 2] : List (Fin 3)).map fun j => (i, j)).filter fun e => P e.1 e.2 ≠ 0

/-- The place of an entry in the column-major vector of a matrix. -/
def place (e : Fin 3 × Fin 3) : Fin 9 := ⟨e.2.val * 3 + e.1.val, by omega⟩

/-- The column-major vector of a matrix. -/
def colMajor (A : Mat 3 3) : Fin 9 → ℝ := fun r => A ⟨r.val % 3, Nat.mod_lt _ (by decide)⟩ ⟨r.val / 3, by omega⟩

theorem place_inj {e f : Fin 3 × Fin 3} (h : place e = place f) : e = f := by
  obtain ⟨⟨i, hi⟩, ⟨j, hj⟩⟩ := e
  obtain ⟨⟨k, hk⟩, ⟨l, hl⟩⟩ := f
  simp only [place, Fin.mk.injEq] at h
  simp only [Prod.mk.injEq, Fin.mk.injEq]
  omega

/-- What has been filled in after the entries `L` were marked. -/
def Filled (s : Fill) (L : List (Fin 3 × Fin 3)) : Prop :=
  s.n = L.length ∧ ∀ i j, s.B i j = if (L[j.val]?).map place = some i then 1 else 0

theorem visit_filled {P : Matrix (Fin 3) (Fin 3) ℤ} {s : Fill} {L : List (Fin 3 × Fin 3)} (hs : Filled s L) (hL : L.length < 9)
    (row col : Fin 3) :
    ∃ s', Fill.visit P row s col = .ok s' ∧ Filled s' (L ++ if P row col ≠ 0 then [(row, col)] else []) := by
  unfold Fill.visit
  by_cases hp : P row col ≠ 0
  · have hn : s.n < 9 := hs.1 ▸ hL
    rw [if_pos hp, dif_pos hn, if_pos hp]
    refine ⟨_, rfl, by simp [hs.1], ?_⟩
    intro i j
    simp only [hs.2 i j]
    by_cases hj : j.val = L.length
    · have h1 : j = ⟨s.n, hn⟩ := Fin.ext (hj.trans hs.1.symm)
      rw [hj, List.getElem?_concat_length, List.getElem?_eq_none (le_refl L.length)]
      have h2 : (i = (⟨col.val * 3 + row.val, by omega⟩ : Fin 9)) ↔ place (row, col) = i := by
        constructor
        · intro h; exact h.symm
        · intro h; exact h.symm
      simp [h1, h2]
    · have h1 : ¬ j = ⟨s.n, hn⟩ := fun h => hj (by rw [h]; exact hs.1)
      simp only [h1, and_false, if_false]
      by_cases hlt : j.val < L.length
      · rw [List.getElem?_append_left hlt]
      · rw [List.getElem?_eq_none (Nat.le_of_not_lt hlt), List.getElem?_eq_none (by simp; omega)]
  · rw [if_neg hp, if_neg hp, List.append_nil]
    exact ⟨s, rfl, hs⟩

theorem row_filled {P : Matrix (Fin 3) (Fin 3) ℤ} {s : Fill} {L : List (Fin 3 × Fin 3)} (hs : Filled s L) (row : Fin 3)
    (cols : List (Fin 3)) (hL : L.length + cols.length ≤ 9) :
    ∃ s', Res.run (Fill.visit P row) s cols = .ok s' ∧
      Filled s' (L ++ (cols.map fun j => (row, j)).filter fun e => P e.1 e.2 ≠ 0) := by
  induction cols generalizing s L with
  | nil => exact ⟨s, rfl, by simpa using hs⟩
  | cons c cols ih =>
    simp only [List.length_cons] at hL
    obtain ⟨s1, h1, hf1⟩ := visit_filled (P := P) hs (by omega) row c
    obtain ⟨s2, h2, hf2⟩ := ih hf1 (by split <;> simp <;> omega)
    refine ⟨s2, by rw [Res.run_cons, h1]; exact h2, ?_⟩
    rw [List.map_cons, List.filter_cons]
    by_cases hp : P row c ≠ 0
    · simpa [hp] using hf2
    · simpa [hp] using hf2

theorem rows_filled {P : Matrix (Fin 3) (Fin 3) ℤ} {s : Fill} {L : List (Fin 3 × Fin 3)} (hs : Filled s L)
    (rows : List (Fin 3)) (hL : L.length + 3 * rows.length ≤ 9) :
    ∃ s', Res.run (fun s row => Res.run (Fill.visit P row) s [0, 1, 2]) s rows = .ok s' ∧
      Filled s' (L ++ (rows.flatMap fun i => ([0, 1, 2] : List (Fin 3)).map fun j => (i, j)).filter fun e => P e.1 e.2 ≠ 0) := by
  induction rows generalizing s L with
  | nil => exact ⟨s, rfl, by simpa using hs⟩
  | cons r rows ih =>
    simp only [List.length_cons] at hL
    obtain ⟨s1, h1, hf1⟩ := row_filled (P := P) hs r [0, 1, 2] (by simp only [List.length_cons, List.length_nil]; omega)
    have hlen : ((([0, 1, 2] : List (Fin 3)).map fun j => (r, j)).filter fun e => P e.1 e.2 ≠ 0).length ≤ 3 :=
      (List.length_filter_le _ _).trans (by simp)
    obtain ⟨s2, h2, hf2⟩ := ih hf1 (by rw [List.length_append]; omega)
    refine ⟨s2, by rw [Res.run_cons, h1]; exact h2, ?_⟩
    rw [List.flatMap_cons, List.filter_append, ← List.append_assoc]
    exact hf2

theorem marked_nodup (P : Matrix (Fin 3) (Fin 3) ℤ) : (marked P).Nodup := List.Nodup.filter _ (by decide)

theorem mem_marked (P : Matrix (Fin 3) (Fin 3) ℤ) (i j : Fin 3) : (i, j) ∈ marked P ↔ P i j ≠ 0 := by
  have : (i, j) ∈ ([0, 1, 2] : List (Fin 3)).flatMap fun i => ([0, 1, 2] : List (Fin 3)).map fun j => (i, j) := by
    revert i j; decide
  rw [marked, List.mem_filter]
  exact ⟨fun h => by simpa using h.2, fun h => ⟨this, by simpa using h⟩⟩

theorem pattern_ok (P : Matrix (Fin 3) (Fin 3) ℤ) :
    ∃ B : Mat 9 (marked P).length, pattern P = .ok ⟨_, B⟩ ∧
      ∀ i (k : Fin (marked P).length), B i k = if place (marked P)[k] = i then 1 else 0 := by
  obtain ⟨s, h, hn, hB⟩ := rows_filled (P := P) (s := ⟨fun _ _ => 0, 0⟩) (L := []) ⟨rfl, fun _ _ => by simp⟩ [0, 1, 2] (by simp)
  obtain ⟨B, n⟩ := s
  rw [List.nil_append] at hn hB
  change n = (marked P).length at hn
  subst hn
  have h9 : (marked P).length ≤ 9 := (List.length_filter_le _ _).trans (by simp)
  refine ⟨fun i j => B i ⟨j.val, by omega⟩, ?_, ?_⟩
  · unfold pattern Fill.loops
    rw [h]
    simp only [Res.bind_ok]
    rw [dif_pos h9]
  · intro i k
    refine (hB i ⟨k.val, by omega⟩).trans ?_
    change (if Option.map place ((marked P)[k.val]?) = some i then (1 : ℝ) else 0) = _
    rw [List.getElem?_eq_getElem k.isLt]
    simp

theorem mulVec_marked {P : Matrix (Fin 3) (Fin 3) ℤ} {B : Mat 9 (marked P).length}
    (hB : ∀ i (k : Fin (marked P).length), B i k = if place (marked P)[k] = i then 1 else 0)
    (δ : Fin (marked P).length → ℝ) :
    (∀ k : Fin (marked P).length, (B.mulVec δ) (place (marked P)[k]) = δ k) ∧
    (∀ e, e ∉ marked P → (B.mulVec δ) (place e) = 0) := by
  constructor
  · intro k
    simp only [Matrix.mulVec, dotProduct, hB]
    rw [Finset.sum_eq_single k]
    · simp
    · intro l _ hl
      rw [if_neg, zero_mul]
      intro h
      exact hl (Fin.ext ((List.Nodup.getElem_inj_iff (marked_nodup P)).1 (place_inj h)))
    · intro h; exact absurd (Finset.mem_univ _) h
  · intro e he
    simp only [Matrix.mulVec, dotProduct, hB]
    refine Finset.sum_eq_zero fun k _ => ?_
    rw [if_neg, zero_mul]
    intro h
    exact he (place_inj h ▸ List.getElem_mem _)

variable {debug : Bool}

/-- The constructor succeeds for every pattern. The variable has as many dimensions as the pattern has nonzero entries; a step
moves the `k`-th marked entry (row by row) by its `k`-th component and leaves all other entries; steps of another size are
refused by Eigen. -/
theorem C97_update (sm : Sm) (P : Matrix (Fin 3) (Fin 3) ℤ) :
    ∃ B : Mat 9 (marked P).length, pattern P = .ok ⟨_, B⟩ ∧
      (marked P).length = (Finset.univ.filter fun e : Fin 3 × Fin 3 => P e.1 e.2 ≠ 0).card ∧
      ∀ (s : St ((Class.matrixBasic _ B).cls sm)) (dp : List ℝ),
        (dp.length ≠ (marked P).length → update debug s dp = .ub) ∧
        (∀ hl : dp.length = (marked P).length, ∃ s', update debug s dp = .ok s' ∧
          (∀ (k : Nat) (hk : k < (marked P).length),
            s'.val (marked P)[k].1 (marked P)[k].2 = s.val (marked P)[k].1 (marked P)[k].2 + dp[k]) ∧
          (∀ i j : Fin 3, P i j = 0 → s'.val i j = s.val i j)) := by
  obtain ⟨B, h, hB⟩ := pattern_ok P
  refine ⟨B, h, ?_, ?_⟩
  · rw [← List.toFinset_card_of_nodup (marked_nodup P)]
    congr 1
    ext ⟨i, j⟩
    simp [mem_marked]
  · intro s dp
    constructor
    · intro hl
      unfold update
      rw [if_neg (fun h => nomatch h.1), if_neg (fun h => nomatch h.1), if_pos ⟨rfl, hl⟩]
    · intro hl
      refine ⟨_, update_fits s dp hl, ?_, ?_⟩
      · intro k hk
        have := (mulVec_marked hB fun i => dp.getD i.val 0).1 ⟨k, hk⟩
        refine congrArg (_ + ·) (this.trans ?_)
        simp only
        rw [List.getD_eq_getElem?_getD, List.getElem?_eq_getElem (hl ▸ hk), Option.getD_some]
      · intro i j hp
        have := (mulVec_marked hB fun i => dp.getD i.val 0).2 (i, j) (fun hm => (mem_marked P i j).1 hm hp)
        refine (congrArg (s.val i j + ·) this).trans (add_zero _)

/-- Entries that are not marked keep their value through every history of updates and reverts. -/
theorem C97_fixed (sm : Sm) (P : Matrix (Fin 3) (Fin 3) ℤ) (B : Mat 9 (marked P).length) (h : pattern P = .ok ⟨_, B⟩)
    (A : Mat 3 3) (ops : List (Op ((Class.matrixBasic _ B).cls sm)))
    (hops : ∀ o ∈ ops, (∃ dp, o = .update dp) ∨ o = .revert) (s : St ((Class.matrixBasic _ B).cls sm))
    (hrun : Res.run (step debug) (make _ A) ops = .ok s) : ∀ i j : Fin 3, P i j = 0 → s.val i j = A i j := by
  obtain ⟨B', hB', _, hu⟩ := C97_update (debug := debug) sm P
  obtain rfl : B = B' := by
    have := Res.ok.inj (h.symm.trans hB')
    exact eq_of_heq (Sigma.mk.inj this).2
  intro i j hp
  suffices H : ∀ (ops : List (Op ((Class.matrixBasic _ B).cls sm))) (s₀ : St ((Class.matrixBasic _ B).cls sm)),
      (∀ o ∈ ops, (∃ dp, o = .update dp) ∨ o = .revert) → (s₀.val i j = A i j ∧ ∃ p, s₀.prev = some p ∧ p i j = A i j) →
      Res.run (step debug) s₀ ops = .ok s → s.val i j = A i j from H ops _ hops ⟨rfl, A, rfl, rfl⟩ hrun
  intro ops
  induction ops with
  | nil =>
    intro s₀ _ h0 hr
    obtain rfl := Res.ok.inj hr
    exact h0.1
  | cons o ops ih =>
    intro s₀ ho h0 hr
    rw [Res.run_cons] at hr
    rcases ho o (List.mem_cons_self ..) with ⟨dp, rfl⟩ | rfl
    · by_cases hl : dp.length = (marked P).length
      · obtain ⟨s', hs', _, hfix⟩ := (hu s₀ dp).2 hl
        have hs'' : step debug s₀ (.update dp) = .ok s' := hs'
        rw [hs'', Res.bind_ok] at hr
        refine ih s' (fun o ho' => ho o (List.mem_cons_of_mem _ ho')) ⟨(hfix i j hp).trans h0.1, s₀.val, ?_, h0.1⟩ hr
        rw [(update_ok hs').2]
      · have : step debug s₀ (.update dp) = .ub := (hu s₀ dp).1 hl
        rw [this] at hr
        cases hr
    · obtain ⟨p, hp', hpv⟩ := h0.2
      have : step debug s₀ .revert = .ok ⟨p, some p, ((Class.matrixBasic _ B).cls sm).eval p⟩ := by
        simp only [step, revert, hp']
      rw [this, Res.bind_ok] at hr
      exact ih _ (fun o ho' => ho o (List.mem_cons_of_mem _ ho')) ⟨hpv, p, rfl, hpv⟩ hr

/-- Two values that differ in marked entries only are one step apart, and only one step leads from one to the other. -/
theorem C97_reach (sm : Sm) (P : Matrix (Fin 3) (Fin 3) ℤ) (B : Mat 9 (marked P).length) (h : pattern P = .ok ⟨_, B⟩)
    (s : St ((Class.matrixBasic _ B).cls sm)) (A : Mat 3 3) (hA : ∀ i j : Fin 3, P i j = 0 → A i j = s.val i j) :
    ∃! dp : List ℝ, ∃ s', update debug s dp = .ok s' ∧ s'.val = A := by
  obtain ⟨B', hB', _, hu⟩ := C97_update (debug := debug) sm P
  obtain rfl : B = B' := by
    have := Res.ok.inj (h.symm.trans hB')
    exact eq_of_heq (Sigma.mk.inj this).2
  refine ⟨(marked P).map fun e => A e.1 e.2 - s.val e.1 e.2, ?_, ?_⟩
  · obtain ⟨s', hs', hm, hf⟩ := (hu s ((marked P).map fun e => A e.1 e.2 - s.val e.1 e.2)).2 (by simp)
    refine ⟨s', hs', ?_⟩
    funext i j
    by_cases hp : P i j = 0
    · exact (hf i j hp).trans (hA i j hp).symm
    · obtain ⟨k, hk, he⟩ := List.getElem_of_mem ((mem_marked P i j).2 hp)
      have := hm k hk
      rw [List.getElem_map, he] at this
      exact this.trans (add_sub_cancel ..)
  · rintro dp ⟨s', hs', rfl⟩
    have hl : dp.length = (marked P).length := by
      by_contra hne
      rw [(hu s dp).1 hne] at hs'
      cases hs'
    obtain ⟨s'', hs'', hm, _⟩ := (hu s dp).2 hl
    obtain rfl := Res.ok.inj (hs'.symm.trans hs'')
    refine List.ext_getElem (by simpa using hl) fun k h1 h2 => ?_
    rw [List.getElem_map, hm k (hl ▸ h1)]
    exact (add_sub_cancel_left ..).symm

/-- The Jacobian added is exact: applied to a step it is the chain rule matrix applied to the change of the matrix (as a
column-major vector). Its `k`-th column is the column of the chain rule matrix that belongs to the `k`-th marked entry. A variable
without marked entries is not reported and adds nothing. -/
theorem C97_jacobian (sm : Sm) (P : Matrix (Fin 3) (Fin 3) ℤ) (B : Mat 9 (marked P).length) (h : pattern P = .ok ⟨_, B⟩)
    {m : Nat} (C : Mat m 9) :
    ((∀ i j, P i j = 0) ↔ reported B = false) ∧
    (reported B = false → addsJacobian B C = none) ∧
    (reported B = true → ∃ J, addsJacobian B C = some J ∧
      (∀ (s s' : St ((Class.matrixBasic _ B).cls sm)) (dp : List ℝ), update debug s dp = .ok s' →
        J.mulVec (fun k => dp.getD k.val 0) = C.mulVec (colMajor s'.val - colMajor s.val)) ∧
      (∀ (r : Fin m) (k : Fin (marked P).length), J r k = C r (place (marked P)[k]))) := by
  obtain ⟨B', hB', hB⟩ := pattern_ok P
  obtain rfl : B = B' := by
    have := Res.ok.inj (h.symm.trans hB')
    exact eq_of_heq (Sigma.mk.inj this).2
  refine ⟨?_, ?_, ?_⟩
  · simp only [reported, ne_eq, decide_not, Bool.not_eq_eq_eq_not, Bool.not_false, decide_eq_true_eq, List.length_eq_zero_iff]
    constructor
    · intro h0
      refine List.eq_nil_iff_forall_not_mem.2 fun e he => ?_
      exact (mem_marked P e.1 e.2).1 he (h0 e.1 e.2)
    · intro h0 i j
      by_contra hp
      have := (mem_marked P i j).2 hp
      rw [h0] at this
      cases this
  · intro hr
    simp only [reported, decide_eq_false_iff_not, not_not] at hr
    simp [addsJacobian, hr]
  · intro hr
    simp only [reported, decide_eq_true_eq] at hr
    refine ⟨C * B, by rw [addsJacobian, if_pos hr], ?_, ?_⟩
    · intro s s' dp hu
      rw [← Matrix.mulVec_mulVec]
      congr 1
      obtain ⟨_, rfl⟩ := update_ok hu
      funext r
      simp only [colMajor, Pi.sub_apply]
      refine Eq.trans ?_ (add_sub_cancel_left _ _).symm
      congr 1
      exact Fin.ext (by simp only; omega)
    · intro r k
      rw [Matrix.mul_apply, Finset.sum_eq_single (place (marked P)[k])]
      · rw [hB, if_pos rfl, mul_one]
      · intro i _ hi
        rw [hB, if_neg (fun h => hi h.symm), mul_zero]
      · intro h; exact absurd (Finset.mem_univ _) h

/-- The hypotheses of the three theorems hold for a pattern that marks the upper right entry, then one in the last row: the second component moves the
entry in the last row although it comes first in column-major order. -/
example (sm : Sm) : ∃ (B : Mat 9 (marked !![0, 0, 7; 0, 0, 0; -1, 0, 0]).length), pattern !![0, 0, 7; 0, 0, 0; -1, 0, 0] = .ok ⟨_, B⟩ ∧
    marked !![0, 0, 7; 0, 0, 0; -1, 0, 0] = [(0, 2), (2, 0)] ∧
    ∃ s', update true (make ((Class.matrixBasic _ B).cls sm) 0) [5, 6] = .ok s' ∧ s'.val = !![0, 0, 5; 0, 0, 0; 6, 0, 0] := by
  obtain ⟨B, h, _, hu⟩ := C97_update (debug := true) sm !![0, 0, 7; 0, 0, 0; -1, 0, 0]
  have hm : marked !![0, 0, 7; 0, 0, 0; -1, 0, 0] = [(0, 2), (2, 0)] := by decide
  refine ⟨B, h, hm, ?_⟩
  obtain ⟨s', hs', h1, h2⟩ := (hu (make _ 0) [5, 6]).2 (by rw [hm]; rfl)
  refine ⟨s', hs', ?_⟩
  have e (i j : Fin 3) : (i = 0 ∧ j = 2 ∨ i = 2 ∧ j = 0) ∨ (!![0, 0, 7; 0, 0, 0; -1, 0, 0] : Matrix (Fin 3) (Fin 3) ℤ) i j = 0 := by
    by_cases hp : (!![0, 0, 7; 0, 0, 0; -1, 0, 0] : Matrix (Fin 3) (Fin 3) ℤ) i j = 0
    · exact Or.inr hp
    · have := (congrArg ((i, j) ∈ ·) hm).mp ((mem_marked _ i j).2 hp)
      exact Or.inl (by simpa using this)
  have a0 : s'.val (0 : Fin 3) (2 : Fin 3) = 0 + 5 := h1 0 (by rw [hm]; decide)
  have a1 : s'.val (2 : Fin 3) (0 : Fin 3) = 0 + 6 := h1 1 (by rw [hm]; decide)
  funext i j
  rcases e i j with h | h
  · rcases h with ⟨rfl, rfl⟩ | ⟨rfl, rfl⟩
    · exact a0.trans (by simp)
    · exact a1.trans (by simp)
  · refine (h2 i j h).trans ?_
    revert h
    fin_cases i <;> fin_cases j <;> intro hp <;>
      first | rfl | exact absurd (show (7 : ℤ) = 0 from hp) (by decide) | exact absurd (show (-1 : ℤ) = 0 from hp) (by decide)

end Verif.DesignVar
