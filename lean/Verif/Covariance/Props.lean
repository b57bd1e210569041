import Verif.Covariance.Model
import Verif.Schur.Props
import Mathlib.Algebra.BigOperators.Intervals
import Mathlib.Tactic.FieldSimp
import Mathlib.Tactic.LinearCombination
import Mathlib.Tactic.NormNum

/-! C54: recovered covariances are entries of the inverse. -/
namespace Verif.Covariance
open Verif

variable {K : Type} [Field K]

/-- The matrix stored in the compressed columns. -/
def dense (F : Factor K) (i j : Nat) : K := ∑ p ∈ Finset.Ico (F.Ap j) (F.Ap (j + 1)), if F.Ai p = i then F.Ax p else 0

/-- A lower triangular factor with non-zero diagonal stored first in each column, set by `setCholeskyFactor`, small enough for the 32-bit index. -/
structure WF (F : Factor K) : Prop where
  small : F.n * F.n ≤ 2 ^ 31
  col : ∀ r, r < F.n → F.Ap r < F.Ap (r + 1)
  first : ∀ r, r < F.n → F.Ai (F.Ap r) = r
  nz : ∀ r, r < F.n → F.Ax (F.Ap r) ≠ 0
  below : ∀ r, r < F.n → ∀ p, F.Ap r < p → p < F.Ap (r + 1) → r < F.Ai p ∧ F.Ai p < F.n
  diag : ∀ r, r < F.n → F.diag r = 1 / F.Ax (F.Ap r)

/-- `A = L Lᵀ`. -/
def gram (F : Factor K) (i j : Nat) : K := ∑ k ∈ Finset.range F.n, dense F i k * dense F j k

/-- `S` is a right inverse of `A` on the first `n` indices. -/
def RightInv (n : Nat) (A S : Nat → Nat → K) : Prop := ∀ i j, i < n → j < n → ∑ k ∈ Finset.range n, A i k * S k j = if i = j then 1 else 0

theorem dense_upper {F : Factor K} (h : WF F) {i j : Nat} (hj : j < F.n) (hij : i < j) : dense F i j = 0 := by
  refine Finset.sum_eq_zero fun p hp => ?_
  rw [Finset.mem_Ico] at hp
  refine if_neg fun he => ?_
  by_cases hp' : p = F.Ap j
  · rw [hp', h.first j hj] at he; omega
  · have := (h.below j hj p (by omega) hp.2).1; omega

theorem dense_diag {F : Factor K} (h : WF F) {r : Nat} (hr : r < F.n) : dense F r r = F.Ax (F.Ap r) := by
  unfold dense
  rw [Finset.sum_eq_sum_Ico_succ_bot (h.col r hr), if_pos (h.first r hr)]
  have : ∑ p ∈ Finset.Ico (F.Ap r + 1) (F.Ap (r + 1)), (if F.Ai p = r then F.Ax p else 0) = 0 := by
    refine Finset.sum_eq_zero fun p hp => ?_
    rw [Finset.mem_Ico] at hp
    have := (h.below r hr p (by omega) hp.2).1
    rw [if_neg (by omega)]
  rw [this, add_zero]

/-- A column of the factor against a vector: the diagonal entry, then the stored entries below. -/
theorem dense_col {F : Factor K} (h : WF F) {r : Nat} (hr : r < F.n) (v : Nat → K) :
    ∑ k ∈ Finset.range F.n, dense F k r * v k = F.Ax (F.Ap r) * v r + ∑ p ∈ Finset.Ico (F.Ap r + 1) (F.Ap (r + 1)), F.Ax p * v (F.Ai p) := by
  have hlt : ∀ p ∈ Finset.Ico (F.Ap r) (F.Ap (r + 1)), F.Ai p < F.n := by
    intro p hp
    rw [Finset.mem_Ico] at hp
    by_cases hp' : p = F.Ap r
    · rw [hp', h.first r hr]; exact hr
    · exact (h.below r hr p (by omega) hp.2).2
  have h1 : ∑ k ∈ Finset.range F.n, dense F k r * v k = ∑ p ∈ Finset.Ico (F.Ap r) (F.Ap (r + 1)), F.Ax p * v (F.Ai p) := by
    unfold dense
    simp only [Finset.sum_mul]
    rw [Finset.sum_comm]
    refine Finset.sum_congr rfl fun p hp => ?_
    have : ∀ k ∈ Finset.range F.n, (if F.Ai p = k then F.Ax p else 0) * v k = if F.Ai p = k then F.Ax p * v k else 0 := by
      intro k _; split_ifs <;> simp
    rw [Finset.sum_congr rfl this, Finset.sum_ite_eq, if_pos (Finset.mem_range.2 (hlt p hp))]
  rw [h1, Finset.sum_eq_sum_Ico_succ_bot (h.col r hr), h.first r hr]

/-- `Lᵀ S` is the inverse of `L`, hence lower triangular with the reciprocal diagonal. -/
theorem lt_mul {F : Factor K} (h : WF F) {S : Nat → Nat → K} (hS : RightInv F.n (gram F) S) {c : Nat} (hc : c < F.n) (r : Nat) (hrc : r ≤ c) :
    ∑ k ∈ Finset.range F.n, dense F k r * S k c = if r = c then 1 / F.Ax (F.Ap r) else 0 := by
  have hLM : ∀ i, i < F.n → ∑ t ∈ Finset.range F.n, dense F i t * (∑ k ∈ Finset.range F.n, dense F k t * S k c) = if i = c then 1 else 0 := by
    intro i hi
    rw [← hS i c hi hc]
    unfold gram
    simp only [Finset.mul_sum, Finset.sum_mul]
    rw [Finset.sum_comm]
    exact Finset.sum_congr rfl fun k _ => Finset.sum_congr rfl fun t _ => by ring
  induction r using Nat.strong_induction_on with
  | _ r ih =>
    have hr : r < F.n := by omega
    have h1 := hLM r hr
    have h2 : ∑ t ∈ Finset.range F.n, dense F r t * (∑ k ∈ Finset.range F.n, dense F k t * S k c) = dense F r r * ∑ k ∈ Finset.range F.n, dense F k r * S k c := by
      refine Finset.sum_eq_single r (fun t ht htr => ?_) (fun hn => absurd (Finset.mem_range.2 hr) hn)
      rcases Nat.lt_or_ge r t with hlt | hge
      · rw [dense_upper h (Finset.mem_range.1 ht) hlt, zero_mul]
      · rw [ih t (by omega) (by omega), if_neg (by omega), mul_zero]
    rw [h2, dense_diag h hr] at h1
    have hne := h.nz r hr
    split_ifs at h1 ⊢ with hrc'
    · rw [eq_div_iff hne, mul_comm]; exact h1
    · exact (mul_eq_zero.1 h1).resolve_left hne

theorem gram_symm (F : Factor K) (a b : Nat) : gram F a b = gram F b a := Finset.sum_congr rfl fun _ _ => mul_comm _ _

/-! ### One entry -/

/-- The memo table holds only correct entries. -/
def Cons (F : Factor K) (S : Nat → Nat → K) (m : Memo K) : Prop := ∀ r c, r ≤ c → c < F.n → ∀ v, m (r * F.n + c) = some v → v = S r c

/-- Entries of `m` are kept in `m'`. -/
def Ext (m m' : Memo K) : Prop := ∀ i v, m i = some v → m' i = some v

theorem idx_inj {n r c r' c' : Nat} (hc : c < n) (hc' : c' < n) (h : r * n + c = r' * n + c') : r = r' ∧ c = c' := by
  have h1 : (r * n + c) / n = r := by rw [Nat.mul_comm, Nat.mul_add_div (by omega), Nat.div_eq_of_lt hc, Nat.add_zero]
  have h2 : (r' * n + c') / n = r' := by rw [Nat.mul_comm, Nat.mul_add_div (by omega), Nat.div_eq_of_lt hc', Nat.add_zero]
  have : r = r' := by rw [← h1, ← h2, h]
  subst this
  exact ⟨rfl, by omega⟩

theorem computeIndex_ok {F : Factor K} (h : WF F) {r c : Nat} (hr : r < F.n) (hc : c < F.n) : computeIndex F.n r c = .ok (r * F.n + c) := by
  unfold computeIndex
  have h1 : r * F.n + c < F.n * F.n := by
    have : (r + 1) * F.n ≤ F.n * F.n := Nat.mul_le_mul_right _ hr
    rw [Nat.succ_mul] at this
    omega
  rw [if_pos (lt_of_lt_of_le h1 h.small)]

theorem sumLoop_spec {F : Factor K} {S : Nat → Nat → K} {c : Nat} (hsym : ∀ a b, a < F.n → b < F.n → S a b = S b a) (hc : c < F.n)
    (rec : Nat → Nat → Memo K → Res (K × Memo K)) (r : Nat)
    (hrec : ∀ r' c' m, r' ≤ c' → c' < F.n → r + c < r' + c' → Cons F S m → ∃ m', rec r' c' m = .ok (S r' c', m') ∧ Cons F S m' ∧ Ext m m')
    (js : List Nat) (hjs : ∀ j ∈ js, r < F.Ai j ∧ F.Ai j < F.n) (s : K) (m : Memo K) (hm : Cons F S m) :
    ∃ m', sumLoop F rec c js s m = .ok (s + (js.map fun j => F.Ax j * S (F.Ai j) c).sum, m') ∧ Cons F S m' ∧ Ext m m' := by
  induction js generalizing s m with
  | nil => exact ⟨m, by simp [sumLoop], hm, fun _ _ h => h⟩
  | cons j js ih =>
    obtain ⟨h1, h2⟩ := hjs j (List.mem_cons_self ..)
    obtain ⟨m1, e1, c1, x1⟩ : ∃ m1, (if F.Ai j < c then rec (F.Ai j) c m else rec c (F.Ai j) m) = .ok (S (F.Ai j) c, m1) ∧ Cons F S m1 ∧ Ext m m1 := by
      by_cases hlt : F.Ai j < c
      · rw [if_pos hlt]
        exact hrec _ _ m (by omega) hc (by omega) hm
      · rw [if_neg hlt, hsym _ _ h2 hc]
        exact hrec _ _ m (by omega) h2 (by omega) hm
    obtain ⟨m2, e2, c2, x2⟩ := ih (fun k hk => hjs k (List.mem_cons_of_mem _ hk)) (s + S (F.Ai j) c * F.Ax j) m1 c1
    refine ⟨m2, ?_, c2, fun i v h => x2 i v (x1 i v h)⟩
    unfold sumLoop
    rw [e1]
    show sumLoop F rec c js (s + S (F.Ai j) c * F.Ax j) m1 = _
    rw [e2, List.map_cons, List.sum_cons]
    congr 2
    ring

theorem entry_spec {F : Factor K} (h : WF F) {S : Nat → Nat → K} (hS : RightInv F.n (gram F) S) (fuel r c : Nat) (m : Memo K) (hrc : r ≤ c) (hc : c < F.n) (hf : 2 * F.n ≤ fuel + r + c) (hm : Cons F S m) :
    ∃ m', computeEntry F fuel r c m = .ok (S r c, m') ∧ Cons F S m' ∧ Ext m m' ∧ m' (r * F.n + c) = some (S r c) := by
  have hsym : ∀ a b, a < F.n → b < F.n → S a b = S b a := fun a b ha hb => Schur.inverse_symm (gram F) S (fun a b _ _ => gram_symm F a b) hS a b ha hb
  induction fuel generalizing r c m with
  | zero => omega
  | succ fuel ih =>
    have hr : r < F.n := by omega
    unfold computeEntry
    rw [computeIndex_ok h hr hc]
    simp only [Res.bind]
    cases hv : m (r * F.n + c) with
    | some v =>
      have := hm r c hrc hc v hv
      subst this
      exact ⟨m, rfl, hm, fun _ _ h => h, hv⟩
    | none =>
      obtain ⟨m1, e1, c1, x1⟩ := sumLoop_spec (F := F) (S := S) (c := c) hsym hc (computeEntry F fuel) r
        (fun r' c' m h1 h2 h3 h4 => by
          obtain ⟨m', a, b, c, _⟩ := ih r' c' m h1 h2 (by omega) h4
          exact ⟨m', a, b, c⟩)
        (List.range' (F.Ap r + 1) (F.Ap (r + 1) - (F.Ap r + 1)))
        (fun j hj => by
          rw [List.mem_range'_1] at hj
          exact h.below r hr j (by omega) (by omega)) 0 m hm
      simp only
      rw [e1]
      simp only
      have hsum : ((List.range' (F.Ap r + 1) (F.Ap (r + 1) - (F.Ap r + 1))).map fun j => F.Ax j * S (F.Ai j) c).sum = ∑ p ∈ Finset.Ico (F.Ap r + 1) (F.Ap (r + 1)), F.Ax p * S (F.Ai p) c := by
        rw [Finset.sum_eq_multiset_sum]
        rfl
      have hk := lt_mul h hS hc r hrc
      rw [dense_col h hr (fun k => S k c)] at hk
      have hne := h.nz r hr
      have hres : (if r = c then F.diag r * (F.diag r - (0 + ((List.range' (F.Ap r + 1) (F.Ap (r + 1) - (F.Ap r + 1))).map fun j => F.Ax j * S (F.Ai j) c).sum))
          else -(0 + ((List.range' (F.Ap r + 1) (F.Ap (r + 1) - (F.Ap r + 1))).map fun j => F.Ax j * S (F.Ai j) c).sum) * F.diag r) = S r c := by
        rw [hsum, h.diag r hr]
        split_ifs at hk ⊢ with hrc'
        · rw [zero_add, one_div] at *
          rw [show (F.Ax (F.Ap r))⁻¹ - ∑ p ∈ Finset.Ico (F.Ap r + 1) (F.Ap (r + 1)), F.Ax p * S (F.Ai p) c = F.Ax (F.Ap r) * S r c by rw [← hk]; ring, inv_mul_cancel_left₀ hne]
        · rw [zero_add, mul_one_div, div_eq_iff hne]
          linear_combination -hk
      rw [hres]
      refine ⟨_, rfl, ?_, ?_, Function.update_self ..⟩
      · intro r' c' hrc' hc' v hv'
        by_cases he : r' * F.n + c' = r * F.n + c
        · obtain ⟨rfl, rfl⟩ := idx_inj hc' hc he
          rw [Function.update_self] at hv'
          exact (Option.some.inj hv').symm
        · rw [Function.update_of_ne he] at hv'
          exact c1 r' c' hrc' hc' v hv'
      · intro i v hi
        by_cases he : i = r * F.n + c
        · subst he; rw [hv] at hi; cases hi
        · rw [Function.update_of_ne he]; exact x1 i v hi

/-- Values returned for a list of requests. -/
def requests (F : Factor K) : List (Nat × Nat) → Memo K → Res (List K)
  | [], _ => .ok []
  | e :: es, m => (computeEntry F (depth F.n) e.1 e.2 m).bind fun p => (requests F es p.2).bind fun vs => .ok (p.1 :: vs)

/-- **C54, entries.** For every well-formed factor and every sequence of requests, starting from the empty table, each request returns the entry of the inverse of `L Lᵀ`, whatever was computed before. -/
theorem C54_entries_partial (F : Factor K) (h : WF F) (S : Nat → Nat → K) (hS : RightInv F.n (gram F) S) (es : List (Nat × Nat)) (hes : ∀ e ∈ es, e.1 ≤ e.2 ∧ e.2 < F.n) :
    requests F es (fun _ => none) = .ok (es.map fun e => S e.1 e.2) := by
  have key : ∀ m, Cons F S m → requests F es m = .ok (es.map fun e => S e.1 e.2) := by
    induction es with
    | nil => intro m _; rfl
    | cons e es ih =>
      intro m hm
      obtain ⟨h1, h2⟩ := hes e (List.mem_cons_self ..)
      obtain ⟨m', a, b, _, _⟩ := entry_spec h hS (depth F.n) e.1 e.2 m h1 h2 (by unfold depth; omega) hm
      unfold requests
      rw [a]
      show (requests F es m').bind _ = _
      rw [ih (fun e he => hes e (List.mem_cons_of_mem _ he)) m' b]
      rfl
  exact key _ (by intro r c _ _ v hv; cases hv)

/-! ### Blocks -/

theorem computeAll_spec {F : Factor K} (h : WF F) {S : Nat → Nat → K} (hS : RightInv F.n (gram F) S) (es : List (Nat × Nat)) (hes : ∀ e ∈ es, e.1 ≤ e.2 ∧ e.2 < F.n) (m : Memo K) (hm : Cons F S m) :
    ∃ m', computeAll F es m = .ok m' ∧ Ext m m' ∧ ∀ e ∈ es, m' (e.1 * F.n + e.2) = some (S e.1 e.2) := by
  induction es generalizing m with
  | nil => exact ⟨m, rfl, fun _ _ h => h, fun e he => by cases he⟩
  | cons e es ih =>
    obtain ⟨h1, h2⟩ := hes e (List.mem_cons_self ..)
    obtain ⟨m1, a, b, x, y⟩ := entry_spec h hS (depth F.n) e.1 e.2 m h1 h2 (by unfold depth; omega) hm
    obtain ⟨m2, a2, x2, y2⟩ := ih (fun e he => hes e (List.mem_cons_of_mem _ he)) m1 b
    refine ⟨m2, ?_, fun i v h => x2 i v (x i v h), ?_⟩
    · unfold computeAll
      rw [a]
      exact a2
    · intro e' he'
      rcases List.mem_cons.1 he' with rfl | he'
      · exact x2 _ _ y
      · exact y2 e' he'

/-- The permutation is a bijection of the first `n` indices. -/
def PermOK (F : Factor K) : Prop := ∃ q : Nat → Nat, ∀ i, i < F.n → F.p i < F.n ∧ q i < F.n ∧ q (F.p i) = i ∧ F.p (q i) = i

/-- From an inverse of the permuted matrix to an inverse of `L Lᵀ`. -/
theorem unpermute {F : Factor K} (hp : PermOK F) {T : Nat → Nat → K} (hT : RightInv F.n (fun i j => gram F (F.p i) (F.p j)) T) :
    ∃ S, RightInv F.n (gram F) S ∧ ∀ i j, i < F.n → j < F.n → S (F.p i) (F.p j) = T i j := by
  obtain ⟨q, hq⟩ := hp
  refine ⟨fun a b => T (q a) (q b), ?_, ?_⟩
  · intro i j hi hj
    have h1 := hT (q i) (q j) (hq i hi).2.1 (hq j hj).2.1
    have h2 : ∑ k ∈ Finset.range F.n, gram F i k * T (q k) (q j) = ∑ k ∈ Finset.range F.n, gram F (F.p (q i)) (F.p k) * T k (q j) := by
      refine Finset.sum_bij' (fun k _ => q k) (fun k _ => F.p k) ?_ ?_ ?_ ?_ ?_
      · intro k hk; exact Finset.mem_range.2 (hq k (Finset.mem_range.1 hk)).2.1
      · intro k hk; exact Finset.mem_range.2 (hq k (Finset.mem_range.1 hk)).1
      · intro k hk; exact (hq k (Finset.mem_range.1 hk)).2.2.2
      · intro k hk; exact (hq k (Finset.mem_range.1 hk)).2.2.1
      · intro k hk
        rw [(hq i hi).2.2.2, (hq k (Finset.mem_range.1 hk)).2.2.2]
    show ∑ k ∈ Finset.range F.n, gram F i k * T (q k) (q j) = _
    rw [h2, h1]
    by_cases hij : i = j
    · subst hij; simp
    · rw [if_neg hij, if_neg]
      intro he
      apply hij
      rw [← (hq i hi).2.2.2, ← (hq j hj).2.2.2, he]
  · intro i j hi hj
    show T (q (F.p i)) (q (F.p j)) = T i j
    rw [(hq i hi).2.2.1, (hq j hj).2.2.1]

theorem elem_ok {F : Factor K} (hp : PermOK F) {i j : Nat} (hi : i < F.n) (hj : j < F.n) : (elem F i j).1 ≤ (elem F i j).2 ∧ (elem F i j).2 < F.n := by
  obtain ⟨q, hq⟩ := hp
  have h1 := (hq i hi).1
  have h2 := (hq j hj).1
  unfold elem
  split_ifs with h
  · exact ⟨le_of_lt h, h1⟩
  · exact ⟨by simp only; omega, h2⟩

theorem elem_val {F : Factor K} {S : Nat → Nat → K} (hsym : ∀ a b, a < F.n → b < F.n → S a b = S b a) (hp : PermOK F) {i j : Nat} (hi : i < F.n) (hj : j < F.n) :
    S (elem F i j).1 (elem F i j).2 = S (F.p i) (F.p j) := by
  obtain ⟨q, hq⟩ := hp
  unfold elem
  split_ifs with h
  · exact hsym _ _ (hq j hj).1 (hq i hi).1
  · rfl

theorem lookup_ok {F : Factor K} (h : WF F) (hp : PermOK F) {m : Memo K} {i j : Nat} (hi : i < F.n) (hj : j < F.n) {v : K} (hm : m ((elem F i j).1 * F.n + (elem F i j).2) = some v) :
    lookup F m i j = .ok v := by
  unfold lookup
  obtain ⟨h1, h2⟩ := elem_ok hp hi hj
  rw [computeIndex_ok h (by omega) h2]
  simp only [Res.bind, hm]

theorem mapRes_ok {α β : Type} (f : α → Res β) (g : α → β) (l : List α) (h : ∀ a ∈ l, f a = .ok (g a)) : mapRes f l = .ok (l.map g) := by
  induction l with
  | nil => rfl
  | cons a l ih =>
    unfold mapRes
    rw [h a (List.mem_cons_self ..), ih fun b hb => h b (List.mem_cons_of_mem _ hb)]
    rfl

/-- **C54, requested blocks.** Let `L Lᵀ` be the matrix with rows and columns permuted, and `T` an inverse of the matrix in the original order. For every layout inside the matrix and every list of block positions
(in any order, repeated or not) the computation returns normally and every block holds the corresponding entries of `T`. -/
theorem C54_blocks_partial (F : Factor K) (h : WF F) (hp : PermOK F) (T : Nat → Nat → K) (hT : RightInv F.n (fun i j => gram F (F.p i) (F.p j)) T) (lay : SBM.Layout) (blocks : List (Nat × Nat))
    (hb : ∀ b ∈ blocks, lay.base b.1 + lay.size b.1 ≤ F.n ∧ lay.base b.2 + lay.size b.2 ≤ F.n) :
    covPattern F lay blocks = .ok (blocks.map fun b => (List.range (lay.size b.1)).map fun i => (List.range (lay.size b.2)).map fun j => T (lay.base b.1 + i) (lay.base b.2 + j)) := by
  obtain ⟨S, hS, hST⟩ := unpermute hp hT
  have hsym : ∀ a b, a < F.n → b < F.n → S a b = S b a := fun a b ha hb => Schur.inverse_symm (gram F) S (fun a b _ _ => gram_symm F a b) hS a b ha hb
  have hmem : ∀ b ∈ blocks, ∀ i, i < lay.size b.1 → ∀ j, j < lay.size b.2 → elem F (lay.base b.1 + i) (lay.base b.2 + j) ∈ (blocks.flatMap (blockElems F lay)).mergeSort elemLe := by
    intro b hbm i hi j hj
    rw [List.mem_mergeSort, List.mem_flatMap]
    refine ⟨b, hbm, ?_⟩
    unfold blockElems
    rw [List.mem_flatMap]
    exact ⟨i, List.mem_range.2 hi, List.mem_map.2 ⟨j, List.mem_range.2 hj, rfl⟩⟩
  obtain ⟨m, e, _, hm⟩ := computeAll_spec h hS ((blocks.flatMap (blockElems F lay)).mergeSort elemLe)
    (by
      intro x hx
      rw [List.mem_mergeSort, List.mem_flatMap] at hx
      obtain ⟨b, hbm, hx⟩ := hx
      unfold blockElems at hx
      rw [List.mem_flatMap] at hx
      obtain ⟨i, hi, hx⟩ := hx
      obtain ⟨j, hj, rfl⟩ := List.mem_map.1 hx
      have := hb b hbm
      rw [List.mem_range] at hi hj
      exact elem_ok hp (by omega) (by omega)) (fun _ => none) (by intro r c _ _ v hv; cases hv)
  unfold covPattern
  rw [e]
  show mapRes _ blocks = _
  apply mapRes_ok
  intro b hbm
  apply mapRes_ok
  intro i hi
  apply mapRes_ok
  intro j hj
  have := hb b hbm
  rw [List.mem_range] at hi hj
  rw [← hST _ _ (show lay.base b.1 + i < F.n by omega) (show lay.base b.2 + j < F.n by omega), ← elem_val hsym hp (by omega) (by omega)]
  exact lookup_ok h hp (by omega) (by omega) (hm _ (hmem b hbm i hi j hj))

/-! ### Diagonal blocks written into the caller's memory -/

theorem mem_upperPairs {d : Nat} {q : Nat × Nat} : q ∈ upperPairs d ↔ q.1 ≤ q.2 ∧ q.2 < d := by
  obtain ⟨a, b⟩ := q
  simp only [upperPairs, List.mem_flatMap, List.mem_range, List.mem_map, List.mem_range'_1, Prod.mk.injEq]
  constructor
  · rintro ⟨r, hr, c, hc, rfl, rfl⟩; omega
  · rintro ⟨h1, h2⟩; exact ⟨a, by omega, b, by omega, rfl, rfl⟩

theorem writeBlock_spec {F : Factor K} {m : Memo K} {base d : Nat} {T : Nat → Nat → K} (hT : ∀ i j, i < d → j < d → T i j = T j i) (qs : List (Nat × Nat)) (hq : ∀ q ∈ qs, q.1 < d ∧ q.2 < d)
    (hl : ∀ q ∈ qs, lookup F m (q.1 + base) (q.2 + base) = .ok (T q.1 q.2)) (cov : Nat → K) :
    ∃ out, writeBlock F m base d qs cov = .ok out ∧
      ∀ a b, a < d → b < d → out (a * d + b) = if (a, b) ∈ qs ∨ (b, a) ∈ qs then T a b else cov (a * d + b) := by
  induction qs generalizing cov with
  | nil => exact ⟨cov, rfl, by simp⟩
  | cons q qs ih =>
    obtain ⟨h1, h2⟩ := hq q (List.mem_cons_self ..)
    unfold writeBlock
    rw [hl q (List.mem_cons_self ..)]
    simp only [Res.bind]
    obtain ⟨out, e, ho⟩ := ih (fun q' hq' => hq q' (List.mem_cons_of_mem _ hq')) (fun q' hq' => hl q' (List.mem_cons_of_mem _ hq'))
      (if q.1 ≠ q.2 then Function.update (Function.update cov (q.1 * d + q.2) (T q.1 q.2)) (q.2 * d + q.1) (T q.1 q.2) else Function.update cov (q.1 * d + q.2) (T q.1 q.2))
    refine ⟨out, e, ?_⟩
    intro a b ha hb
    rw [ho a b ha hb]
    by_cases hin : (a, b) ∈ qs ∨ (b, a) ∈ qs
    · rw [if_pos hin, if_pos]
      rcases hin with hin | hin
      · exact Or.inl (List.mem_cons_of_mem _ hin)
      · exact Or.inr (List.mem_cons_of_mem _ hin)
    · rw [if_neg hin]
      rw [not_or] at hin
      by_cases hq1 : (a, b) = q
      · subst hq1
        rw [if_pos (Or.inl (List.mem_cons_self ..))]
        simp only
        split_ifs with hne
        · rw [Function.update_of_ne, Function.update_self]
          intro he
          exact hne (idx_inj hb ha he).1
        · rw [Function.update_self]
      · by_cases hq2 : (b, a) = q
        · subst hq2
          rw [if_pos (Or.inr (List.mem_cons_self ..))]
          simp only
          have hne : b ≠ a := by
            intro he
            subst he
            exact hq1 rfl
          rw [if_pos hne, Function.update_self]
          exact hT b a hb ha
        · have hn : ¬ ((a, b) ∈ q :: qs ∨ (b, a) ∈ q :: qs) := by
            rintro (hx | hx)
            · rcases List.mem_cons.1 hx with hx | hx
              · exact hq1 hx
              · exact hin.1 hx
            · rcases List.mem_cons.1 hx with hx | hx
              · exact hq2 hx
              · exact hin.2 hx
          rw [if_neg hn]
          have n1 : a * d + b ≠ q.1 * d + q.2 := by
            intro he
            obtain ⟨h3, h4⟩ := idx_inj hb h2 he
            exact hq1 (Prod.ext h3 h4)
          have n2 : a * d + b ≠ q.2 * d + q.1 := by
            intro he
            obtain ⟨h3, h4⟩ := idx_inj hb h1 he
            exact hq2 (Prod.ext h4 h3)
          split_ifs
          · rw [Function.update_of_ne n2, Function.update_of_ne n1]
          · rw [Function.update_of_ne n1]

theorem mem_diagElems {F : Factor K} (ends : List Nat) (base : Nat) (x : Nat × Nat) (hx : x ∈ diagElems F ends base) (hb : (base :: ends).Pairwise (· ≤ ·)) (hn : ∀ e ∈ ends, e ≤ F.n) :
    ∃ i j, i < F.n ∧ j < F.n ∧ x = elem F i j := by
  induction ends generalizing base with
  | nil => cases hx
  | cons nb ns ih =>
    unfold diagElems at hx
    rw [List.mem_append] at hx
    rcases hx with hx | hx
    · obtain ⟨q, hq, rfl⟩ := List.mem_map.1 hx
      rw [mem_upperPairs] at hq
      have := hn nb (List.mem_cons_self ..)
      exact ⟨_, _, by omega, by omega, rfl⟩
    · exact ih nb hx (List.pairwise_cons.1 hb).2 fun e he => hn e (List.mem_cons_of_mem _ he)

/-- **C54, diagonal blocks.** For every increasing list of block ends inside the matrix and memory for each block, block `k` is filled row by row with the entries of the inverse of the matrix in the original order
(`start k` is the end of the previous block). -/
theorem C54_diagonal_blocks_partial (F : Factor K) (h : WF F) (hp : PermOK F) (T : Nat → Nat → K) (hT : RightInv F.n (fun i j => gram F (F.p i) (F.p j)) T) (ends : List Nat) (hmono : (0 :: ends).Pairwise (· ≤ ·))
    (hn : ∀ e ∈ ends, e ≤ F.n) (mems : List (Nat → K)) (hlen : mems.length = ends.length) :
    ∃ out, covDiag F ends mems = .ok out ∧ out.length = ends.length ∧
      ∀ k (hk : k < ends.length) (hk' : k < out.length) (start : Nat), (0 :: ends)[k]? = some start → ∀ a b, a < ends[k] - start → b < ends[k] - start →
        out[k] (a * (ends[k] - start) + b) = T (start + a) (start + b) := by
  obtain ⟨S, hS, hST⟩ := unpermute hp hT
  have hsym : ∀ a b, a < F.n → b < F.n → S a b = S b a := fun a b ha hb => Schur.inverse_symm (gram F) S (fun a b _ _ => gram_symm F a b) hS a b ha hb
  obtain ⟨m, e, _, hm⟩ := computeAll_spec h hS ((diagElems F ends 0).mergeSort elemLe)
    (by
      intro x hx
      rw [List.mem_mergeSort] at hx
      obtain ⟨i, j, hi, hj, rfl⟩ := mem_diagElems ends 0 x hx hmono hn
      exact elem_ok hp hi hj) (fun _ => none) (by intro r c _ _ v hv; cases hv)
  have hm' : ∀ x ∈ diagElems F ends 0, m (x.1 * F.n + x.2) = some (S x.1 x.2) := fun x hx => hm x (List.mem_mergeSort.2 hx)
  unfold covDiag
  rw [e]
  show ∃ out, writeBlocks F m ends 0 mems = .ok out ∧ _
  clear e hm
  generalize 0 = base at hmono hm' ⊢
  have hTsym : ∀ i j, i < F.n → j < F.n → T i j = T j i := by
    obtain ⟨q, hq⟩ := hp
    intro i j hi hj
    rw [← hST i j hi hj, ← hST j i hj hi]
    exact hsym _ _ (hq i hi).1 (hq j hj).1
  induction ends generalizing base mems with
  | nil => exact ⟨[], by cases mems <;> rfl, rfl, fun k hk => by simp at hk⟩
  | cons nb ns ih =>
    cases mems with
    | nil => simp at hlen
    | cons mem mems =>
      have hnb := hn nb (List.mem_cons_self ..)
      obtain ⟨out1, e1, ho1⟩ := writeBlock_spec (F := F) (m := m) (base := base) (d := nb - base) (T := fun i j => T (base + i) (base + j))
        (fun i j hi hj => hTsym _ _ (by omega) (by omega)) (upperPairs (nb - base)) (fun q hq => by rw [mem_upperPairs] at hq; omega)
        (fun q hq => by
          have hq' := mem_upperPairs.1 hq
          have hv := hm' (elem F (q.1 + base) (q.2 + base)) (by
            unfold diagElems
            exact List.mem_append_left _ (List.mem_map.2 ⟨q, hq, rfl⟩))
          rw [elem_val hsym hp (show q.1 + base < F.n by omega) (show q.2 + base < F.n by omega), hST _ _ (by omega) (by omega)] at hv
          rw [lookup_ok h hp (by omega) (by omega) hv, Nat.add_comm q.1, Nat.add_comm q.2]) mem
      obtain ⟨outs, e2, hl2, ho2⟩ := ih (fun e he => hn e (List.mem_cons_of_mem _ he)) mems (by simpa using hlen) nb (List.pairwise_cons.1 hmono).2
        (fun x hx => hm' x (by unfold diagElems; exact List.mem_append_right _ hx))
      refine ⟨out1 :: outs, ?_, by simp [hl2], ?_⟩
      · unfold writeBlocks
        rw [e1]
        simp only [Res.bind]
        rw [e2]
      · intro k hk hk' start hstart a b ha hb
        cases k with
        | zero =>
          simp only [List.getElem?_cons_zero, Option.some.injEq] at hstart
          subst hstart
          simp only [List.getElem_cons_zero] at ha hb ⊢
          rw [ho1 a b ha hb, if_pos]
          rw [mem_upperPairs, mem_upperPairs]
          simp only
          omega
        | succ k =>
          simp only [List.getElem_cons_succ] at ha hb ⊢
          rw [List.getElem?_cons_succ] at hstart
          exact ho2 k (by simpa using hk) (by simpa using hk') start hstart a b ha hb

/-- **C54** (permutation). The blocks in terms of the permutation that was handed over with the factor: if `L Lᵀ` is the matrix `H` with row and column `i` moved to position `q i`, the blocks are those of the inverse of `H`, not of the permuted matrix. -/
theorem C54_permuted_blocks_partial (F : Factor K) (h : WF F) (q q' : Nat → Nat) (hperm : F.perm = some q) (hq : ∀ i, i < F.n → q i < F.n ∧ q' i < F.n ∧ q' (q i) = i ∧ q (q' i) = i)
    (H T : Nat → Nat → K) (hH : ∀ i j, i < F.n → j < F.n → gram F (q i) (q j) = H i j) (hT : RightInv F.n H T) (lay : SBM.Layout) (blocks : List (Nat × Nat))
    (hb : ∀ b ∈ blocks, lay.base b.1 + lay.size b.1 ≤ F.n ∧ lay.base b.2 + lay.size b.2 ≤ F.n) :
    covPattern F lay blocks = .ok (blocks.map fun b => (List.range (lay.size b.1)).map fun i => (List.range (lay.size b.2)).map fun j => T (lay.base b.1 + i) (lay.base b.2 + j)) := by
  have hp : ∀ i, F.p i = q i := fun i => by unfold Factor.p; rw [hperm]
  refine C54_blocks_partial F h ⟨q', fun i hi => ?_⟩ T ?_ lay blocks hb
  · rw [hp, hp]; exact hq i hi
  · intro i j hi hj
    rw [← hT i j hi hj]
    exact Finset.sum_congr rfl fun k hk => by
      show gram F (F.p i) (F.p k) * T k j = _
      rw [hp, hp, hH i k hi (Finset.mem_range.1 hk)]

/-- **Large matrices overflow the key.** For a factor of dimension 46341 or more the key of the last diagonal entry does not fit into an `int`: asking for its variance is undefined, whatever the factor is. -/
theorem C54_key_overflow_counterexample (F : Factor K) (hn : 46341 ≤ F.n) (m : Memo K) (fuel : Nat) : computeEntry F fuel (F.n - 1) (F.n - 1) m = .ub := by
  cases fuel with
  | zero => rfl
  | succ fuel =>
    unfold computeEntry computeIndex
    obtain ⟨k, hk⟩ : ∃ k, F.n = k + 1 := ⟨F.n - 1, by omega⟩
    have : ¬ ((F.n - 1) * F.n + (F.n - 1) < 2 ^ 31) := by
      rw [hk, Nat.add_sub_cancel]
      have h1 : 46340 ≤ k := by omega
      have h2 : 46340 * (46340 + 1) ≤ k * (k + 1) := Nat.mul_le_mul h1 (by omega)
      omega
    rw [if_neg this]
    rfl

/-! ### A concrete factor -/

/-- **C54, from the arrays.** Handing over the arrays of a lower triangular matrix `L` in compressed columns (diagonal first and not zero) and asking for entries
returns the entries of the inverse of `L Lᵀ`. -/
theorem C54_set_factor_partial (n : Nat) (hn : n * n ≤ 2 ^ 31) (Lp Li : Nat → Nat) (Lx : Nat → K) (permInv : Option (Nat → Nat)) (hcol : ∀ r, r < n → Lp r < Lp (r + 1))
    (hfirst : ∀ r, r < n → Li (Lp r) = r) (hnz : ∀ r, r < n → Lx (Lp r) ≠ 0) (hbelow : ∀ r, r < n → ∀ p, Lp r < p → p < Lp (r + 1) → r < Li p ∧ Li p < n)
    (S : Nat → Nat → K) (hS : ∀ i j, i < n → j < n → ∑ k ∈ Finset.range n, (∑ l ∈ Finset.range n,
      (∑ p ∈ Finset.Ico (Lp l) (Lp (l + 1)), if Li p = i then Lx p else 0) * ∑ p ∈ Finset.Ico (Lp l) (Lp (l + 1)), if Li p = k then Lx p else 0) * S k j = if i = j then 1 else 0)
    (es : List (Nat × Nat)) (hes : ∀ e ∈ es, e.1 ≤ e.2 ∧ e.2 < n) :
    requests (setCholeskyFactor n Lp Li Lx permInv) es (fun _ => none) = .ok (es.map fun e => S e.1 e.2) :=
  C54_entries_partial (setCholeskyFactor n Lp Li Lx permInv) ⟨hn, hcol, hfirst, hnz, hbelow, fun _ _ => rfl⟩ S hS es hes

/-- `L = [[2, 0], [1, 3]]` with the two indices exchanged by the permutation. -/
def demo : Factor ℚ := setCholeskyFactor 2 (fun r => if r = 0 then 0 else if r = 1 then 2 else 3) (fun p => if p = 0 then 0 else 1) (fun p => if p = 0 then 2 else if p = 1 then 1 else 3) (some fun i => 1 - i)

theorem demo_wf : WF demo := by
  refine ⟨by decide, ?_, ?_, ?_, ?_, fun _ _ => rfl⟩
  · intro r hr
    have : r = 0 ∨ r = 1 := by have : demo.n = 2 := rfl; omega
    rcases this with rfl | rfl <;> decide
  · intro r hr
    have : r = 0 ∨ r = 1 := by have : demo.n = 2 := rfl; omega
    rcases this with rfl | rfl <;> decide
  · intro r hr
    have : r = 0 ∨ r = 1 := by have : demo.n = 2 := rfl; omega
    rcases this with rfl | rfl <;> decide +kernel
  · intro r hr p h1 h2
    have : r = 0 ∨ r = 1 := by have : demo.n = 2 := rfl; omega
    rcases this with rfl | rfl
    · have h3 : p < 2 := h2
      have h4 : 0 < p := h1
      have : p = 1 := by omega
      subst this
      decide
    · have h3 : p < 3 := h2
      have h4 : 2 < p := h1
      omega

theorem demo_perm : PermOK demo := by
  refine ⟨fun i => 1 - i, fun i hi => ?_⟩
  have hi' : i < 2 := hi
  have : i = 0 ∨ i = 1 := by omega
  rcases this with rfl | rfl <;> decide

/-- The matrix in the original order is `[[10, 2], [2, 4]]`, its inverse `[[1/9, -1/18], [-1/18, 5/18]]`. -/
theorem demo_inv : RightInv demo.n (fun i j => gram demo (demo.p i) (demo.p j)) (fun i j => if i = 0 ∧ j = 0 then 1/9 else if i = 1 ∧ j = 1 then 5/18 else -1/18) := by
  intro i j hi hj
  have hi' : i < 2 := hi
  have hj' : j < 2 := hj
  have h1 : i = 0 ∨ i = 1 := by omega
  have h2 : j = 0 ∨ j = 1 := by omega
  rcases h1 with rfl | rfl <;> rcases h2 with rfl | rfl <;> decide +kernel

/-- The two blocks of size one requested in the reverse order. -/
example : covPattern demo ⟨2, fun i => i + 1⟩ [(1, 1), (0, 1)] = .ok [[[5/18]], [[-1/18]]] := by
  rw [C54_blocks_partial demo demo_wf demo_perm _ demo_inv ⟨2, fun i => i + 1⟩ [(1, 1), (0, 1)] (by decide)]
  decide +kernel

/-- The same with the permutation named: `L Lᵀ = [[4, 2], [2, 10]]` is `H = [[10, 2], [2, 4]]` with its indices exchanged. -/
example : covPattern demo ⟨2, fun i => i + 1⟩ [(1, 1), (0, 1)] = .ok [[[5/18]], [[-1/18]]] := by
  rw [C54_permuted_blocks_partial demo demo_wf (fun i => 1 - i) (fun i => 1 - i) rfl
    (by
      intro i hi
      have hi' : i < 2 := hi
      have : i = 0 ∨ i = 1 := by omega
      rcases this with rfl | rfl <;> decide)
    (fun i j => if i = 0 ∧ j = 0 then 10 else if i = 1 ∧ j = 1 then 4 else 2) (fun i j => if i = 0 ∧ j = 0 then 1/9 else if i = 1 ∧ j = 1 then 5/18 else -1/18)
    (by
      intro i j hi hj
      have hi' : i < 2 := hi
      have hj' : j < 2 := hj
      have h1 : i = 0 ∨ i = 1 := by omega
      have h2 : j = 0 ∨ j = 1 := by omega
      rcases h1 with rfl | rfl <;> rcases h2 with rfl | rfl <;> decide +kernel)
    (by
      intro i j hi hj
      have hi' : i < 2 := hi
      have hj' : j < 2 := hj
      have h1 : i = 0 ∨ i = 1 := by omega
      have h2 : j = 0 ∨ j = 1 := by omega
      rcases h1 with rfl | rfl <;> rcases h2 with rfl | rfl <;> decide +kernel) ⟨2, fun i => i + 1⟩ [(1, 1), (0, 1)] (by decide)]
  decide +kernel

/-- The entries of the inverse `[[5/18, -1/18], [-1/18, 1/9]]` of `L Lᵀ` from the arrays. -/
example : requests demo [(1, 1), (0, 1)] (fun _ => none) = .ok [1/9, -1/18] := by
  have h := C54_set_factor_partial 2 (by norm_num) demo.Ap demo.Ai demo.Ax demo.perm demo_wf.col demo_wf.first demo_wf.nz demo_wf.below
    (fun i j => if i = 0 ∧ j = 0 then 5/18 else if i = 1 ∧ j = 1 then 1/9 else -1/18) (by
      intro i j hi hj
      have h1 : i = 0 ∨ i = 1 := by omega
      have h2 : j = 0 ∨ j = 1 := by omega
      rcases h1 with rfl | rfl <;> rcases h2 with rfl | rfl <;> decide +kernel) [(1, 1), (0, 1)] (by decide)
  exact h.trans (by simp)

/-- Two diagonal blocks of size one. -/
example : WF demo ∧ PermOK demo ∧ ((0 :: [1, 2]) : List Nat).Pairwise (· ≤ ·) ∧ (∀ e ∈ [1, 2], e ≤ demo.n) ∧
    ∃ out, covDiag demo [1, 2] [fun _ => 0, fun _ => 0] = .ok out ∧ out.length = 2 := by
  have h1 : ((0 :: [1, 2]) : List Nat).Pairwise (· ≤ ·) := by decide
  have h2 : ∀ e ∈ [1, 2], e ≤ demo.n := by decide
  obtain ⟨out, e, hl, -⟩ := C54_diagonal_blocks_partial demo demo_wf demo_perm _ demo_inv [1, 2] h1 h2 [fun _ => 0, fun _ => 0] rfl
  exact ⟨demo_wf, demo_perm, h1, h2, out, e, hl⟩

end Verif.Covariance
