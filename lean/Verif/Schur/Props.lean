import Verif.Schur.Lemmas
import Mathlib.Data.List.TakeWhile
import Mathlib.Tactic.NormNum

/-! C48: the Schur complement and the back-substitution solve the full system. -/
namespace Verif.Schur
open Verif.MatrixStack (DMat)
open Verif.SBM
open Verif.Solver (Square at_zero getD_shape)

variable {R : Type} [CommRing R]

/-- `W` is the inverse of the square matrix `V`. -/
structure IsInverse (V W : DMat R) : Prop where
  rows : W.rows = V.rows
  cols : W.cols = V.rows
  mul : ∀ a b, a < V.rows → b < V.rows → ∑ t ∈ Finset.range V.rows, V.e a t * W.e t b = if a = b then 1 else 0

/-- Block `(r,c)`, zero of the size of the layout if it is not stored. -/
def blk (H : SBM R) (r c : Nat) : DMat R := (H.block r c).getD (H.zeroBlock r c)

/-- The damped diagonal block `(r,r)`. -/
def damped (lm : Bool) (lambda : R) (H : SBM R) (r : Nat) : DMat R := if lm then shift lambda (blk H r r) else blk H r r

/-- Entry of the symmetric matrix whose upper triangle is given. -/
def upper (M : Nat → Nat → R) (i j : Nat) : R := if i ≤ j then M i j else M j i

theorem blk_at (H : SBM R) (r c a b : Nat) : (blk H r c).e a b = H.at r c a b := at_zero H r c a b

theorem damped_e (lm : Bool) (lambda : R) (H : SBM R) (r a b : Nat) : (damped lm lambda H r).e a b = H.at r r a b + if lm = true ∧ a = b then lambda else 0 := by
  unfold damped
  cases lm
  · simp [blk_at]
  · simp only [if_true, true_and, shift]
    split_ifs <;> simp [blk_at]

theorem damped_rows {H : SBM R} (h : Square H) (lm : Bool) (lambda : R) {r : Nat} (hr : r < H.rl.n) : (damped lm lambda H r).rows = H.rl.size r := by
  have := (getD_shape h.wf (r := r) (show r < H.cl.n by rw [h.sq]; exact hr)).1
  unfold damped blk
  cases lm <;> exact this

/-- The product `H(r, c) W H(s, c)ᵀ` of blocks of column `c`. -/
def Q (H : SBM R) (c : Nat) (W : DMat R) (r s a b : Nat) : R :=
  ∑ u ∈ Finset.range (H.rl.size c), (∑ t ∈ Finset.range (H.rl.size c), H.at r c a t * W.e t u) * H.at s c b u

/-- The product `H(r, c) W v`. -/
def P (H : SBM R) (c : Nat) (W : DMat R) (v : Nat → R) (r a : Nat) : R :=
  ∑ u ∈ Finset.range (H.rl.size c), (∑ t ∈ Finset.range (H.rl.size c), H.at r c a t * W.e t u) * v u

/-- The state of the loop after the first `k` passes. -/
structure Inv (G A0 : SBM R) (inv : DMat R → DMat R) (rhs : Nat → R) (lambda : R) (m : Nat) (lm : Bool) (k : Nat) (s : St R) : Prop where
  sqH : Square s.H
  rl : s.H.rl = G.rl
  blk : ∀ r c, blk s.H r c = blk G r c
  sqA : Square s.A
  rlA : s.A.rl = A0.rl
  len : s.invV.length = k
  invV : ∀ i, i < k → s.invV[i]? = some (inv (damped lm lambda G (m + i)))
  A : ∀ r c a b, r ≤ c → c < m → s.A.at r c a b = G.at r c a b - ∑ i ∈ Finset.range k, Q G (m + i) (inv (damped lm lambda G (m + i))) r c a b
  b : ∀ r a, r < m → a < G.rl.size r → s.b (G.rl.base r + a) = rhs (G.rl.base r + a) -
    ∑ i ∈ Finset.range k, P G (m + i) (inv (damped lm lambda G (m + i))) (fun u => rhs (G.rl.base (m + i) + u)) r a

theorem pass_spec (debug : Bool) (G A0 : SBM R) (hG : Square G) (inv : DMat R → DMat R) (rhs : Nat → R) (lambda : R) (m : Nat) (hA0 : A0.rl.n = m) (lm : Bool) (k : Nat) (hk : m + k < G.rl.n)
    (hinv : (inv (damped lm lambda G (m + k))).cols = G.rl.size (m + k)) (s : St R) (hs : Inv G A0 inv rhs lambda m lm k s) :
    ∃ s', pass debug inv rhs lambda m lm s k = .ok s' ∧ Inv G A0 inv rhs lambda m lm (k + 1) s' := by
  have hk' : m + k < s.H.rl.n := by rw [hs.rl]; exact hk
  obtain ⟨H, e1, w1, r1, c1, st1, b1⟩ := upd_spec hs.sqH.wf debug hk' (show m + k < s.H.cl.n by rw [hs.sqH.sq]; exact hk') hs.sqH.own (fun B => B) (fun B h1 h2 => ⟨h1, h2⟩)
  have sqH : Square H := ⟨w1, by rw [c1, r1, hs.sqH.sq], st1⟩
  have rlH : H.rl = G.rl := r1.trans hs.rl
  have hblk : ∀ r c, Schur.blk H r c = Schur.blk G r c := by
    intro r c
    rw [← hs.blk r c]
    have hz : H.zeroBlock r c = s.H.zeroBlock r c := by unfold SBM.zeroBlock; rw [r1, c1]
    unfold Schur.blk
    rw [hz, b1 r c]
    split_ifs with h
    · obtain ⟨h1, h2⟩ := h
      subst h1; subst h2
      cases s.H.block (m + k) (m + k) <;> rfl
    · rfl
  have hat : ∀ r c a b, H.at r c a b = G.at r c a b := by
    intro r c a b
    rw [← blk_at, hblk, blk_at]
  have hV : (if lm = true then shift lambda ((H.block (m + k) (m + k)).getD (H.zeroBlock (m + k) (m + k))) else (H.block (m + k) (m + k)).getD (H.zeroBlock (m + k) (m + k))) =
      damped lm lambda G (m + k) := by
    have : (H.block (m + k) (m + k)).getD (H.zeroBlock (m + k) (m + k)) = Schur.blk G (m + k) (m + k) := hblk _ _
    rw [this]; rfl
  have hkc : m + k < H.cl.n := by rw [sqH.sq, rlH]; exact hk
  have hsorted := sqH.wf.sorted (m + k) hkc
  have hlook : ∀ r a t, r < m → look ((H.col (m + k)).takeWhile fun p => p.1 < m) r a t = G.at r (m + k) a t := by
    intro r a t hr
    rw [look_takeWhile _ hsorted m r a t hr, look_at, hat]
  obtain ⟨A', b', e2, q2, r2, a2, c2⟩ := elimCol_spec debug H.rl w1.rmono m (by rw [rlH]; omega) (inv (damped lm lambda G (m + k))) rhs (H.rl.base (m + k)) (G.rl.size (m + k))
    ((H.col (m + k)).takeWhile fun p => p.1 < m) s.A s.b hs.sqA (by rw [hs.rlA, hA0]) (by
      intro p hp
      have hp1 : p.1 < m := by have := List.mem_takeWhile_imp hp; simpa using this
      have hp2 := w1.shape (m + k) hkc p (List.takeWhile_subset _ hp)
      refine ⟨hp1, hp2.2.1, ?_⟩
      rw [hp2.2.2, sqH.sq, rlH]) (hsorted.sublist (List.takeWhile_sublist _))
  refine ⟨⟨A', b', H, s.invV ++ [inv (damped lm lambda G (m + k))]⟩, ?_, ⟨sqH, rlH, hblk, q2, r2.trans hs.rlA, by simp [hs.len], ?_, ?_, ?_⟩⟩
  · unfold pass
    rw [e1, Res.bind_ok]
    simp only [hV]
    rw [e2, Res.bind_ok]
  · intro i hi
    by_cases hik : i < k
    · rw [List.getElem?_append_left (by rw [hs.len]; exact hik)]
      exact hs.invV i hik
    · have : i = k := by omega
      subst this
      simp [hs.len]
  · intro r c a b hrc hc
    show A'.at r c a b = _
    rw [a2 r c a b hrc, hs.A r c a b hrc hc, Finset.sum_range_succ, sub_sub]
    congr 2
    unfold quad Q
    rw [hinv]
    refine Finset.sum_congr rfl fun u _ => ?_
    rw [hlook c b u hc]
    congr 1
    exact Finset.sum_congr rfl fun t _ => by rw [hlook r a t (by omega)]
  · intro r a hr ha
    show b' _ = _
    have := c2 r a hr (by rw [rlH]; exact ha)
    rw [rlH] at this
    rw [this, hs.b r a hr ha, Finset.sum_range_succ, sub_sub]
    congr 2
    unfold P
    rw [hinv]
    refine Finset.sum_congr rfl fun u _ => ?_
    congr 1
    exact Finset.sum_congr rfl fun t _ => by rw [hlook r a t hr]

theorem damp_spec (debug : Bool) (lambda : R) (A : SBM R) (h : Square A) :
    ∃ A', damp debug lambda A = .ok A' ∧ Square A' ∧ A'.rl = A.rl ∧ ∀ r c a b, r < A.rl.n → A'.at r c a b = A.at r c a b + if r = c ∧ a = b then lambda else 0 := by
  have key : ∀ k, k ≤ A.rl.n → ∃ A', Res.run (fun A i => A.upd debug i i (shift lambda)) A (List.range k) = .ok A' ∧ Square A' ∧ A'.rl = A.rl ∧
      ∀ r c a b, A'.at r c a b = A.at r c a b + if r < k ∧ r = c ∧ a = b then lambda else 0 := by
    intro k
    induction k with
    | zero => intro _; exact ⟨A, rfl, h, rfl, by simp⟩
    | succ k ih =>
      intro hk
      obtain ⟨A1, e1, q1, r1, a1⟩ := ih (by omega)
      obtain ⟨A2, e2, w2, r2, c2, st2, b2⟩ := upd_spec q1.wf debug (r := k) (c := k) (by rw [r1]; omega) (by rw [q1.sq, r1]; omega) q1.own (shift lambda) (fun B h1 h2 => ⟨h1, h2⟩)
      refine ⟨A2, ?_, ⟨w2, by rw [c2, r2, q1.sq], st2⟩, r2.trans r1, ?_⟩
      · rw [List.range_succ, CCM.run_append, e1]
        simp only [Res.bind_ok, Res.run_cons, Res.run_nil, e2]
      · intro r c a b
        have hx := b2 r c
        by_cases hrc : r = k ∧ c = k
        · obtain ⟨h1, h2⟩ := hrc
          subst h1; subst h2
          rw [if_pos ⟨rfl, rfl⟩] at hx
          have h3 : A2.at c c a b = if a = b then A1.at c c a b + lambda else A1.at c c a b := by
            conv_lhs => unfold SBM.at
            rw [hx]
            simp only [shift, at_zero]
          rw [h3, a1]
          by_cases hab : a = b <;> simp [hab]
        · rw [if_neg hrc] at hx
          have h3 : A2.at r c a b = A1.at r c a b := by unfold SBM.at; rw [hx]
          rw [h3, a1]
          congr 1
          by_cases h1 : r = c ∧ a = b
          · have h4 : r ≠ k := fun h => hrc ⟨h, h1.1 ▸ h⟩
            by_cases h5 : r < k
            · rw [if_pos ⟨h5, h1⟩, if_pos ⟨by omega, h1⟩]
            · rw [if_neg (fun h => h5 h.1), if_neg (fun h => by have := h.1; omega)]
          · rw [if_neg (fun h => h1 h.2), if_neg (fun h => h1 h.2)]
  obtain ⟨A', e, q, r1, a1⟩ := key A.rl.n le_rfl
  exact ⟨A', e, q, r1, fun r c a b hr => by rw [a1]; simp [hr]⟩

/-- The inverse of a symmetric matrix is symmetric. -/
theorem inverse_symm {n : Nat} (V W : Nat → Nat → R) (hV : ∀ a b, a < n → b < n → V a b = V b a)
    (h : ∀ a b, a < n → b < n → ∑ t ∈ Finset.range n, V a t * W t b = if a = b then 1 else 0) (a b : Nat) (ha : a < n) (hb : b < n) : W a b = W b a := by
  have h1 : ∑ s ∈ Finset.range n, ∑ t ∈ Finset.range n, W s a * V s t * W t b = W b a := by
    have : ∀ s ∈ Finset.range n, ∑ t ∈ Finset.range n, W s a * V s t * W t b = if s = b then W s a else 0 := by
      intro s hs
      have h2 := h s b (Finset.mem_range.1 hs) hb
      have : ∑ t ∈ Finset.range n, W s a * V s t * W t b = W s a * ∑ t ∈ Finset.range n, V s t * W t b := by
        rw [Finset.mul_sum]; exact Finset.sum_congr rfl fun t _ => by ring
      rw [this, h2]
      split_ifs <;> simp
    rw [Finset.sum_congr rfl this, Finset.sum_ite_eq', if_pos (Finset.mem_range.2 hb)]
  have h2 : ∑ s ∈ Finset.range n, ∑ t ∈ Finset.range n, W s a * V s t * W t b = W a b := by
    rw [Finset.sum_comm]
    have : ∀ t ∈ Finset.range n, ∑ s ∈ Finset.range n, W s a * V s t * W t b = if t = a then W t b else 0 := by
      intro t ht
      have ht' := Finset.mem_range.1 ht
      have h2 := h t a ht' ha
      have : ∑ s ∈ Finset.range n, W s a * V s t * W t b = (∑ s ∈ Finset.range n, V t s * W s a) * W t b := by
        rw [Finset.sum_mul]
        exact Finset.sum_congr rfl fun s hs => by rw [hV s t (Finset.mem_range.1 hs) ht']; ring
      rw [this, h2]
      split_ifs <;> simp
    rw [Finset.sum_congr rfl this, Finset.sum_ite_eq', if_pos (Finset.mem_range.2 ha)]
  rw [← h1, h2]

/-- A dense entry of the symmetric expansion, block by block. -/
theorem upper_at {H : SBM R} (h : Square H) {r c a b : Nat} (hr : r < H.rl.n) (hc : c < H.rl.n) (ha : a < H.rl.size r) (hb : b < H.rl.size c) :
    upper H.toDense.e (H.rl.base r + a) (H.rl.base c + b) =
      if r < c then H.at r c a b else if c < r then H.at c r b a else if a ≤ b then H.at r r a b else H.at r r b a := by
  have hd : ∀ r c a b, r < H.rl.n → c < H.rl.n → a < H.rl.size r → b < H.rl.size c → H.toDense.e (H.rl.base r + a) (H.rl.base c + b) = H.at r c a b := by
    intro r c a b hr hc ha hb
    have := toDense_at h.wf (r := r) (c := c) (a := a) (b := b) hr (by rw [h.sq]; exact hc) ha (by rw [h.sq]; exact hb)
    rw [h.sq] at this
    exact this
  have hlt : ∀ r c a b, r < c → c < H.rl.n → a < H.rl.size r → H.rl.base r + a < H.rl.base c + b := by
    intro r c a b hrc hc ha
    have h1 := Layout.base_add_size h.wf.rmono (show r < H.rl.n by omega)
    have h2 := Layout.base_le h.wf.rmono (show r + 1 ≤ c by omega) (by omega)
    omega
  unfold upper
  rcases Nat.lt_trichotomy r c with hrc | hrc | hrc
  · rw [if_pos hrc, if_pos (by have := hlt r c a b hrc hc ha; omega), hd r c a b hr hc ha hb]
  · subst hrc
    rw [if_neg (lt_irrefl r), if_neg (lt_irrefl r)]
    by_cases hab : a ≤ b
    · rw [if_pos hab, if_pos (by omega), hd r r a b hr hc ha hb]
    · rw [if_neg hab, if_neg (by omega), hd r r b a hr hc hb ha]
  · have := hlt c r b a hrc hr hb
    rw [if_neg (show ¬ r < c by omega), if_pos hrc, if_neg (show ¬ H.rl.base r + a ≤ H.rl.base c + b by omega), hd c r b a hc hr hb ha]

/-- What the Schur complement needs of the system: the upper block triangle of a symmetric matrix whose marginalised blocks `m, …, m+p-1` are not coupled with each other, and an `inv` that inverts
the (damped) marginalised diagonal blocks. -/
structure Legal (H A : SBM R) (m p : Nat) (inv : DMat R → DMat R) (lambda : R) (lm : Bool) : Prop where
  sqH : Square H
  sqA : Square A
  pre : Prefix A H m
  n : H.rl.n = m + p
  dec : ∀ r c, m ≤ r → r < c → c < m + p → ∀ a b, a < H.rl.size r → b < H.rl.size c → H.at r c a b = 0
  symm : ∀ r a b, r < m + p → a < H.rl.size r → b < H.rl.size r → H.at r r a b = H.at r r b a
  inv : ∀ i, i < p → IsInverse (damped lm lambda H (m + i)) (inv (damped lm lambda H (m + i)))

/-- What `applySchurComplement` computes: the statement of C48, and how the product of step and right-hand side of the full system is related to that of the reduced one. -/
theorem schur_full (debug : Bool) (inv : DMat R → DMat R) (H A : SBM R) (rhs : Nat → R) (lambda : R) (m p : Nat) (lm : Bool) (hl : Legal H A m p inv lambda lm) :
    ∃ s, applySchur debug inv H rhs lambda m lm A p = .ok s ∧ s.invV.length = p ∧ (∀ i, i < p → s.invV[i]? = some (inv (damped lm lambda H (m + i)))) ∧ s.H.rl = H.rl ∧
      (∀ i j, i < H.rl.total → j < H.rl.total → s.H.toDense.e i j = H.toDense.e i j) ∧
      (∀ i W (z z' : Nat → R), i < p → (∀ j, j < H.rl.base m → z j = z' j) → ∀ a, buildDsi s.H rhs m i W z a = buildDsi s.H rhs m i W z' a) ∧
      ∀ z : Nat → R,
        ((∀ i, i < H.rl.total → ∑ j ∈ Finset.range H.rl.total, (upper H.toDense.e i j + if lm = true ∧ i = j then lambda else 0) * z j = rhs i) ↔
        ((∀ i, i < H.rl.base m → ∑ j ∈ Finset.range (H.rl.base m), upper s.A.toDense.e i j * z j = s.b i) ∧
          ∀ i a W, s.invV[i]? = some W → a < H.rl.size (m + i) → z (H.rl.base (m + i) + a) = buildDsi s.H rhs m i W z a)) ∧
        ((∀ i a W, s.invV[i]? = some W → a < H.rl.size (m + i) → z (H.rl.base (m + i) + a) = buildDsi s.H rhs m i W z a) →
          ∑ j ∈ Finset.range H.rl.total, z j * rhs j = ∑ j ∈ Finset.range (H.rl.base m), z j * s.b j +
            ∑ i ∈ Finset.range p, ∑ a ∈ Finset.range (H.rl.size (m + i)), ∑ t ∈ Finset.range (H.rl.size (m + i)),
              rhs (H.rl.base (m + i) + a) * ((s.invV.getD i ⟨0, 0, fun _ _ => 0⟩).e a t * rhs (H.rl.base (m + i) + t))) := by
  have mono := hl.sqH.wf.rmono
  have hcols : ∀ i, i < p → (inv (damped lm lambda H (m + i))).cols = H.rl.size (m + i) := by
    intro i hi
    rw [(hl.inv i hi).cols, damped_rows hl.sqH lm lambda (by rw [hl.n]; omega)]
  -- the loops
  obtain ⟨A0, e0, q0, r0, a0⟩ := sliceInto_spec debug H A hl.sqH hl.sqA m hl.pre
  have hloop : ∀ k, k ≤ p → ∃ s, Res.run (pass debug inv rhs lambda m lm) ⟨A0, rhs, H, []⟩ (List.range k) = .ok s ∧ Inv H A0 inv rhs lambda m lm k s := by
    intro k
    induction k with
    | zero =>
      intro _
      refine ⟨_, rfl, ⟨hl.sqH, rfl, fun _ _ => rfl, q0, rfl, rfl, by simp, ?_, by simp⟩⟩
      intro r c a b hrc hc
      simp [a0 r c a b (by omega) hc]
    | succ k ih =>
      intro hk
      obtain ⟨s, e, hs⟩ := ih (by omega)
      obtain ⟨s', e', hs'⟩ := pass_spec debug H A0 hl.sqH inv rhs lambda m (by rw [r0, hl.pre.n]) lm k (by rw [hl.n]; omega) (hcols k (by omega)) s hs
      refine ⟨s', ?_, hs'⟩
      rw [List.range_succ, CCM.run_append, e]
      show Res.run _ s [k] = _
      simp only [Res.run_cons, Res.run_nil, e', Res.bind_ok]
  obtain ⟨s, es, hs⟩ := hloop p le_rfl
  have hAn : s.A.rl.n = m := by rw [hs.rlA, r0, hl.pre.n]
  obtain ⟨A', eA, qA, rA, aA⟩ : ∃ A', (if lm then damp debug lambda s.A >>= fun A => .ok { s with A := A } else .ok s) = .ok { s with A := A' } ∧ Square A' ∧ A'.rl = s.A.rl ∧
      ∀ r c a b, r < m → A'.at r c a b = s.A.at r c a b + if lm = true ∧ r = c ∧ a = b then lambda else 0 := by
    cases lm with
    | false => exact ⟨s.A, rfl, hs.sqA, rfl, by simp⟩
    | true =>
      obtain ⟨A', e, q, r1, a1⟩ := damp_spec debug lambda s.A hs.sqA
      refine ⟨A', ?_, q, r1, ?_⟩
      · rw [if_pos rfl, e, Res.bind_ok]
      · intro r c a b hr
        rw [a1 r c a b (by rw [hAn]; exact hr)]
        simp
  refine ⟨{ s with A := A' }, ?_, hs.len, hs.invV, hs.rl, ?_, ?_, ?_⟩
  · unfold applySchur
    rw [e0, Res.bind_ok]
    have hc : A0.rl.n = m ∧ A0.cl.n = m := ⟨by rw [r0, hl.pre.n], by rw [q0.sq, r0, hl.pre.n]⟩
    rw [if_neg (by rintro ⟨-, h | h⟩; exacts [h hc.1, h hc.2]), es, Res.bind_ok, eA]
  · intro i j hi hj
    obtain ⟨r, hr, a, ha, rfl⟩ := Layout.locate mono hi
    obtain ⟨c, hc, b, hb, rfl⟩ := Layout.locate mono hj
    have h1 := toDense_at hl.sqH.wf hr (show c < H.cl.n by rw [hl.sqH.sq]; exact hc) ha (show b < H.cl.size c by rw [hl.sqH.sq]; exact hb)
    have h2 := toDense_at hs.sqH.wf (show r < s.H.rl.n by rw [hs.rl]; exact hr) (show c < s.H.cl.n by rw [hs.sqH.sq, hs.rl]; exact hc) (show a < s.H.rl.size r by rw [hs.rl]; exact ha)
      (show b < s.H.cl.size c by rw [hs.sqH.sq, hs.rl]; exact hb)
    rw [hl.sqH.sq] at h1
    rw [hs.sqH.sq, hs.rl] at h2
    show s.H.toDense.e _ _ = _
    rw [h1, h2, ← blk_at, hs.blk, blk_at]
  · intro i V z z' hi hzz a
    unfold buildDsi
    refine Finset.sum_congr rfl fun t _ => ?_
    congr 1
    have hcn : m + i < s.H.rl.n := by rw [hs.rl, hl.n]; omega
    have hshape : ∀ q ∈ (s.H.col (m + i)).takeWhile fun p => decide (p.1 < m), q.1 < m ∧ q.2.rows = s.H.rl.size q.1 := by
      intro q hq
      have h1 := List.mem_takeWhile_imp hq
      have h2 := hs.sqH.wf.shape (m + i) (by rw [hs.sqH.sq]; exact hcn) q (List.takeWhile_sublist _ |>.subset hq)
      exact ⟨of_decide_eq_true h1, h2.2.1⟩
    have hsort := (hs.sqH.wf.sorted (m + i) (by rw [hs.sqH.sq]; exact hcn)).sublist (List.takeWhile_sublist fun p => decide (p.1 < m))
    rw [dsiLoop_spec _ z m _ hshape hsort, dsiLoop_spec _ z' m _ hshape hsort]
    congr 1
    refine Finset.sum_congr rfl fun r hr => Finset.sum_congr rfl fun u hu => ?_
    have hr' := Finset.mem_range.1 hr
    have hu' := Finset.mem_range.1 hu
    congr 1
    refine hzz _ ?_
    rw [hs.rl] at hu' ⊢
    have h1 := Layout.base_add_size mono (show r < H.rl.n by rw [hl.n]; omega)
    have h2 := Layout.base_le mono (show r + 1 ≤ m by omega) (by rw [hl.n]; omega)
    omega
  · intro z
    -- notation
    set W : Nat → DMat R := fun i => inv (damped lm lambda H (m + i)) with hWdef
    set sz : Nat → Nat := fun i => H.rl.size (m + i) with hsz
    have hWmul : ∀ i, i < p → ∀ a b, a < sz i → b < sz i → ∑ t ∈ Finset.range (sz i), (damped lm lambda H (m + i)).e a t * (W i).e t b = if a = b then 1 else 0 := by
      intro i hi a b ha hb
      have hr := damped_rows hl.sqH lm lambda (r := m + i) (by rw [hl.n]; omega)
      have := (hl.inv i hi).mul a b (by rw [hr]; exact ha) (by rw [hr]; exact hb)
      rw [hr] at this
      exact this
    have hVs : ∀ i, i < p → ∀ a b, a < sz i → b < sz i → (damped lm lambda H (m + i)).e a b = (damped lm lambda H (m + i)).e b a := by
      intro i hi a b ha hb
      rw [damped_e, damped_e, hl.symm (m + i) a b (by omega) ha hb]
      congr 2
      simp [eq_comm]
    have hWs : ∀ i, i < p → ∀ a b, a < sz i → b < sz i → (W i).e a b = (W i).e b a := fun i hi a b ha hb => inverse_symm _ _ (hVs i hi) (hWmul i hi) a b ha hb
    have hWl : ∀ i, i < p → ∀ a b, a < sz i → b < sz i → ∑ t ∈ Finset.range (sz i), (W i).e a t * (damped lm lambda H (m + i)).e t b = if a = b then 1 else 0 := by
      intro i hi a b ha hb
      have : (if a = b then (1 : R) else 0) = if b = a then 1 else 0 := by simp [eq_comm]
      rw [this, ← hWmul i hi b a hb ha]
      refine Finset.sum_congr rfl fun t ht => ?_
      have ht' := Finset.mem_range.1 ht
      rw [hWs i hi a t ha ht', hVs i hi t b ht' hb, mul_comm]
    have hQs : ∀ i, i < p → ∀ r c a b, Q H (m + i) (W i) r c a b = Q H (m + i) (W i) c r b a := by
      intro i hi r c a b
      unfold Q
      simp only [Finset.sum_mul]
      rw [Finset.sum_comm]
      refine Finset.sum_congr rfl fun u hu => Finset.sum_congr rfl fun t ht => ?_
      rw [hWs i hi u t (Finset.mem_range.1 hu) (Finset.mem_range.1 ht)]
      ring
    -- the symmetric system, block by block
    set S : Nat → Nat → Nat → Nat → R := fun r c a b => if r < c then H.at r c a b else if c < r then H.at c r b a else H.at r r a b with hS
    have hupH : ∀ r c a b, r < m + p → c < m + p → a < H.rl.size r → b < H.rl.size c → upper H.toDense.e (H.rl.base r + a) (H.rl.base c + b) = S r c a b := by
      intro r c a b hr hc ha hb
      rw [upper_at hl.sqH (by rw [hl.n]; exact hr) (by rw [hl.n]; exact hc) ha hb]
      simp only [hS]
      split_ifs with h1 h2 h3
      · rfl
      · rfl
      · rfl
      · have : r = c := by omega
        subst this
        exact hl.symm r b a hr hb ha
    have hbaseA : ∀ r, r ≤ m → A'.rl.base r = H.rl.base r := by
      intro r hr
      rw [rA, hs.rlA, r0]
      exact hl.pre.base hr
    have hsizeA : ∀ r, r < m → A'.rl.size r = H.rl.size r := by
      intro r hr
      rw [rA, hs.rlA, r0]
      exact hl.pre.size hr
    have hAn' : A'.rl.n = m := by rw [rA, hAn]
    have hupA : ∀ r c a b, r < m → c < m → a < H.rl.size r → b < H.rl.size c → upper A'.toDense.e (H.rl.base r + a) (H.rl.base c + b) =
        S r c a b + (if lm = true ∧ r = c ∧ a = b then lambda else 0) - ∑ i ∈ Finset.range p, Q H (m + i) (W i) r c a b := by
      intro r c a b hr hc ha hb
      have hu := upper_at qA (r := r) (c := c) (a := a) (b := b) (by omega) (by omega) (by rw [hsizeA r hr]; exact ha) (by rw [hsizeA c hc]; exact hb)
      rw [hbaseA r (by omega), hbaseA c (by omega)] at hu
      rw [hu]
      have hswap : ∀ r c a b, ∑ i ∈ Finset.range p, Q H (m + i) (W i) r c a b = ∑ i ∈ Finset.range p, Q H (m + i) (W i) c r b a :=
        fun r c a b => Finset.sum_congr rfl fun i hi => hQs i (Finset.mem_range.1 hi) r c a b
      simp only [hS]
      rcases Nat.lt_trichotomy r c with h1 | h1 | h1
      · rw [if_pos h1, if_pos h1, aA r c a b hr, hs.A r c a b (by omega) hc]; ring
      · subst h1
        simp only [lt_irrefl, if_false]
        by_cases h2 : a ≤ b
        · rw [if_pos h2, aA r r a b hr, hs.A r r a b le_rfl hr]
          simp only [hWdef, true_and]
          ring
        · rw [if_neg h2, aA r r b a hr, hs.A r r b a le_rfl hr, if_neg (by rintro ⟨-, -, h⟩; omega), if_neg (by rintro ⟨-, -, h⟩; omega), hl.symm r b a (by omega) hb ha, hswap r r a b]; ring
      · have h2 : ¬ r < c := by omega
        rw [if_neg h2, if_pos h1, if_neg h2, if_pos h1, aA c r b a hc, hs.A c r b a (by omega) hr, if_neg (by rintro ⟨-, h, -⟩; omega), if_neg (by rintro ⟨-, h, -⟩; omega), hswap r c a b]; ring
    -- the right-hand side of the marginalised rows
    set y : Nat → Nat → R := fun i t => rhs (H.rl.base (m + i) + t) - ∑ c ∈ Finset.range m, ∑ b ∈ Finset.range (H.rl.size c), H.at c (m + i) b t * z (H.rl.base c + b) with hy
    have hdsi : ∀ i, i < p → ∀ a, buildDsi s.H rhs m i (W i) z a = ∑ t ∈ Finset.range (sz i), (W i).e a t * y i t := by
      intro i hi a
      unfold buildDsi
      rw [hcols i hi]
      refine Finset.sum_congr rfl fun t _ => ?_
      congr 1
      have hic : m + i < s.H.cl.n := by rw [hs.sqH.sq, hs.rl, hl.n]; omega
      have hsorted := hs.sqH.wf.sorted (m + i) hic
      rw [dsiLoop_spec s.H.rl z m _ (by
        intro q hq
        have hq1 : q.1 < m := by have := List.mem_takeWhile_imp hq; simpa using this
        exact ⟨hq1, (hs.sqH.wf.shape (m + i) hic q (List.takeWhile_subset _ hq)).2.1⟩) (hsorted.sublist (List.takeWhile_sublist _))]
      rw [hs.rl]
      congr 1
      refine Finset.sum_congr rfl fun r hr => Finset.sum_congr rfl fun b _ => ?_
      rw [look_takeWhile _ hsorted m r b t (Finset.mem_range.1 hr), look_at, ← blk_at, hs.blk, blk_at]
    -- rows of the full system
    have hfull : ∀ r a, r < m + p → a < H.rl.size r → ∑ j ∈ Finset.range H.rl.total, (upper H.toDense.e (H.rl.base r + a) j + if lm = true ∧ H.rl.base r + a = j then lambda else 0) * z j =
        (∑ c ∈ Finset.range m, ∑ b ∈ Finset.range (H.rl.size c), (S r c a b + if lm = true ∧ r = c ∧ a = b then lambda else 0) * z (H.rl.base c + b)) +
        ∑ i ∈ Finset.range p, ∑ b ∈ Finset.range (sz i), (S r (m + i) a b + if lm = true ∧ r = m + i ∧ a = b then lambda else 0) * z (H.rl.base (m + i) + b) := by
      intro r a hr ha
      rw [Layout.sum_blocks mono, hl.n, Finset.sum_range_add]
      have hterm : ∀ c, c < m + p → ∀ b ∈ Finset.range (H.rl.size c), (upper H.toDense.e (H.rl.base r + a) (H.rl.base c + b) + if lm = true ∧ H.rl.base r + a = H.rl.base c + b then lambda else 0) * z (H.rl.base c + b) =
          (S r c a b + if lm = true ∧ r = c ∧ a = b then lambda else 0) * z (H.rl.base c + b) := by
        intro c hc b hb
        have hb' := Finset.mem_range.1 hb
        rw [hupH r c a b hr hc ha hb']
        have hiff : (H.rl.base r + a = H.rl.base c + b) ↔ (r = c ∧ a = b) := by
          constructor
          · intro he
            have := Layout.unique mono (r := r) (s := c) (i := H.rl.base r + a) (by rw [hl.n]; exact hr) (by rw [hl.n]; exact hc) (by omega) (by omega) (by omega) (by omega)
            subst this
            exact ⟨rfl, by omega⟩
          · rintro ⟨rfl, rfl⟩; rfl
        simp only [hiff]
      congr 1
      · exact Finset.sum_congr rfl fun c hc => Finset.sum_congr rfl (hterm c (by have := Finset.mem_range.1 hc; omega))
      · exact Finset.sum_congr rfl fun i hi => Finset.sum_congr rfl (hterm (m + i) (by have := Finset.mem_range.1 hi; omega))
    -- rows of the reduced system
    have hred : ∀ r a, r < m → a < H.rl.size r → ∑ j ∈ Finset.range (H.rl.base m), upper A'.toDense.e (H.rl.base r + a) j * z j =
        (∑ c ∈ Finset.range m, ∑ b ∈ Finset.range (H.rl.size c), (S r c a b + if lm = true ∧ r = c ∧ a = b then lambda else 0) * z (H.rl.base c + b)) -
        ∑ i ∈ Finset.range p, ∑ c ∈ Finset.range m, ∑ b ∈ Finset.range (H.rl.size c), Q H (m + i) (W i) r c a b * z (H.rl.base c + b) := by
      intro r a hr ha
      have htot : H.rl.base m = A'.rl.total := by rw [Layout.total_eq, hAn', hbaseA m le_rfl]
      rw [htot, Layout.sum_blocks qA.wf.rmono, hAn']
      rw [Finset.sum_comm, ← Finset.sum_sub_distrib]
      refine Finset.sum_congr rfl fun c hc => ?_
      have hc' := Finset.mem_range.1 hc
      rw [hsizeA c hc', hbaseA c (by omega), Finset.sum_comm, ← Finset.sum_sub_distrib]
      refine Finset.sum_congr rfl fun b hb => ?_
      rw [hupA r c a b hr hc' ha (Finset.mem_range.1 hb), sub_mul, Finset.sum_mul]
    -- the coupling term if the marginalised part is the back-substitution
    have hcoup : ∀ i, i < p → (∀ a, a < sz i → z (H.rl.base (m + i) + a) = ∑ t ∈ Finset.range (sz i), (W i).e a t * y i t) → ∀ r a,
        ∑ b ∈ Finset.range (sz i), H.at r (m + i) a b * z (H.rl.base (m + i) + b) =
          P H (m + i) (W i) (fun u => rhs (H.rl.base (m + i) + u)) r a - ∑ c ∈ Finset.range m, ∑ b ∈ Finset.range (H.rl.size c), Q H (m + i) (W i) r c a b * z (H.rl.base c + b) := by
      intro i hi hz r a
      have h1 : ∑ b ∈ Finset.range (sz i), H.at r (m + i) a b * z (H.rl.base (m + i) + b) = ∑ u ∈ Finset.range (sz i), (∑ t ∈ Finset.range (sz i), H.at r (m + i) a t * (W i).e t u) * y i u := by
        simp only [Finset.sum_mul]
        rw [Finset.sum_comm]
        refine Finset.sum_congr rfl fun b hb => ?_
        rw [hz b (Finset.mem_range.1 hb), Finset.mul_sum]
        exact Finset.sum_congr rfl fun t _ => by ring
      rw [h1]
      simp only [hy, mul_sub, Finset.sum_sub_distrib]
      congr 1
      simp only [Finset.mul_sum]
      rw [Finset.sum_comm]
      refine Finset.sum_congr rfl fun c _ => ?_
      rw [Finset.sum_comm]
      refine Finset.sum_congr rfl fun b _ => ?_
      unfold Q
      rw [Finset.sum_mul]
      exact Finset.sum_congr rfl fun u _ => by ring
    -- a marginalised row of the full system
    have hrowm : ∀ i, i < p → ∀ a, a < sz i → (∑ j ∈ Finset.range H.rl.total, (upper H.toDense.e (H.rl.base (m + i) + a) j + if lm = true ∧ H.rl.base (m + i) + a = j then lambda else 0) * z j =
        rhs (H.rl.base (m + i) + a) ↔ ∑ b ∈ Finset.range (sz i), (damped lm lambda H (m + i)).e a b * z (H.rl.base (m + i) + b) = y i a) := by
      intro i hi a ha
      rw [hfull (m + i) a (by omega) ha]
      have h1 : ∑ c ∈ Finset.range m, ∑ b ∈ Finset.range (H.rl.size c), (S (m + i) c a b + if lm = true ∧ m + i = c ∧ a = b then lambda else 0) * z (H.rl.base c + b) =
          ∑ c ∈ Finset.range m, ∑ b ∈ Finset.range (H.rl.size c), H.at c (m + i) b a * z (H.rl.base c + b) := by
        refine Finset.sum_congr rfl fun c hc => Finset.sum_congr rfl fun b _ => ?_
        have hc' := Finset.mem_range.1 hc
        simp only [hS]
        rw [if_neg (by omega), if_pos (by omega), if_neg (by omega), add_zero]
      have h2 : ∑ i' ∈ Finset.range p, ∑ b ∈ Finset.range (sz i'), (S (m + i) (m + i') a b + if lm = true ∧ m + i = m + i' ∧ a = b then lambda else 0) * z (H.rl.base (m + i') + b) =
          ∑ b ∈ Finset.range (sz i), (damped lm lambda H (m + i)).e a b * z (H.rl.base (m + i) + b) := by
        rw [Finset.sum_eq_single i]
        · refine Finset.sum_congr rfl fun b _ => ?_
          rw [damped_e]
          simp only [hS, lt_irrefl, if_false, true_and]
        · intro i' hi' hne
          have hi'' := Finset.mem_range.1 hi'
          refine Finset.sum_eq_zero fun b hb => ?_
          have hb' := Finset.mem_range.1 hb
          have h0 : S (m + i) (m + i') a b = 0 := by
            simp only [hS]
            split_ifs with h3 h4
            · exact hl.dec _ _ (by omega) h3 (by omega) a b ha hb'
            · exact hl.dec _ _ (by omega) h4 (by omega) b a hb' ha
            · omega
          rw [h0, if_neg (by omega)]
          ring
        · intro h; exact absurd (Finset.mem_range.2 hi) h
      rw [h1, h2]
      simp only [hy]
      constructor
      · intro h; rw [← h]; ring
      · intro h; rw [h]; ring
    have hrow : ∀ r a, r < m → a < H.rl.size r → (∀ i, i < p → ∀ a, a < sz i → z (H.rl.base (m + i) + a) = ∑ t ∈ Finset.range (sz i), (W i).e a t * y i t) →
        ((∑ j ∈ Finset.range H.rl.total, (upper H.toDense.e (H.rl.base r + a) j + if lm = true ∧ H.rl.base r + a = j then lambda else 0) * z j = rhs (H.rl.base r + a)) ↔
          (∑ j ∈ Finset.range (H.rl.base m), upper A'.toDense.e (H.rl.base r + a) j * z j = s.b (H.rl.base r + a))) := by
      intro r a hr ha hz
      rw [hfull r a (by omega) ha, hred r a hr ha, hs.b r a hr ha]
      have h1 : ∑ i ∈ Finset.range p, ∑ b ∈ Finset.range (sz i), (S r (m + i) a b + if lm = true ∧ r = m + i ∧ a = b then lambda else 0) * z (H.rl.base (m + i) + b) =
          ∑ i ∈ Finset.range p, P H (m + i) (W i) (fun u => rhs (H.rl.base (m + i) + u)) r a -
          ∑ i ∈ Finset.range p, ∑ c ∈ Finset.range m, ∑ b ∈ Finset.range (H.rl.size c), Q H (m + i) (W i) r c a b * z (H.rl.base c + b) := by
        rw [← Finset.sum_sub_distrib]
        refine Finset.sum_congr rfl fun i hi => ?_
        have hi' := Finset.mem_range.1 hi
        rw [← hcoup i hi' (hz i hi') r a]
        refine Finset.sum_congr rfl fun b _ => ?_
        simp only [hS]
        rw [if_pos (by omega), if_neg (by omega), add_zero]
      rw [h1]
      constructor
      · intro h; linear_combination h
      · intro h; linear_combination h
    have hlocm : ∀ i, i < H.rl.base m → ∃ r, r < m ∧ ∃ a, a < H.rl.size r ∧ i = H.rl.base r + a := by
      intro i hi
      have htot : H.rl.base m = A'.rl.total := by rw [Layout.total_eq, hAn', hbaseA m le_rfl]
      rw [htot] at hi
      obtain ⟨r, hr, a, ha, e⟩ := Layout.locate qA.wf.rmono hi
      rw [hAn'] at hr
      rw [hsizeA r hr] at ha
      rw [hbaseA r (by omega)] at e
      exact ⟨r, hr, a, ha, e⟩
    have hlt : ∀ r a, r < m + p → a < H.rl.size r → H.rl.base r + a < H.rl.total := by
      intro r a hr ha
      have := Layout.base_add_size_le_total mono (show r < H.rl.n by rw [hl.n]; exact hr)
      omega
    refine ⟨?_, ?_⟩
    constructor
    · intro hz
      have hback : ∀ i, i < p → ∀ a, a < sz i → z (H.rl.base (m + i) + a) = ∑ t ∈ Finset.range (sz i), (W i).e a t * y i t := by
        intro i hi a ha
        have h1 : ∀ t ∈ Finset.range (sz i), (W i).e a t * y i t = ∑ b ∈ Finset.range (sz i), (W i).e a t * (damped lm lambda H (m + i)).e t b * z (H.rl.base (m + i) + b) := by
          intro t ht
          have ht' := Finset.mem_range.1 ht
          rw [← (hrowm i hi t ht').1 (hz _ (hlt (m + i) t (by omega) ht')), Finset.mul_sum]
          exact Finset.sum_congr rfl fun b _ => by ring
        rw [Finset.sum_congr rfl h1, Finset.sum_comm]
        have h2 : ∀ b ∈ Finset.range (sz i), ∑ t ∈ Finset.range (sz i), (W i).e a t * (damped lm lambda H (m + i)).e t b * z (H.rl.base (m + i) + b) = if a = b then z (H.rl.base (m + i) + b) else 0 := by
          intro b hb
          rw [← Finset.sum_mul, hWl i hi a b ha (Finset.mem_range.1 hb)]
          split_ifs <;> simp
        rw [Finset.sum_congr rfl h2, Finset.sum_ite_eq, if_pos (Finset.mem_range.2 ha)]
      refine ⟨?_, ?_⟩
      · intro i hi
        obtain ⟨r, hr, a, ha, rfl⟩ := hlocm i hi
        exact (hrow r a hr ha hback).1 (hz _ (hlt r a (by omega) ha))
      · intro i a W' hW' ha
        have hi : i < p := by
          rw [← hs.len]
          exact (List.getElem?_eq_some_iff.1 hW').1
        have := hs.invV i hi
        have hW'' : s.invV[i]? = some W' := hW'
        rw [this] at hW''
        cases hW''
        exact (hback i hi a ha).trans (hdsi i hi a).symm
    · rintro ⟨hz1, hz2⟩
      have hback : ∀ i, i < p → ∀ a, a < sz i → z (H.rl.base (m + i) + a) = ∑ t ∈ Finset.range (sz i), (W i).e a t * y i t := by
        intro i hi a ha
        rw [← hdsi i hi a]
        exact hz2 i a (W i) (hs.invV i hi) ha
      intro i hi
      obtain ⟨r, hr, a, ha, rfl⟩ := Layout.locate mono hi
      rw [hl.n] at hr
      by_cases hrm : r < m
      · have hlt' : H.rl.base r + a < H.rl.base m := by
          have h1 := Layout.base_add_size mono (show r < H.rl.n by rw [hl.n]; exact hr)
          have h2 := Layout.base_le mono (show r + 1 ≤ m by omega) (by rw [hl.n]; omega)
          omega
        exact (hrow r a hrm ha hback).2 (hz1 _ hlt')
      · obtain ⟨i, rfl⟩ : ∃ i, r = m + i := ⟨r - m, by omega⟩
        have hi' : i < p := by omega
        refine (hrowm i hi' a ha).2 ?_
        have h1 : ∀ b ∈ Finset.range (sz i), (damped lm lambda H (m + i)).e a b * z (H.rl.base (m + i) + b) = ∑ t ∈ Finset.range (sz i), (damped lm lambda H (m + i)).e a b * (W i).e b t * y i t := by
          intro b hb
          rw [hback i hi' b (Finset.mem_range.1 hb), Finset.mul_sum]
          exact Finset.sum_congr rfl fun t _ => by ring
        rw [Finset.sum_congr rfl h1, Finset.sum_comm]
        have h2 : ∀ t ∈ Finset.range (sz i), ∑ b ∈ Finset.range (sz i), (damped lm lambda H (m + i)).e a b * (W i).e b t * y i t = if a = t then y i t else 0 := by
          intro t ht
          rw [← Finset.sum_mul, hWmul i hi' a t ha (Finset.mem_range.1 ht)]
          split_ifs <;> simp
        rw [Finset.sum_congr rfl h2, Finset.sum_ite_eq, if_pos (Finset.mem_range.2 ha)]
    · intro hz2
      have hback : ∀ i, i < p → ∀ a, a < sz i → z (H.rl.base (m + i) + a) = ∑ t ∈ Finset.range (sz i), (W i).e a t * y i t := by
        intro i hi a ha
        rw [← hdsi i hi a]
        exact hz2 i a (W i) (hs.invV i hi) ha
      have hget : ∀ i, i < p → s.invV.getD i ⟨0, 0, fun _ _ => 0⟩ = W i := by
        intro i hi
        rw [List.getD_eq_getElem?_getD, hs.invV i hi]
        rfl
      have htot : H.rl.base m = A'.rl.total := by rw [Layout.total_eq, hAn', hbaseA m le_rfl]
      have hb : ∑ j ∈ Finset.range (H.rl.base m), z j * s.b j = ∑ r ∈ Finset.range m, ∑ a ∈ Finset.range (H.rl.size r), z (H.rl.base r + a) * rhs (H.rl.base r + a) -
          ∑ i ∈ Finset.range p, ∑ r ∈ Finset.range m, ∑ a ∈ Finset.range (H.rl.size r), z (H.rl.base r + a) * P H (m + i) (W i) (fun u => rhs (H.rl.base (m + i) + u)) r a := by
        rw [htot, Layout.sum_blocks qA.wf.rmono, hAn', Finset.sum_comm (s := Finset.range p), ← Finset.sum_sub_distrib]
        refine Finset.sum_congr rfl fun r hr => ?_
        have hr' := Finset.mem_range.1 hr
        rw [hsizeA r hr', hbaseA r (by omega), Finset.sum_comm, ← Finset.sum_sub_distrib]
        refine Finset.sum_congr rfl fun a ha => ?_
        rw [hs.b r a hr' (Finset.mem_range.1 ha), mul_sub, Finset.mul_sum]
      show _ = ∑ j ∈ Finset.range (H.rl.base m), z j * s.b j + _
      rw [Layout.sum_blocks mono, hl.n, Finset.sum_range_add, hb, sub_add_eq_add_sub, add_sub_assoc, ← Finset.sum_sub_distrib]
      congr 1
      refine Finset.sum_congr rfl fun i hi => ?_
      have hi' := Finset.mem_range.1 hi
      show _ = ∑ a ∈ Finset.range (sz i), ∑ t ∈ Finset.range (sz i), rhs (H.rl.base (m + i) + a) * ((s.invV.getD i ⟨0, 0, fun _ _ => 0⟩).e a t * rhs (H.rl.base (m + i) + t)) - _
      rw [hget i hi']
      have h1 : ∀ a ∈ Finset.range (sz i), z (H.rl.base (m + i) + a) * rhs (H.rl.base (m + i) + a) =
          ∑ t ∈ Finset.range (sz i), rhs (H.rl.base (m + i) + a) * ((W i).e a t * rhs (H.rl.base (m + i) + t)) -
          ∑ t ∈ Finset.range (sz i), rhs (H.rl.base (m + i) + a) * ((W i).e a t * ∑ c ∈ Finset.range m, ∑ b ∈ Finset.range (H.rl.size c), H.at c (m + i) b t * z (H.rl.base c + b)) := by
        intro a ha
        rw [hback i hi' a (Finset.mem_range.1 ha), Finset.sum_mul, ← Finset.sum_sub_distrib]
        refine Finset.sum_congr rfl fun t _ => ?_
        simp only [hy]
        ring
      rw [Finset.sum_congr rfl h1, Finset.sum_sub_distrib]
      congr 1
      -- both sides are g W Bᵀ x
      have h2 : ∀ r ∈ Finset.range m, ∀ b ∈ Finset.range (H.rl.size r), z (H.rl.base r + b) * P H (m + i) (W i) (fun u => rhs (H.rl.base (m + i) + u)) r b =
          ∑ a ∈ Finset.range (sz i), ∑ t ∈ Finset.range (sz i), rhs (H.rl.base (m + i) + a) * ((W i).e a t * (H.at r (m + i) b t * z (H.rl.base r + b))) := by
        intro r _ b _
        unfold P
        rw [Finset.mul_sum]
        refine Finset.sum_congr rfl fun a ha => ?_
        rw [Finset.sum_mul, Finset.mul_sum]
        refine Finset.sum_congr rfl fun t ht => ?_
        rw [hWs i hi' a t (Finset.mem_range.1 ha) (Finset.mem_range.1 ht)]
        ring
      rw [Finset.sum_congr rfl fun r hr => Finset.sum_congr rfl (h2 r hr)]
      simp only [Finset.mul_sum]
      rw [Finset.sum_congr rfl fun a _ => Finset.sum_comm]
      rw [Finset.sum_comm]
      refine Finset.sum_congr rfl fun r _ => ?_
      rw [Finset.sum_congr rfl fun a _ => Finset.sum_comm]
      rw [Finset.sum_comm]

/-- **C48.** Let the system be the symmetric one whose upper triangle `H` holds, plus `lambda` on the diagonal if damping is requested. `applySchurComplement` returns normally, does not change the value of `H`,
and a vector solves the full system if and only if its first part solves the reduced system `A dx = b` (again symmetric, upper triangle stored) and every marginalised part is what `buildDsi` computes from it.
So solving the reduced system and back-substituting gives exactly the solutions of the full system. Back-substitution reads only the first part of the vector. -/
theorem C48_schur_exact (debug : Bool) (inv : DMat R → DMat R) (H A : SBM R) (rhs : Nat → R) (lambda : R) (m p : Nat) (lm : Bool) (hl : Legal H A m p inv lambda lm) :
    ∃ s, applySchur debug inv H rhs lambda m lm A p = .ok s ∧ s.invV.length = p ∧ s.H.rl = H.rl ∧
      (∀ i j, i < H.rl.total → j < H.rl.total → s.H.toDense.e i j = H.toDense.e i j) ∧
      (∀ i W (z z' : Nat → R), i < p → (∀ j, j < H.rl.base m → z j = z' j) → ∀ a, buildDsi s.H rhs m i W z a = buildDsi s.H rhs m i W z' a) ∧
      ∀ z : Nat → R,
        (∀ i, i < H.rl.total → ∑ j ∈ Finset.range H.rl.total, (upper H.toDense.e i j + if lm = true ∧ i = j then lambda else 0) * z j = rhs i) ↔
        ((∀ i, i < H.rl.base m → ∑ j ∈ Finset.range (H.rl.base m), upper s.A.toDense.e i j * z j = s.b i) ∧
          ∀ i a W, s.invV[i]? = some W → a < H.rl.size (m + i) → z (H.rl.base (m + i) + a) = buildDsi s.H rhs m i W z a) := by
  obtain ⟨s, h1, h2, -, h3, h4, h5, h6⟩ := schur_full debug inv H A rhs lambda m p lm hl
  exact ⟨s, h1, h2, h3, h4, h5, fun z => (h6 z).1⟩

/-! ### A concrete system -/

/-- Two variables of dimension one. -/
def demoL : Layout := ⟨2, fun i => i + 1⟩

/-- The matrix `[4 2; 2 2]`, of which the upper triangle is stored. -/
def demoH : SBM ℚ := ⟨demoL, demoL, true, fun c => if c = 0 then [(0, ⟨1, 1, fun _ _ => 4⟩)] else [(0, ⟨1, 1, fun _ _ => 2⟩), (1, ⟨1, 1, fun _ _ => 2⟩)]⟩

/-- The matrix of the reduced system, without blocks at first. -/
def demoA : SBM ℚ := ⟨⟨1, fun i => i + 1⟩, ⟨1, fun i => i + 1⟩, true, fun _ => []⟩

/-- Inverse of a 1×1 matrix. -/
def demoInv (B : DMat ℚ) : DMat ℚ := ⟨1, 1, fun _ _ => 1 / B.e 0 0⟩

/-- Eliminating the second variable with damping 1 is legal. -/
theorem demo_legal : Legal demoH demoA 1 1 demoInv 1 true := by
  have hsz : ∀ k, demoL.size k = 1 := fun k => by
    unfold Layout.size demoL
    split_ifs with h
    · subst h; rfl
    · show k + 1 - (k - 1 + 1) = 1
      omega
  refine ⟨⟨⟨?_, ?_, ?_, ?_⟩, rfl, rfl⟩, ⟨⟨?_, ?_, ?_, ?_⟩, rfl, rfl⟩, ⟨rfl, by decide, fun _ _ => rfl⟩, rfl, ?_, ?_, ?_⟩
  · intro r _; simp [demoH, demoL]
  · intro r _; simp [demoH, demoL]
  · intro c _; by_cases h : c = 0 <;> simp [demoH, h]
  · intro c hc p hp
    have h01 : c = 0 ∨ c = 1 := by simp [demoH, demoL] at hc; omega
    rcases h01 with rfl | rfl
    · simp [demoH] at hp; subst hp; exact ⟨by decide, rfl, rfl⟩
    · simp [demoH] at hp
      rcases hp with rfl | rfl <;> exact ⟨by decide, rfl, rfl⟩
  · intro r hr; simp [demoA] at hr
  · intro r hr; simp [demoA] at hr
  · intro c _; simp [demoA]
  · intro c _ p hp; simp [demoA] at hp
  · intro r c h1 h2 h3; omega
  · intro r a b _ ha hb
    have ha' : a < demoL.size r := ha
    have hb' : b < demoL.size r := hb
    rw [hsz] at ha' hb'
    have h1 : a = 0 := by omega
    have h2 : b = 0 := by omega
    subst h1; subst h2; rfl
  · intro i hi
    have : i = 0 := by omega
    subst this
    refine ⟨rfl, rfl, ?_⟩
    intro a b ha hb
    have ha' : a < 1 := ha
    have hb' : b < 1 := hb
    have h1 : a = 0 := by omega
    have h2 : b = 0 := by omega
    subst h1; subst h2
    have hr : (damped true (1 : ℚ) demoH (1 + 0)).rows = 1 := rfl
    have he : (damped true (1 : ℚ) demoH (1 + 0)).e 0 0 = 3 := by
      have : (damped true (1 : ℚ) demoH (1 + 0)).e 0 0 = 2 + 1 := rfl
      rw [this]; norm_num
    rw [hr, Finset.range_one, Finset.sum_singleton]
    simp only [demoInv, he]
    norm_num

example : ∃ s, applySchur false demoInv demoH (fun _ => 1) 1 1 true demoA 1 = .ok s ∧ s.invV.length = 1 := by
  obtain ⟨s, e, h, -⟩ := C48_schur_exact false demoInv demoH demoA (fun _ => 1) 1 1 1 true demo_legal
  exact ⟨s, e, h⟩

end Verif.Schur
