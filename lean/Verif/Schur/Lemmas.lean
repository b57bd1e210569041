import Verif.Schur.Model
import Verif.Solver.Lemmas

/-! What the loops of the Schur complement compute, block by block. -/
namespace Verif.Schur
open Verif.MatrixStack (DMat)
open Verif.SBM
open Verif.Solver (Square at_zero getD_shape)

variable {R : Type} [CommRing R]

/-- Entry of the block with key `r` in a block column, zero if there is none. -/
def look (l : List (Nat × DMat R)) (r a b : Nat) : R := (((l.find? fun p => p.1 == r).map Prod.snd).map fun B => B.e a b).getD 0

theorem look_nil (r a b : Nat) : look ([] : List (Nat × DMat R)) r a b = 0 := rfl

theorem look_cons (p : Nat × DMat R) (l : List (Nat × DMat R)) (r a b : Nat) : look (p :: l) r a b = if p.1 = r then p.2.e a b else look l r a b := by
  unfold look
  rw [List.find?_cons]
  by_cases h : p.1 = r
  · simp [h]
  · have : (p.1 == r) = false := by simpa using h
    simp [this, h]

theorem look_none (l : List (Nat × DMat R)) (r : Nat) (h : ∀ p ∈ l, p.1 ≠ r) (a b : Nat) : look l r a b = 0 := by
  induction l with
  | nil => rfl
  | cons p l ih => rw [look_cons, if_neg (h p (by simp)), ih (fun q hq => h q (by simp [hq]))]

theorem look_at (H : SBM R) (r c a b : Nat) : look (H.col c) r a b = H.at r c a b := by
  unfold look SBM.at SBM.block
  cases (H.col c).find? (fun p => p.1 == r) <;> rfl

theorem look_takeWhile (l : List (Nat × DMat R)) (hs : l.Pairwise fun p q => p.1 < q.1) (m r a b : Nat) (hr : r < m) :
    look (l.takeWhile fun p => p.1 < m) r a b = look l r a b := by
  induction l with
  | nil => rfl
  | cons p l ih =>
    rw [List.pairwise_cons] at hs
    by_cases hp : p.1 < m
    · rw [List.takeWhile_cons_of_pos (by simpa using hp), look_cons, look_cons, ih hs.2]
    · rw [List.takeWhile_cons_of_neg (by simpa using hp)]
      symm
      rw [look_nil]
      apply look_none
      intro q hq
      rcases List.mem_cons.1 hq with rfl | hq
      · omega
      · have := hs.1 q hq; omega

theorem inner_spec (debug : Bool) (j : Nat) (Y : DMat R) (l : List (Nat × DMat R)) (A : SBM R) (h : Square A) (hj : j < A.rl.n)
    (hl : ∀ p ∈ l, p.1 < A.rl.n) (hs : l.Pairwise fun p q => p.1 < q.1) :
    ∃ A', inner debug j Y l A = .ok A' ∧ Square A' ∧ A'.rl = A.rl ∧
      ∀ r c a b, A'.at r c a b = A.at r c a b - if r = j then ∑ t ∈ Finset.range Y.cols, Y.e a t * look l c b t else 0 := by
  induction l generalizing A with
  | nil =>
    refine ⟨A, rfl, h, rfl, ?_⟩
    intro r c a b
    simp [look_nil]
  | cons p l ih =>
    rw [List.pairwise_cons] at hs
    have hp : p.1 < A.rl.n := hl p (by simp)
    obtain ⟨A1, e1, w1, r1, c1, st1, b1⟩ := upd_spec h.wf debug hj (show p.1 < A.cl.n by rw [h.sq]; exact hp) h.own (subMulT Y p.2) (fun B h1 h2 => ⟨h1, h2⟩)
    obtain ⟨A2, e2, q2, r2, a2⟩ := ih A1 ⟨w1, by rw [c1, r1, h.sq], st1⟩ (by rw [r1]; exact hj) (by rw [r1]; exact fun q hq => hl q (by simp [hq])) hs.2
    refine ⟨A2, ?_, q2, r2.trans r1, ?_⟩
    · unfold inner at e2 ⊢
      rw [Res.run_cons, e1, Res.bind_ok, e2]
    · intro r c a b
      rw [a2]
      have hx := b1 r c
      by_cases hrj : r = j
      · subst hrj
        simp only [if_true, look_cons]
        by_cases hpc : p.1 = c
        · subst hpc
          rw [if_pos ⟨rfl, rfl⟩] at hx
          have h1 : A1.at r p.1 a b = A.at r p.1 a b - ∑ t ∈ Finset.range Y.cols, Y.e a t * p.2.e b t := by
            conv_lhs => unfold SBM.at
            rw [hx]
            show ((A.block r p.1).getD (A.zeroBlock r p.1)).e a b - _ = _
            rw [at_zero]
          have h2 : ∀ t, look l p.1 b t = 0 := fun t => look_none l p.1 (fun q hq => by have := hs.1 q hq; omega) b t
          rw [h1]
          simp [h2]
        · rw [if_neg (fun hh => hpc hh.2.symm)] at hx
          have h1 : A1.at r c a b = A.at r c a b := by unfold SBM.at; rw [hx]
          rw [h1]
          simp [hpc]
      · rw [if_neg (fun hh => hrj hh.1)] at hx
        have h1 : A1.at r c a b = A.at r c a b := by unfold SBM.at; rw [hx]
        rw [h1]
        simp [hrj]

/-- The product `(row j of the column) W (row k of the column)ᵀ`. -/
def quad (l : List (Nat × DMat R)) (n : Nat) (W : DMat R) (j k a b : Nat) : R :=
  ∑ u ∈ Finset.range W.cols, (∑ t ∈ Finset.range n, look l j a t * W.e t u) * look l k b u

theorem elimCol_spec (debug : Bool) (L : Layout) (hL : L.Mono) (m : Nat) (hm : m ≤ L.n) (W : DMat R) (rhs : Nat → R) (roff n : Nat) (l : List (Nat × DMat R)) (A : SBM R) (b : Nat → R) (h : Square A)
    (hn : A.rl.n = m) (hl : ∀ p ∈ l, p.1 < m ∧ p.2.rows = L.size p.1 ∧ p.2.cols = n) (hs : l.Pairwise fun p q => p.1 < q.1) :
    ∃ A' b', elimCol debug L W rhs roff l (A, b) = .ok (A', b') ∧ Square A' ∧ A'.rl = A.rl ∧
      (∀ r c a d, r ≤ c → A'.at r c a d = A.at r c a d - quad l n W r c a d) ∧
      (∀ r a, r < m → a < L.size r → b' (L.base r + a) = b (L.base r + a) - ∑ u ∈ Finset.range W.cols, (∑ t ∈ Finset.range n, look l r a t * W.e t u) * rhs (roff + u)) := by
  induction l generalizing A b with
  | nil =>
    refine ⟨A, b, rfl, h, rfl, ?_, ?_⟩
    · intro r c a d _; simp [quad, look_nil]
    · intro r a _ _; simp [look_nil]
  | cons p l ih =>
    obtain ⟨p1, p2, p3⟩ := hl p (by simp)
    obtain ⟨A1, e1, q1, r1, a1⟩ := inner_spec debug p.1 (mulBlock p.2 W) (p :: l) A h (by omega) (by intro q hq; have := (hl q hq).1; omega) hs
    rw [List.pairwise_cons] at hs
    obtain ⟨A2, b2, e2, q2, r2, a2, c2⟩ := ih A1 (subSeg (mulBlock p.2 W) rhs roff b (L.base p.1)) q1 (by rw [r1]; exact hn) (fun q hq => hl q (by simp [hq])) hs.2
    have hnone : ∀ r, r ≤ p.1 → ∀ a t, look l r a t = 0 := fun r hr a t => look_none l r (fun q hq => by have := hs.1 q hq; omega) a t
    refine ⟨A2, b2, ?_, q2, r2.trans r1, ?_, ?_⟩
    · unfold elimCol
      rw [e1, Res.bind_ok, e2]
    · intro r c a d hrc
      rw [a2 r c a d hrc, a1]
      by_cases hr : r = p.1
      · subst hr
        have : quad l n W p.1 c a d = 0 := by simp [quad, hnone p.1 le_rfl]
        rw [this, sub_zero, if_pos rfl]
        congr 1
        unfold quad
        show ∑ t ∈ Finset.range W.cols, (∑ u ∈ Finset.range p.2.cols, p.2.e a u * W.e u t) * _ = _
        rw [p3]
        refine Finset.sum_congr rfl fun u _ => ?_
        congr 1
        exact Finset.sum_congr rfl fun t _ => by rw [look_cons, if_pos rfl]
      · rw [if_neg hr, sub_zero]
        congr 1
        unfold quad
        refine Finset.sum_congr rfl fun u _ => ?_
        have h1 : ∀ t, look (p :: l) r a t = look l r a t := fun t => by rw [look_cons, if_neg (fun hh => hr hh.symm)]
        simp only [h1]
        by_cases hc : p.1 = c
        · have h0 : ∀ t, look l r a t = 0 := fun t => hnone r (by omega) a t
          simp [h0]
        · rw [look_cons, if_neg hc]
    · intro r a hr ha
      rw [c2 r a hr ha]
      by_cases hrp : r = p.1
      · subst hrp
        have h0 : ∀ t, look l p.1 a t = 0 := fun t => hnone p.1 le_rfl a t
        simp only [h0, zero_mul, Finset.sum_const_zero, sub_zero]
        unfold subSeg
        rw [if_pos ⟨by omega, by show _ < _ + p.2.rows; rw [p2]; omega⟩]
        congr 1
        show ∑ t ∈ Finset.range W.cols, (∑ u ∈ Finset.range p.2.cols, p.2.e _ u * W.e u t) * _ = _
        rw [p3, Nat.add_sub_cancel_left]
        refine Finset.sum_congr rfl fun u _ => ?_
        congr 1
        exact Finset.sum_congr rfl fun t _ => by rw [look_cons, if_pos rfl]
      · have h1 : ∀ t, look (p :: l) r a t = look l r a t := fun t => by rw [look_cons, if_neg (fun hh => hrp hh.symm)]
        simp only [h1]
        congr 1
        unfold subSeg
        rw [if_neg]
        rintro ⟨h2, h3⟩
        have h3' : L.base r + a < L.base p.1 + L.size p.1 := by rw [← p2]; exact h3
        exact hrp (Layout.unique hL (by omega) (by omega) (Nat.le_add_right _ a) (by omega) h2 h3')

theorem clear_spec {A : SBM R} (h : Square A) : Square (A.clear false) ∧ (A.clear false).rl = A.rl ∧ ∀ r c a b, (A.clear false).at r c a b = 0 := by
  refine ⟨⟨⟨h.wf.rmono, h.wf.cmono, ?_, ?_⟩, h.sq, h.own⟩, rfl, ?_⟩
  · intro c hc
    simp only [SBM.clear, Bool.and_false, Bool.false_eq_true, if_false]
    exact List.Pairwise.map _ (fun _ _ h => h) (h.wf.sorted c hc)
  · intro c hc p hp
    simp only [SBM.clear, Bool.and_false, Bool.false_eq_true, if_false, List.mem_map] at hp
    obtain ⟨q, hq, rfl⟩ := hp
    exact h.wf.shape c hc q hq
  · intro r c a b
    unfold SBM.at
    cases hb : (A.clear false).block r c with
    | none => rfl
    | some B =>
      simp only [SBM.block, SBM.clear, Bool.and_false, Bool.false_eq_true, if_false, Option.map_eq_some_iff] at hb
      obtain ⟨p, hp, rfl⟩ := hb
      have := List.mem_of_find?_eq_some hp
      obtain ⟨q, _, rfl⟩ := List.mem_map.1 this
      rfl

/-- `A` has the layout of the first `m` blocks of `H`. -/
structure Prefix (A H : SBM R) (m : Nat) : Prop where
  n : A.rl.n = m
  le : m ≤ H.rl.n
  idx : ∀ i, i < m → A.rl.idx i = H.rl.idx i

theorem Prefix.base {A H : SBM R} {m : Nat} (h : Prefix A H m) {r : Nat} (hr : r ≤ m) : A.rl.base r = H.rl.base r := by
  unfold Layout.base
  split_ifs with h0
  · rfl
  · exact h.idx _ (by omega)

theorem Prefix.size {A H : SBM R} {m : Nat} (h : Prefix A H m) {r : Nat} (hr : r < m) : A.rl.size r = H.rl.size r := by
  unfold Layout.size
  split_ifs with h0
  · exact h.idx _ (by omega)
  · rw [h.idx _ hr, h.idx _ (by omega)]

theorem sliceInto_spec (debug : Bool) (H A : SBM R) (h : Square H) (hA : Square A) (m : Nat) (hp : Prefix A H m) :
    ∃ A', sliceInto debug H 0 m 0 m A = .ok A' ∧ Square A' ∧ A'.rl = A.rl ∧ ∀ r c a b, r < m → c < m → A'.at r c a b = H.at r c a b := by
  obtain ⟨q1, r1, z1⟩ := clear_spec hA
  set ws : List (Nat × Nat × DMat R) := (List.range (m - 0)).flatMap fun i => ((H.col (0 + i)).filter fun p => 0 ≤ p.1 ∧ p.1 < m).map fun p => (p.1 - 0, i, p.2) with hws
  have hmem : ∀ w, w ∈ ws ↔ w.2.1 < m ∧ w.1 < m ∧ (w.1, w.2.2) ∈ H.col w.2.1 := by
    rintro ⟨r, c, B⟩
    simp only [hws, List.mem_flatMap, List.mem_range, List.mem_map, List.mem_filter, Nat.zero_le, true_and, Nat.sub_zero, Nat.zero_add, decide_eq_true_eq, Prod.mk.injEq]
    constructor
    · rintro ⟨i, hi, p, ⟨hp1, hp2⟩, rfl, rfl, rfl⟩
      exact ⟨hi, hp2, hp1⟩
    · rintro ⟨h1, h2, h3⟩
      exact ⟨c, h1, (r, B), ⟨h3, h2⟩, rfl, rfl, rfl⟩
  have hnH : H.cl.n = H.rl.n := by rw [h.sq]
  obtain ⟨A', e, w', rl', cl', st', hb⟩ := assign_spec debug ws (A.clear false) q1.wf q1.own (by
    intro w hw
    obtain ⟨h1, h2, h3⟩ := (hmem w).1 hw
    have hle := hp.le
    obtain ⟨-, s2, s3⟩ := h.wf.shape w.2.1 (by omega) _ h3
    refine ⟨by rw [r1, hp.n]; exact h2, by rw [q1.sq, r1, hp.n]; exact h1, ?_, ?_⟩
    · rw [r1, hp.size h2]; exact s2
    · rw [q1.sq, r1, hp.size h1, ← h.sq]; exact s3)
  refine ⟨A', e, ⟨w', by rw [cl', rl', q1.sq], st'⟩, rl'.trans r1, ?_⟩
  intro r c a b hr hc
  have hle := hp.le
  cases hblk : H.block r c with
  | some B =>
    have hm := (block_eq_some h.wf (show c < H.cl.n by omega)).1 hblk
    have := hb r c (some B) (by
      intro w hw h1 h2
      have h3 := ((hmem w).1 hw).2.2
      rw [h1, h2] at h3
      rw [← (block_eq_some h.wf (show c < H.cl.n by omega)).2 h3, hblk]) (Or.inl ⟨(r, c, B), (hmem _).2 ⟨hc, hr, hm⟩, rfl, rfl⟩)
    unfold SBM.at
    rw [this, hblk]
  | none =>
    have := hb r c ((A.clear false).block r c) (by
      intro w hw h1 h2
      exfalso
      have h3 := ((hmem w).1 hw).2.2
      rw [h1, h2] at h3
      have := (block_eq_some h.wf (show c < H.cl.n by omega)).2 h3
      rw [hblk] at this
      cases this) (Or.inr rfl)
    have h0 : A'.at r c a b = (A.clear false).at r c a b := by
      unfold SBM.at
      rw [this]
    rw [h0, z1]
    unfold SBM.at
    rw [hblk]

theorem dsiLoop_spec (L : Layout) (dx : Nat → R) (m : Nat) (l : List (Nat × DMat R)) (hl : ∀ p ∈ l, p.1 < m ∧ p.2.rows = L.size p.1) (hs : l.Pairwise fun p q => p.1 < q.1)
    (v : Nat → R) (i : Nat) :
    dsiLoop L dx l v i = v i - ∑ r ∈ Finset.range m, ∑ t ∈ Finset.range (L.size r), look l r t i * dx (L.base r + t) := by
  induction l generalizing v with
  | nil => simp [dsiLoop, look_nil]
  | cons p l ih =>
    obtain ⟨p1, p2⟩ := hl p (by simp)
    rw [List.pairwise_cons] at hs
    unfold dsiLoop
    rw [ih (fun q hq => hl q (by simp [hq])) hs.2, sub_sub]
    congr 1
    have h1 : ∀ r ∈ Finset.range m, ∑ t ∈ Finset.range (L.size r), look (p :: l) r t i * dx (L.base r + t) =
        (if p.1 = r then ∑ t ∈ Finset.range (L.size r), p.2.e t i * dx (L.base r + t) else 0) + ∑ t ∈ Finset.range (L.size r), look l r t i * dx (L.base r + t) := by
      intro r _
      by_cases hpr : p.1 = r
      · subst hpr
        have h0 : ∀ t, look l p.1 t i = 0 := fun t => look_none l p.1 (fun q hq => by have := hs.1 q hq; omega) t i
        simp [h0, look_cons]
      · simp [look_cons, hpr]
    rw [Finset.sum_congr rfl h1, Finset.sum_add_distrib, Finset.sum_ite_eq, if_pos (Finset.mem_range.2 p1), p2]

end Verif.Schur
