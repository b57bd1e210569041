import Verif.Hessian.Model
import Mathlib.Tactic.Ring

/-! Supporting lemmas for the assembly of the normal equations. -/
namespace Verif.Hessian
open Verif.MatrixStack (DMat)
open Verif.Jacobian Verif.SBM

variable {R : Type} [CommRing R]

/-- Block index as a natural number. -/
abbrev bi (env : Env R) (k : Nat) : Nat := (env.blockIndex k).toNat

/-- Row `u` of the entries of `l` with block index `r`, coefficient `a`. -/
def X (env : Env R) (l : SMap R) (r u a : Nat) : R :=
  (l.map fun p => if bi env p.1 = r then p.2.e u a else 0).sum

theorem X_cons (env : Env R) (p : Nat × DMat R) (l : SMap R) (r u a : Nat) :
    X env (p :: l) r u a = (if bi env p.1 = r then p.2.e u a else 0) + X env l r u a := by
  simp [X]

theorem X_zero (env : Env R) (l : SMap R) (r u a : Nat) (h : ∀ p ∈ l, bi env p.1 ≠ r) :
    X env l r u a = 0 := by
  unfold X
  apply List.sum_eq_zero
  intro x hx
  obtain ⟨p, hp, rfl⟩ := List.mem_map.1 hx
  simp [h p hp]

theorem bind_assoc' {α β γ : Type} (x : Res α) (f : α → Res β) (g : β → Res γ) :
    ((x >>= f) >>= g) = (x >>= fun a => f a >>= g) := by cases x <;> rfl

theorem accum_cons (debug : Bool) (H : SBM R) (w : Nat × Nat × DMat R) (ws) :
    accum debug H (w :: ws) = (accum debug H [w] >>= fun D => accum debug D ws) := by
  unfold accum
  rw [Res.run_cons, Res.run_cons, bind_assoc']
  rfl

theorem corr_eq (debug : Bool) (env : Env R) (J1 : DMat R) (j1 : Nat) (qs : SMap R) (H : SBM R)
    (hnn : ∀ q ∈ qs, 0 ≤ env.blockIndex q.1) (hle : ∀ q ∈ qs, j1 ≤ bi env q.1)
    (hrows : ∀ q ∈ qs, J1.rows = q.2.rows) :
    Res.run (corrStep debug env J1 j1) H qs =
      accum debug H (qs.map fun q => (j1, bi env q.1, mulT J1 q.2)) := by
  induction qs generalizing H with
  | nil => rfl
  | cons q qs ih =>
    have h1 := hnn q (by simp)
    have h2 := hle q (by simp)
    have h3 := hrows q (by simp)
    have hstep : ∀ H : SBM R, corrStep debug env J1 j1 H q =
        accum debug H [(j1, bi env q.1, mulT J1 q.2)] := by
      intro H
      unfold corrStep
      rw [if_neg (by omega), if_neg, if_neg (by simpa using h3)]
      simp only [Bool.and_eq_true, decide_eq_true_eq, not_and]
      intro _; show ¬ bi env q.1 < j1; omega
    rw [Res.run_cons, hstep, List.map_cons, accum_cons debug H _ (qs.map _)]
    cases accum debug H [(j1, bi env q.1, mulT J1 q.2)] with
    | ok D =>
      exact ih D (fun q hq => hnn q (by simp [hq])) (fun q hq => hle q (by simp [hq]))
        (fun q hq => hrows q (by simp [hq]))
    | exc => rfl
    | ub => rfl

/-- The state of the system matches the layout. -/
structure SysOk (L : Layout) (s : Sys R) : Prop where
  wf : WF s.H
  rl : s.H.rl = L
  cl : s.H.cl = L
  st : s.H.hasStorage = true
  len : s.rhsLen = L.total

theorem hess_spec (debug : Bool) (env : Env R) (e : Nat → R) (eLen : Nat) (L : Layout) (l : SMap R)
    (s : Sys R) (hs : SysOk L s) (hsort : Sorted env l)
    (hnn : ∀ q ∈ l, 0 ≤ env.blockIndex q.1) (hn : ∀ q ∈ l, bi env q.1 < L.n)
    (hrows : ∀ q ∈ l, q.2.rows = eLen) (hcols : ∀ q ∈ l, q.2.cols = L.size (bi env q.1)) :
    ∃ s', hessBlock debug env e eLen l s = .ok s' ∧ SysOk L s' ∧
      (∀ r c a b, s'.H.at r c a b = s.H.at r c a b +
        if r ≤ c then ∑ u ∈ Finset.range eLen, X env l r u a * X env l c u b else 0) ∧
      (∀ r a, r < L.n → a < L.size r → s'.rhs (L.base r + a) = s.rhs (L.base r + a) -
        ∑ u ∈ Finset.range eLen, X env l r u a * e u) := by
  induction l generalizing s with
  | nil => exact ⟨s, rfl, hs, by simp [X], by simp [X]⟩
  | cons p rest ih =>
    obtain ⟨k, J⟩ := p
    have hmono : L.Mono := hs.rl ▸ hs.wf.rmono
    have h1 := hnn (k, J) (by simp)
    have h2 := hn (k, J) (by simp)
    have h3 := hrows (k, J) (by simp)
    have h4 := hcols (k, J) (by simp)
    simp only at h1 h2 h3 h4
    have hsort' := List.pairwise_cons.1 hsort
    have hgt : ∀ q ∈ rest, bi env k < bi env q.1 := by
      intro q hq
      have := hsort'.1 q hq
      simp only at this
      have := hnn q (by simp [hq])
      show (env.blockIndex k).toNat < (env.blockIndex q.1).toNat
      omega
    have hfit := Layout.base_add_size_le_total hmono h2
    have hcorr := corr_eq debug env J (bi env k) ((k, J) :: rest) s.H hnn
      (by intro q hq; rcases List.mem_cons.1 hq with rfl | hq
          · exact le_refl _
          · exact (hgt q hq).le)
      (by intro q hq; rw [h3, hrows q hq])
    obtain ⟨H', he, hwf, hrl, hcl, hst, hat⟩ := accum_spec debug
      (((k, J) :: rest).map fun q => (bi env k, bi env q.1, mulT J q.2)) s.H hs.wf hs.st (by
        intro w hw
        obtain ⟨q, hq, rfl⟩ := List.mem_map.1 hw
        rw [hs.rl, hs.cl]
        exact ⟨h2, hn q hq, h4, hcols q hq⟩)
    let rhs' : Nat → R := fun i =>
      if L.base (bi env k) ≤ i ∧ i < L.base (bi env k) + J.cols then
        s.rhs i - ∑ u ∈ Finset.range J.rows, J.e u (i - L.base (bi env k)) * e u
      else s.rhs i
    obtain ⟨s', e', hs', hA, hB⟩ := ih ⟨H', rhs', s.rhsLen⟩
      ⟨hwf, by rw [hrl, hs.rl], by rw [hcl, hs.cl], hst, hs.len⟩ hsort'.2
      (fun q hq => hnn q (by simp [hq])) (fun q hq => hn q (by simp [hq]))
      (fun q hq => hrows q (by simp [hq])) (fun q hq => hcols q (by simp [hq]))
    refine ⟨s', ?_, hs', ?_, ?_⟩
    · rw [hessBlock, if_neg (by omega)]
      simp only [hs.rl]
      rw [if_neg (by rw [h3, hs.len, h4]; simp only [ne_eq, not_true_eq_false, false_or, not_not]; exact hfit)]
      rw [hcorr, he]
      exact e'
    · intro r c a b
      rw [hA, hat, add_assoc]
      congr 1
      have hsum : (List.map (fun w : Nat × Nat × DMat R => if w.1 = r ∧ w.2.1 = c then w.2.2.e a b else 0)
          (((k, J) :: rest).map fun q => (bi env k, bi env q.1, mulT J q.2))).sum =
          if bi env k = r then ∑ u ∈ Finset.range eLen, J.e u a * X env ((k, J) :: rest) c u b else 0 := by
        rw [List.map_map]
        by_cases hk : bi env k = r
        · rw [if_pos hk]
          generalize ((k, J) :: rest : SMap R) = m
          induction m with
          | nil => simp [X]
          | cons q m ihm =>
            rw [List.map_cons, List.sum_cons, ihm]
            simp only [X_cons, mul_add, Finset.sum_add_distrib, Function.comp, hk, true_and]
            congr 1
            by_cases hq : bi env q.1 = c
            · simp [hq, mulT, h3]
            · simp [hq]
        · rw [if_neg hk]
          apply List.sum_eq_zero
          intro x hx
          obtain ⟨q, _, rfl⟩ := List.mem_map.1 hx
          simp [Function.comp, hk]
      rw [hsum]
      by_cases hrc : r ≤ c
      · simp only [if_pos hrc, X_cons]
        have hz : ∀ u, X env rest r u a * (if bi env k = c then J.e u b else 0) = 0 := by
          intro u
          by_cases hk : bi env k = c
          · rw [X_zero env rest r u a (fun q hq => by have := hgt q hq; omega), zero_mul]
          · rw [if_neg hk, mul_zero]
        by_cases hk : bi env k = r
        · simp only [if_pos hk]
          rw [← Finset.sum_add_distrib]
          refine Finset.sum_congr rfl fun u _ => ?_
          have := hz u
          rw [add_mul, mul_add (X env rest r u a), this]
          ring
        · simp only [if_neg hk, zero_add]
          refine Finset.sum_congr rfl fun u _ => ?_
          rw [mul_add, hz u, zero_add]
      · simp only [if_neg hrc, add_zero]
        by_cases hk : bi env k = r
        · rw [if_pos hk]
          apply Finset.sum_eq_zero
          intro u _
          rw [X_zero, mul_zero]
          intro q hq
          rcases List.mem_cons.1 hq with rfl | hq
          · simp only; omega
          · have := hgt q hq; omega
        · rw [if_neg hk]
    · intro r a hr ha
      rw [hB r a hr ha]
      have hX : ∑ u ∈ Finset.range eLen, X env ((k, J) :: rest) r u a * e u =
          (if bi env k = r then ∑ u ∈ Finset.range eLen, J.e u a * e u else 0) +
          ∑ u ∈ Finset.range eLen, X env rest r u a * e u := by
        simp only [X_cons, add_mul, Finset.sum_add_distrib]
        congr 1
        by_cases hk : bi env k = r <;> simp [hk]
      rw [hX, ← sub_sub]
      congr 1
      show rhs' _ = _
      simp only [rhs']
      by_cases hk : bi env k = r
      · rw [if_pos (by rw [hk, h4, hk]; omega), if_pos hk, hk, h3]
        simp
      · rw [if_neg hk, sub_zero, if_neg]
        rintro ⟨g1, g2⟩
        rw [h4] at g2
        exact hk (Layout.unique hmono h2 hr g1 g2 (by omega) (by omega))

/-! ### design-variable layout -/

theorem dvLayout_size (env : Env R) (dvs : List Nat) (r : Nat) :
    (dvLayout env dvs).size r = env.dim (dvs.getD r 0) := by
  cases r with
  | zero => simp [Layout.size, dvLayout]
  | succ r =>
    simp only [Layout.size, dvLayout, Nat.succ_ne_zero, if_false, Nat.add_sub_cancel]
    rw [Finset.sum_range_succ _ (r + 1)]
    omega

theorem dvLayout_mono (env : Env R) (dvs : List Nat) : (dvLayout env dvs).Mono := by
  intro r _
  simp only [dvLayout]
  rw [Finset.sum_range_succ _ (r + 1)]
  omega

theorem clear_ok {L : Layout} {s : Sys R} (hs : SysOk L s) (rhs : Nat → R) :
    SysOk L (⟨s.H.clear false, rhs, s.rhsLen⟩ : Sys R) ∧
    ∀ r c a b, (s.H.clear false).at r c a b = 0 := by
  refine ⟨⟨⟨hs.wf.rmono, hs.wf.cmono, ?_, ?_⟩, hs.rl, hs.cl, hs.st, hs.len⟩, ?_⟩
  · intro c hc
    simp only [SBM.clear, Bool.and_false, Bool.false_eq_true, if_false]
    exact List.Pairwise.map _ (fun _ _ h => h) (hs.wf.sorted c hc)
  · intro c hc p hp
    simp only [SBM.clear, Bool.and_false, Bool.false_eq_true, if_false, List.mem_map] at hp
    obtain ⟨q, hq, rfl⟩ := hp
    exact hs.wf.shape c hc q hq
  · intro r c a b
    unfold SBM.at
    cases hb : (s.H.clear false).block r c with
    | none => rfl
    | some B =>
      simp only [SBM.block, SBM.clear, Bool.and_false, Bool.false_eq_true, if_false,
        Option.map_eq_some_iff] at hb
      obtain ⟨p, hp, rfl⟩ := hb
      have := List.mem_of_find?_eq_some hp
      obtain ⟨q, _, rfl⟩ := List.mem_map.1 this
      rfl

end Verif.Hessian
