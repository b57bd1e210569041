import Verif.Schur.Props
import Mathlib.Algebra.Order.Ring.Defs

/-!
C48: the reduced matrix is as definite as the full one, so a Cholesky solver that accepts the full damped system also accepts the reduced one.
-/
namespace Verif.Schur
open Verif.MatrixStack (DMat)
open Verif.SBM Verif.Solver

variable {R : Type} [CommRing R]

/-- Two runs give the same up to the right-hand side. -/
def SameA (x y : Res (St R)) : Prop :=
  match x, y with
  | .ok s, .ok t => s.A = t.A ∧ s.H = t.H ∧ s.invV = t.invV
  | .exc, .exc => True
  | .ub, .ub => True
  | _, _ => False

theorem elimCol_same (debug : Bool) (L : Layout) (W : DMat R) (rhs rhs' : Nat → R) (roff : Nat) (l : List (Nat × DMat R)) : ∀ (A : SBM R) (b b' : Nat → R),
    match elimCol debug L W rhs roff l (A, b), elimCol debug L W rhs' roff l (A, b') with
    | .ok s, .ok t => s.1 = t.1
    | .exc, .exc => True
    | .ub, .ub => True
    | _, _ => False := by
  induction l with
  | nil => intro A b b'; rfl
  | cons p ps ih =>
    intro A b b'
    rw [elimCol, elimCol]
    dsimp only
    cases h : inner debug p.1 (mulBlock p.2 W) (p :: ps) A with
    | ok A' => rw [Res.bind_ok, Res.bind_ok]; exact ih A' _ _
    | exc => trivial
    | ub => trivial

theorem pass_same (debug : Bool) (inv : DMat R → DMat R) (rhs rhs' : Nat → R) (lambda : R) (m : Nat) (lm : Bool) (s t : St R) (h : s.A = t.A ∧ s.H = t.H ∧ s.invV = t.invV) (i : Nat) :
    SameA (pass debug inv rhs lambda m lm s i) (pass debug inv rhs' lambda m lm t i) := by
  obtain ⟨A, b, H, V⟩ := s
  obtain ⟨A', b', H', V'⟩ := t
  obtain ⟨rfl, rfl, rfl⟩ := h
  unfold pass
  dsimp only
  cases e : H.upd debug (m + i) (m + i) (fun B => B) with
  | exc => trivial
  | ub => trivial
  | ok H' =>
    rw [Res.bind_ok, Res.bind_ok]
    have := elimCol_same debug H'.rl (inv (if lm then shift lambda ((H'.block (m + i) (m + i)).getD (H'.zeroBlock (m + i) (m + i))) else (H'.block (m + i) (m + i)).getD (H'.zeroBlock (m + i) (m + i)))) rhs rhs'
      (H'.rl.base (m + i)) ((H'.col (m + i)).takeWhile fun p => p.1 < m) A b b'
    revert this
    generalize elimCol debug H'.rl _ rhs (H'.rl.base (m + i)) _ (A, b) = x
    generalize elimCol debug H'.rl _ rhs' (H'.rl.base (m + i)) _ (A, b') = y
    intro this
    cases x <;> cases y <;> simp_all [SameA, Res.bind_ok] <;> exact ⟨this, rfl⟩

theorem run_same (debug : Bool) (inv : DMat R → DMat R) (rhs rhs' : Nat → R) (lambda : R) (m : Nat) (lm : Bool) (l : List Nat) : ∀ (s t : St R), s.A = t.A ∧ s.H = t.H ∧ s.invV = t.invV →
    SameA (Res.run (pass debug inv rhs lambda m lm) s l) (Res.run (pass debug inv rhs' lambda m lm) t l) := by
  induction l with
  | nil => intro s t h; exact h
  | cons i l ih =>
    intro s t h
    have := pass_same debug inv rhs rhs' lambda m lm s t h i
    rw [Res.run, Res.run]
    revert this
    generalize pass debug inv rhs lambda m lm s i = x
    generalize pass debug inv rhs' lambda m lm t i = y
    intro this
    cases x <;> cases y <;> simp_all [SameA, Res.bind_ok]

/-- The matrices and inverses do not depend on the right-hand side. -/
theorem applySchur_same (debug : Bool) (inv : DMat R → DMat R) (H A : SBM R) (rhs rhs' : Nat → R) (lambda : R) (m p : Nat) (lm : Bool) : SameA (applySchur debug inv H rhs lambda m lm A p) (applySchur debug inv H rhs' lambda m lm A p) := by
  unfold applySchur
  cases e : sliceInto debug H 0 m 0 m A with
  | exc => trivial
  | ub => trivial
  | ok A0 =>
    rw [Res.bind_ok, Res.bind_ok]
    by_cases hd : debug = true ∧ (A0.rl.n ≠ m ∨ A0.cl.n ≠ m)
    · rw [if_pos hd, if_pos hd]; trivial
    rw [if_neg hd, if_neg hd]
    have := run_same debug inv rhs rhs' lambda m lm (List.range p) ⟨A0, rhs, H, []⟩ ⟨A0, rhs', H, []⟩ ⟨rfl, rfl, rfl⟩
    revert this
    generalize Res.run (pass debug inv rhs lambda m lm) ⟨A0, rhs, H, []⟩ (List.range p) = x
    generalize Res.run (pass debug inv rhs' lambda m lm) ⟨A0, rhs', H, []⟩ (List.range p) = y
    intro this
    match x, y, this with
    | .exc, .exc, _ => trivial
    | .ub, .ub, _ => trivial
    | .ok s, .ok t, this =>
      obtain ⟨h1, h2, h3⟩ : s.A = t.A ∧ s.H = t.H ∧ s.invV = t.invV := this
      rw [Res.bind_ok, Res.bind_ok, h1]
      cases lm with
      | false => exact ⟨h1, h2, h3⟩
      | true =>
        rw [if_pos rfl, if_pos rfl]
        cases damp debug lambda t.A with
        | exc => trivial
        | ub => trivial
        | ok A' => exact ⟨rfl, h2, h3⟩

/-- The right-hand side of the reduced system is that of the full one if the latter is zero for the marginalised variables. -/
theorem applySchur_b (debug : Bool) (inv : DMat R → DMat R) (H A : SBM R) (rhs : Nat → R) (lambda : R) (m p : Nat) (lm : Bool) (hl : Legal H A m p inv lambda lm) (h0 : ∀ j, H.rl.base m ≤ j → rhs j = 0)
    (s : St R) (e : applySchur debug inv H rhs lambda m lm A p = .ok s) : ∀ j, j < H.rl.base m → s.b j = rhs j := by
  have mono := hl.sqH.wf.rmono
  have hcols : ∀ i, i < p → (inv (damped lm lambda H (m + i))).cols = H.rl.size (m + i) := by
    intro i hi
    rw [(hl.inv i hi).cols, damped_rows hl.sqH lm lambda (by rw [hl.n]; omega)]
  obtain ⟨A0, e0, q0, r0, a0⟩ := sliceInto_spec debug H A hl.sqH hl.sqA m hl.pre
  have hloop : ∀ k, k ≤ p → ∃ s, Res.run (pass debug inv rhs lambda m lm) ⟨A0, rhs, H, []⟩ (List.range k) = .ok s ∧ Inv H A0 inv rhs lambda m lm k s := by
    intro k
    induction k with
    | zero =>
      intro _
      refine ⟨_, rfl, ⟨hl.sqH, rfl, fun _ _ => rfl, q0, rfl, rfl, by simp, ?_, by simp⟩⟩
      intro r c a b hrc hc
      simp [a0 r c a b (by omega) hc]
    | succ k ih =>
      intro hk
      obtain ⟨s, e, hs⟩ := ih (by omega)
      obtain ⟨s', e', hs'⟩ := pass_spec debug H A0 hl.sqH inv rhs lambda m (by rw [r0, hl.pre.n]) lm k (by rw [hl.n]; omega) (hcols k (by omega)) s hs
      refine ⟨s', ?_, hs'⟩
      rw [List.range_succ, CCM.run_append, e]
      show Res.run _ s [k] = _
      simp only [Res.run_cons, Res.run_nil, e', Res.bind_ok]
  obtain ⟨s1, es, hs⟩ := hloop p le_rfl
  have hb : s.b = s1.b := by
    unfold applySchur at e
    have hc : A0.rl.n = m ∧ A0.cl.n = m := ⟨by rw [r0, hl.pre.n], by rw [q0.sq, r0, hl.pre.n]⟩
    rw [e0, Res.bind_ok, if_neg (by rintro ⟨-, h | h⟩; exacts [h hc.1, h hc.2]), es, Res.bind_ok] at e
    split_ifs at e
    · cases hd : damp debug lambda s1.A with
      | ok A' => rw [hd, Res.bind_ok] at e; cases e; rfl
      | exc => rw [hd] at e; cases e
      | ub => rw [hd] at e; cases e
    · cases e; rfl
  intro j hj
  have hjt : j < H.rl.total := by
    rw [Layout.total_eq]
    exact lt_of_lt_of_le hj (Layout.base_le mono (by rw [hl.n]; omega) le_rfl)
  obtain ⟨r, hr, a, ha, rfl⟩ := Layout.locate mono hjt
  have hrm : r < m := by
    by_contra hc
    have := Layout.base_le mono (show m ≤ r by omega) hr.le
    omega
  rw [hb, hs.b r a hrm ha, Finset.sum_eq_zero, sub_zero]
  intro i hi
  have hi' := Finset.mem_range.1 hi
  unfold P
  refine Finset.sum_eq_zero fun u _ => ?_
  dsimp only
  rw [h0 _ (le_trans (Layout.base_le mono (show m ≤ m + i by omega) (by rw [hl.n]; omega)) (Nat.le_add_right _ _)), mul_zero]

/-- **C48** (definiteness). For every vector `x` the quadratic form of the reduced matrix is that of the full damped matrix for some extension `z` of `x` to the marginalised variables. So if the full matrix is positive definite, the reduced matrix is. -/
theorem C48_reduced_form (debug : Bool) (inv : DMat R → DMat R) (H A : SBM R) (rhs : Nat → R) (lambda : R) (m p : Nat) (lm : Bool) (hl : Legal H A m p inv lambda lm) :
    ∃ s, applySchur debug inv H rhs lambda m lm A p = .ok s ∧ ∀ x : Nat → R, ∃ z : Nat → R, (∀ j, j < H.rl.base m → z j = x j) ∧
      ∑ i ∈ Finset.range (H.rl.base m), ∑ j ∈ Finset.range (H.rl.base m), x i * (upper s.A.toDense.e i j * x j) =
        ∑ i ∈ Finset.range H.rl.total, ∑ j ∈ Finset.range H.rl.total, z i * ((upper H.toDense.e i j + if lm = true ∧ i = j then lambda else 0) * z j) := by
  obtain ⟨s, es, -⟩ := schur_full debug inv H A rhs lambda m p lm hl
  refine ⟨s, es, fun x => ?_⟩
  set L := H.rl with hL
  have mono : L.Mono := hl.sqH.wf.rmono
  -- a right-hand side for which `x` solves the reduced system
  set g : Nat → R := fun i => if i < L.base m then ∑ j ∈ Finset.range (L.base m), upper s.A.toDense.e i j * x j else 0 with hg
  obtain ⟨r, er, hlen, -, hrl, -, hcong, hiff⟩ := schur_full debug inv H A g lambda m p lm hl
  have hsame : r.A = s.A := by
    have := applySchur_same debug inv H A g rhs lambda m p lm
    rw [er, es] at this
    exact this.1
  have hb := applySchur_b debug inv H A g lambda m p lm hl (fun j hj => by simp only [hg]; exact if_neg (not_lt.2 hj)) r er
  set zz : Nat → R := fun j => if j < L.base m then x j else buildDsi r.H g m (L.upperBound j - m) (r.invV.getD (L.upperBound j - m) ⟨0, 0, fun _ _ => 0⟩) x (j - L.base (L.upperBound j)) with hzz
  have hzlow : ∀ j, j < L.base m → zz j = x j := fun j hj => by simp only [hzz, if_pos hj]
  have hback : ∀ i a W, r.invV[i]? = some W → a < L.size (m + i) → zz (L.base (m + i) + a) = buildDsi r.H g m i W zz a := by
    intro i a W hW ha'
    have hi : i < p := by rw [← hlen]; exact (List.getElem?_eq_some_iff.1 hW).1
    have h1 := Layout.base_le mono (show m ≤ m + i by omega) (by rw [hl.n]; omega)
    have hub : L.upperBound (L.base (m + i) + a) = m + i := Layout.upperBound_eq mono (by rw [hl.n]; omega) (by omega) (by omega)
    rw [← hcong i W x zz hi (fun j hj => (hzlow j hj).symm) a]
    simp only [hzz]
    rw [if_neg (by omega), hub, show m + i - m = i by omega, show L.base (m + i) + a - L.base (m + i) = a by omega, List.getD_eq_getElem?_getD, hW]
    rfl
  have hsol := (hiff zz).1.2 ⟨fun i hi => by
    rw [hb i hi, hsame]
    simp only [hg]
    rw [if_pos hi]
    exact Finset.sum_congr rfl fun j hj => by rw [hzlow j (Finset.mem_range.1 hj)], hback⟩
  refine ⟨zz, hzlow, ?_⟩
  have h1 : ∑ i ∈ Finset.range L.total, ∑ j ∈ Finset.range L.total, zz i * ((upper H.toDense.e i j + if lm = true ∧ i = j then lambda else 0) * zz j) = ∑ i ∈ Finset.range L.total, zz i * g i :=
    Finset.sum_congr rfl fun i hi => by rw [← Finset.mul_sum, hsol i (Finset.mem_range.1 hi)]
  rw [h1]
  have hle : L.base m ≤ L.total := by rw [Layout.total_eq]; exact Layout.base_le mono (by rw [hl.n]; omega) le_rfl
  obtain ⟨k, hk⟩ := Nat.exists_eq_add_of_le hle
  rw [hk, Finset.sum_range_add, Finset.sum_eq_zero (s := Finset.range k), add_zero]
  · refine Finset.sum_congr rfl fun i hi => ?_
    have hi' := Finset.mem_range.1 hi
    rw [← Finset.mul_sum, hzlow i hi']
    simp only [hg]
    rw [if_pos hi']
  · intro i hi
    simp only [hg]
    rw [if_neg (by omega), mul_zero]

/-- The system of the example meets the hypotheses. -/
example : ∃ s, applySchur false demoInv demoH (fun _ => 1) 1 1 true demoA 1 = .ok s ∧ ∀ x : Nat → ℚ, ∃ z : Nat → ℚ, z 0 = x 0 ∧
    x 0 * (upper s.A.toDense.e 0 0 * x 0) = z 0 * (5 * z 0) + z 0 * (2 * z 1) + (z 1 * (2 * z 0) + z 1 * (3 * z 1)) := by
  obtain ⟨s, e, h⟩ := C48_reduced_form false demoInv demoH demoA (fun _ => 1) 1 1 1 true demo_legal
  refine ⟨s, e, fun x => ?_⟩
  obtain ⟨z, h1, h2⟩ := h x
  refine ⟨z, h1 0 (by decide), ?_⟩
  have hb : demoH.rl.base 1 = 1 := by decide
  have ht : demoH.rl.total = 2 := by decide
  rw [hb, ht] at h2
  simp only [Finset.sum_range_succ, Finset.sum_range_zero, zero_add] at h2
  rw [h2]
  have e00 : upper demoH.toDense.e 0 0 = 4 := by decide +kernel
  have e01 : upper demoH.toDense.e 0 1 = 2 := by decide +kernel
  have e10 : upper demoH.toDense.e 1 0 = 2 := by decide +kernel
  have e11 : upper demoH.toDense.e 1 1 = 2 := by decide +kernel
  rw [e00, e01, e10, e11]
  norm_num

end Verif.Schur
