import Verif.Solver.Lemmas
import Mathlib.Tactic.NormNum
import Mathlib.Tactic.FieldSimp

/-!
C45 (solvers leave the system as they found it), C46 (damped solve) and C47 (curvature along the right-hand side).
-/
namespace Verif.Solver
open Verif.MatrixStack (DMat)
open Verif.SBM

section block
variable {R : Type} [CommRing R]

/-- A legal state of the block solver. -/
structure BlkOk (s : Blk R) : Prop where
  sq : Square s.H
  len : s.condLen = s.H.rl.total

/-- A call of `setConditioner` followed by a call of `solveSystem`; the library may answer anything. -/
def Blk.damped (debug : Bool) (s : Blk R) (a : (Nat → R) × (SBM R → (Nat → R) → Option (Nat → R))) : Res (Blk R) :=
  s.setConditioner a.1 s.H.cl.total >>= fun s1 => s1.solve debug a.2 >>= fun r => .ok r.1

theorem solve_spec (debug : Bool) (lib : SBM R → (Nat → R) → Option (Nat → R)) (s : Blk R) (h : BlkOk s) (hu : s.useCond = true) :
    ∃ H1 s', s.solve debug lib = .ok (s', lib H1 s.rhs) ∧ BlkOk s' ∧ s'.useCond = true ∧ s'.rhs = s.rhs ∧ s'.H.rl = s.H.rl ∧ s'.cond = s.cond ∧ Square H1 ∧ H1.rl = s.H.rl ∧
      (∀ i j, i < s.H.rl.total → j < s.H.rl.total → H1.toDense.e i j = s.H.toDense.e i j + if i = j then s.cond i * s.cond i else 0) ∧
      (∀ i j, i < s.H.rl.total → j < s.H.rl.total → s'.H.toDense.e i j = s.H.toDense.e i j + if i = j then s.cond i * s.cond i - s.cond i else 0) := by
  obtain ⟨H1, e1, q1, r1, a1⟩ := augment_dense debug (fun i => s.cond i * s.cond i) s.H h.sq s.condLen h.len
  obtain ⟨H2, e2, q2, r2, a2⟩ := augment_dense debug (fun i => -s.cond i) H1 q1 s.condLen (by rw [r1]; exact h.len)
  refine ⟨H1, { s with H := H2 }, ?_, ⟨q2, by rw [r2, r1]; exact h.len⟩, hu, rfl, r2.trans r1, rfl, q1, r1, a1, ?_⟩
  · unfold Blk.solve
    rw [if_pos hu, e1, Res.bind_ok, e2, Res.bind_ok]
  · intro i j hi hj
    rw [r1] at a2
    show H2.toDense.e i j = _
    rw [a2 i j hi hj, a1 i j hi hj]
    split_ifs <;> ring

/-- **C45, block solver: what happens.** After any number of damped solves, with any conditioners and any answers of the library, every call has returned normally, the right-hand side is unchanged,
the matrix is unchanged off the diagonal, and entry `i` of the diagonal has grown by the sum of `dᵢ² - dᵢ` over all conditioners `d` used. -/
theorem C45_block_drift (debug : Bool) (s : Blk R) (h : BlkOk s) (hu : s.useCond = true) (l : List ((Nat → R) × (SBM R → (Nat → R) → Option (Nat → R)))) :
    ∃ s', Res.run (Blk.damped debug) s l = .ok s' ∧ BlkOk s' ∧ s'.rhs = s.rhs ∧ s'.H.rl = s.H.rl ∧
      ∀ i j, i < s.H.rl.total → j < s.H.rl.total →
        s'.H.toDense.e i j = s.H.toDense.e i j + if i = j then (l.map fun a => a.1 i * a.1 i - a.1 i).sum else 0 := by
  induction l generalizing s with
  | nil => exact ⟨s, rfl, h, rfl, rfl, by simp⟩
  | cons a l ih =>
    have h1 : BlkOk { s with cond := a.1, condLen := s.H.cl.total } := ⟨h.sq, by simp only [h.sq.sq]⟩
    obtain ⟨H1, s1, e1, k1, u1, b1, r1, -, -, -, -, d1⟩ := solve_spec debug a.2 _ h1 hu
    obtain ⟨s2, e2, k2, b2, r2, d2⟩ := ih s1 k1 u1
    have e : s.damped debug a = .ok s1 := by
      unfold Blk.damped Blk.setConditioner
      rw [if_pos rfl, Res.bind_ok, e1, Res.bind_ok]
    refine ⟨s2, by rw [Res.run_cons, e, Res.bind_ok, e2], k2, b2.trans b1, r2.trans r1, ?_⟩
    intro i j hi hj
    rw [d2 i j (by rw [r1]; exact hi) (by rw [r1]; exact hj), d1 i j hi hj]
    by_cases hij : i = j
    · simp only [if_pos hij, List.map_cons, List.sum_cons]; ring
    · simp only [if_neg hij, add_zero]

/-- **C45, block solver, the part that holds.** Without conditioner the solver state is exactly as before; with one, the system is as before if and only if every entry of the conditioner is 0 or 1.
What is missing is the property for other conditioners, which fails: see `C45_block_counterexample`. -/
theorem C45_block_partial [IsDomain R] (debug : Bool) (lib : SBM R → (Nat → R) → Option (Nat → R)) (s : Blk R) (h : BlkOk s) :
    ∃ s' dx, s.solve debug lib = .ok (s', dx) ∧ s'.rhs = s.rhs ∧ (s.useCond = false → s' = s) ∧
      (s.useCond = true → ((∀ i j, i < s.H.rl.total → j < s.H.rl.total → s'.H.toDense.e i j = s.H.toDense.e i j) ↔
        ∀ i, i < s.H.rl.total → s.cond i = 0 ∨ s.cond i = 1)) := by
  by_cases hu : s.useCond = true
  · obtain ⟨H1, s', e, -, -, hr, -, -, -, -, -, hd⟩ := solve_spec debug lib s h hu
    refine ⟨s', _, e, hr, (by rw [hu]; simp), fun _ => ⟨?_, ?_⟩⟩
    · intro hall i hi
      have := hd i i hi hi
      rw [hall i i hi hi, if_pos rfl] at this
      have h0 : s.cond i * (s.cond i - 1) = 0 := by linear_combination -this
      rcases mul_eq_zero.1 h0 with h1 | h1
      · exact Or.inl h1
      · exact Or.inr (sub_eq_zero.1 h1)
    · intro hc i j hi hj
      rw [hd i j hi hj]
      rcases hc i hi with h1 | h1 <;> simp [h1]
  · refine ⟨s, lib s.H s.rhs, ?_, rfl, fun _ => rfl, fun hx => absurd hx hu⟩
    unfold Blk.solve
    rw [if_neg hu]

/-- A 1×1 layout. -/
def one : Layout := ⟨1, fun _ => 1⟩

/-- A solver for one variable with the 1×1 matrix `x` and right-hand side 1. -/
def single (x d : ℚ) : Blk ℚ := ⟨⟨one, one, true, fun _ => [(0, ⟨1, 1, fun _ _ => x⟩)]⟩, fun _ => 1, fun _ => d, 1, true⟩

theorem single_ok (x d : ℚ) : BlkOk (single x d) := by
  refine ⟨⟨⟨?_, ?_, ?_, ?_⟩, rfl, rfl⟩, rfl⟩
  · intro r hr; simp [single, one] at hr
  · intro r hr; simp [single, one] at hr
  · intro c _; simp [single]
  · intro c hc p hp
    have h0 : c = 0 := by simp [single, one] at hc; exact hc
    subst h0
    simp only [single, List.mem_singleton] at hp
    subst hp
    exact ⟨by simp [single, one], rfl, rfl⟩

theorem single_dense (x d : ℚ) : (single x d).H.toDense.e 0 0 = x := by
  have := toDense_at (single_ok x d).sq.wf (r := 0) (c := 0) (a := 0) (b := 0) (show 0 < one.n by decide) (show 0 < one.n by decide) (show 0 < one.size 0 by decide)
    (show 0 < one.size 0 by decide)
  have hb : one.base 0 + 0 = 0 := by decide
  have h1 : (single x d).H.rl.base 0 + 0 = 0 := hb
  have h2 : (single x d).H.cl.base 0 + 0 = 0 := hb
  rw [h1, h2] at this
  rw [this]
  simp [single, SBM.at, SBM.block]

/-- **C45 fails for the block solver.** One solve with conditioner 2 changes the 1×1 system matrix from 1 to 3. -/
theorem C45_block_counterexample (lib : SBM ℚ → (Nat → ℚ) → Option (Nat → ℚ)) :
    ∃ s' dx, (single 1 2).solve false lib = .ok (s', dx) ∧ (single 1 2).H.toDense.e 0 0 = 1 ∧ s'.H.toDense.e 0 0 = 3 := by
  obtain ⟨H1, s', e, -, -, -, -, -, -, -, -, hd⟩ := solve_spec false lib (single 1 2) (single_ok 1 2) rfl
  refine ⟨s', _, e, single_dense 1 2, ?_⟩
  rw [hd 0 0 (by decide) (by decide), single_dense]
  norm_num [single]

/-- **C45 fails for covariance blocks.** If the factorisation fails the exception leaves the augmented matrix: here 5 instead of 1. -/
theorem C45_covariance_failure_counterexample :
    ∃ o : CovOut ℚ Unit, (single 1 2).covariance false (fun _ => none) = .ok o ∧ o.result = none ∧ o.s.H.toDense.e 0 0 = 5 := by
  obtain ⟨H1, e1, q1, r1, a1⟩ := augment_dense false (fun i => (single 1 2).cond i * (single 1 2).cond i) (single 1 2).H (single_ok 1 2).sq 1 rfl
  refine ⟨⟨{ single 1 2 with H := H1 }, none⟩, ?_, rfl, ?_⟩
  · unfold Blk.covariance
    rw [if_pos (show (single 1 2).useCond = true from rfl)]
    show (augment false _ 1 _ >>= _) = _
    rw [e1, Res.bind_ok]
  · show H1.toDense.e 0 0 = 5
    rw [a1 0 0 (by decide) (by decide), single_dense]
    norm_num [single]

/-- **C45, covariance blocks, what happens** (partial: the system is restored only without conditioner or with entries 0 and 1). The library is asked about the
system with the squared conditioner on the diagonal. Without conditioner the solver is as before whatever the library answers. With one, an answer leaves entry `i`
of the diagonal increased by `dᵢ² - dᵢ`, a failure by `dᵢ²`; the rest of the system is as before. -/
theorem C45_covariance_partial {P : Type} (debug : Bool) (pat : SBM R → Option P) (s : Blk R) (h : BlkOk s) :
    ∃ (H1 : SBM R) (o : CovOut R P), s.covariance debug pat = .ok o ∧ o.result = pat H1 ∧ o.s.rhs = s.rhs ∧ o.s.cond = s.cond ∧ BlkOk o.s ∧ o.s.H.rl = s.H.rl ∧
      (s.useCond = false → H1 = s.H ∧ o.s = s) ∧
      (s.useCond = true → ∀ i j, i < s.H.rl.total → j < s.H.rl.total →
        H1.toDense.e i j = s.H.toDense.e i j + (if i = j then s.cond i * s.cond i else 0) ∧
        o.s.H.toDense.e i j = s.H.toDense.e i j + if i = j then (if o.result.isSome then s.cond i * s.cond i - s.cond i else s.cond i * s.cond i) else 0) := by
  by_cases hu : s.useCond = true
  · obtain ⟨H1, e1, q1, r1, a1⟩ := augment_dense debug (fun i => s.cond i * s.cond i) s.H h.sq s.condLen h.len
    cases hp : pat H1 with
    | none =>
      refine ⟨H1, ⟨{ s with H := H1 }, none⟩, ?_, hp.symm, rfl, rfl, ⟨q1, by rw [r1]; exact h.len⟩, r1, by rw [hu]; simp, fun _ i j hi hj => ⟨a1 i j hi hj, ?_⟩⟩
      · unfold Blk.covariance
        rw [if_pos hu, e1, Res.bind_ok, hp]
      · show H1.toDense.e i j = _
        rw [a1 i j hi hj]
        simp
    | some p =>
      obtain ⟨H2, e2, q2, r2, a2⟩ := augment_dense debug (fun i => -s.cond i) H1 q1 s.condLen (by rw [r1]; exact h.len)
      refine ⟨H1, ⟨{ s with H := H2 }, some p⟩, ?_, hp.symm, rfl, rfl, ⟨q2, by rw [r2, r1]; exact h.len⟩, r2.trans r1, by rw [hu]; simp,
        fun _ i j hi hj => ⟨a1 i j hi hj, ?_⟩⟩
      · unfold Blk.covariance
        rw [if_pos hu, e1, Res.bind_ok, hp]
        show (augment debug _ s.condLen H1 >>= _) = _
        rw [e2, Res.bind_ok]
      · show H2.toDense.e i j = _
        rw [r1] at a2
        rw [a2 i j hi hj, a1 i j hi hj]
        simp only [Option.isSome_some, if_true]
        split_ifs <;> ring
  · refine ⟨s.H, ⟨s, pat s.H⟩, ?_, rfl, rfl, rfl, h, rfl, fun _ => ⟨rfl, rfl⟩, fun hx => absurd hx hu⟩
    unfold Blk.covariance
    rw [if_neg hu]

/-- A solver for one variable with conditioner 2. -/
example := C45_covariance_partial false (fun H => some (H.toDense.e 0 0)) (single 1 2) (single_ok 1 2)

end block

section blockSolve
variable {K : Type} [Field K] [LinearOrder K] [IsStrictOrderedRing K]

/-- What is assumed of the library: a returned vector solves the symmetric system whose upper triangle is that of the matrix. -/
def SolvesUpper (lib : SBM K → (Nat → K) → Option (Nat → K)) : Prop :=
  ∀ H b x, Square H → lib H b = some x → ∀ i, i < H.rl.total →
    ∑ j ∈ Finset.range H.rl.total, (if i ≤ j then H.toDense.e i j else H.toDense.e j i) * x j = b i

/-- The system holds the upper triangle of `JᵀJ + diag(t)` and the right-hand side `Jᵀe` (C07 with `t = 0`). -/
structure Holds (s : Blk K) (m : Nat) (J : Nat → Nat → K) (e t : Nat → K) : Prop where
  upper : ∀ i j, i ≤ j → j < s.H.rl.total → s.H.toDense.e i j = ∑ k ∈ Finset.range m, J k i * J k j + if i = j then t i else 0
  rhs : ∀ i, i < s.H.rl.total → s.rhs i = ∑ k ∈ Finset.range m, J k i * e k

/-- The vector the block solver returns solves the normal equations of a system whose damping is that of the conditioner plus the drift of the matrix. -/
theorem block_normal (debug : Bool) (lib : SBM K → (Nat → K) → Option (Nat → K)) (hlib : SolvesUpper lib) (s : Blk K) (h : BlkOk s) (hu : s.useCond = true)
    (m : Nat) (J : Nat → Nat → K) (e t : Nat → K) (hs : Holds s m J e t) (s' : Blk K) (x : Nat → K) (hx : s.solve debug lib = .ok (s', some x)) (k : Nat) (hk : k < s.H.rl.total) :
    ∑ j ∈ Finset.range s.H.rl.total, (∑ i ∈ Finset.range m, J i k * J i j) * x j + (t k + s.cond k * s.cond k) * x k = ∑ i ∈ Finset.range m, J i k * e i := by
  obtain ⟨H1, s1, e1, -, -, -, -, -, q1, r1, d1, -⟩ := solve_spec debug lib s h hu
  rw [e1] at hx
  have hl : lib H1 s.rhs = some x := by
    have := Res.ok.inj hx
    exact (Prod.mk.inj this).2
  have hsol := hlib H1 s.rhs x q1 hl k (by rw [r1]; exact hk)
  rw [r1, hs.rhs k hk] at hsol
  rw [← hsol]
  have hup : ∀ i j, i ≤ j → j < s.H.rl.total → H1.toDense.e i j = ∑ l ∈ Finset.range m, J l i * J l j + if i = j then t i + s.cond i * s.cond i else 0 := by
    intro i j hij hj
    rw [d1 i j (by omega) hj, hs.upper i j hij hj]
    split_ifs <;> ring
  have hterm : ∀ j ∈ Finset.range s.H.rl.total, (if k ≤ j then H1.toDense.e k j else H1.toDense.e j k) * x j =
      (∑ i ∈ Finset.range m, J i k * J i j) * x j + if k = j then (t k + s.cond k * s.cond k) * x k else 0 := by
    intro j hj
    have hj' := Finset.mem_range.1 hj
    by_cases hkj : k ≤ j
    · rw [if_pos hkj, hup k j hkj hj']
      by_cases h2 : k = j
      · subst h2; simp; ring
      · simp [h2]
    · rw [if_neg hkj, hup j k (by omega) hk]
      have : ¬ k = j := by omega
      have h3 : ¬ j = k := by omega
      simp only [if_neg this, if_neg h3, add_zero]
      congr 1
      exact Finset.sum_congr rfl fun i _ => mul_comm _ _
  rw [Finset.sum_congr rfl hterm, Finset.sum_add_distrib, Finset.sum_ite_eq, if_pos (Finset.mem_range.2 hk)]

/-- **C46, block solver, first solve.** A solve directly after the system was built returns the minimiser of `|J dx - e|² + |diag(d) dx|²`. What is missing are later solves of the same system: see
`C46_block_second_solve_counterexample`. -/
theorem C46_block_partial (debug : Bool) (lib : SBM K → (Nat → K) → Option (Nat → K)) (hlib : SolvesUpper lib) (s : Blk K) (h : BlkOk s) (hu : s.useCond = true)
    (m : Nat) (J : Nat → Nat → K) (e : Nat → K) (hs : Holds s m J e fun _ => 0) (s' : Blk K) (x : Nat → K) (hx : s.solve debug lib = .ok (s', some x)) :
    (∀ y, cost m s.H.rl.total J e s.cond x ≤ cost m s.H.rl.total J e s.cond y) ∧
    ((∀ j, j < s.H.rl.total → s.cond j ≠ 0) → ∀ y, cost m s.H.rl.total J e s.cond y ≤ cost m s.H.rl.total J e s.cond x → ∀ j, j < s.H.rl.total → y j = x j) := by
  have hn : Normal m s.H.rl.total J e s.cond x := by
    intro k hk
    have := block_normal debug lib hlib s h hu m J e _ hs s' x hx k hk
    simpa using this
  exact ⟨normal_min _ _ _ _ _ _ hn, fun hd y hy j hj => normal_unique _ _ _ _ _ _ _ hn hd hy j hj⟩

/-- A library for 1×1 systems. -/
def lib1 : SBM ℚ → (Nat → ℚ) → Option (Nat → ℚ) := fun H b => if H.rl.total = 1 ∧ H.toDense.e 0 0 ≠ 0 then some fun _ => b 0 / H.toDense.e 0 0 else none

theorem lib1_solves : SolvesUpper lib1 := by
  intro H b x _ hx i hi
  unfold lib1 at hx
  split_ifs at hx with hc
  cases hx
  rw [hc.1] at hi ⊢
  have : i = 0 := by omega
  subst this
  simp only [Finset.range_one, Finset.sum_singleton, le_refl, if_true]
  field_simp [hc.2]

theorem single_holds (d : ℚ) : Holds (single 1 d) 1 (fun _ _ => 1) (fun _ => 1) fun _ => 0 := by
  have ht : (single 1 d).H.rl.total = 1 := rfl
  refine ⟨?_, ?_⟩
  · intro i j hij hj
    rw [ht] at hj
    have h1 : j = 0 := by omega
    have h2 : i = 0 := by omega
    subst h1 h2
    rw [single_dense]; simp
  · intro i hi
    simp [single]

example : BlkOk (single 1 2) ∧ (single 1 2).useCond = true ∧ SolvesUpper lib1 ∧ Holds (single 1 2) 1 (fun _ _ => 1) (fun _ => 1) fun _ => 0 :=
  ⟨single_ok 1 2, rfl, lib1_solves, single_holds 2⟩

/-- **C46 fails for the second solve.** With one variable, `J = 1`, `e = 1` and conditioner 2 the damped minimiser is 1/5. The first solve returns it; the second, of the same system with the same
conditioner (as after a rejected step), returns 1/7. -/
theorem C46_block_second_solve_counterexample :
    ∃ s1 s2 x y, (single 1 2).solve false lib1 = .ok (s1, some x) ∧ s1.solve false lib1 = .ok (s2, some y) ∧ x 0 = 1 / 5 ∧ y 0 = 1 / 7 := by
  obtain ⟨H1, s1, e1, k1, u1, b1, r1, c1, q1, rH1, d1, d1'⟩ := solve_spec false lib1 (single 1 2) (single_ok 1 2) rfl
  obtain ⟨H2, s2, e2, k2, u2, b2, r2, c2, q2, rH2, d2, d2'⟩ := solve_spec false lib1 s1 k1 u1
  have t1 : (single 1 2).H.rl.total = 1 := rfl
  have v1 : H1.toDense.e 0 0 = 5 := by
    rw [d1 0 0 (by decide) (by decide), single_dense]; norm_num [single]
  have v2 : s1.H.toDense.e 0 0 = 3 := by
    rw [d1' 0 0 (by decide) (by decide), single_dense]; norm_num [single]
  have v3 : H2.toDense.e 0 0 = 7 := by
    rw [d2 0 0 (by rw [r1]; decide) (by rw [r1]; decide), v2, c1]; norm_num [single]
  have l1 : lib1 H1 (single 1 2).rhs = some fun _ => 1 / 5 := by
    unfold lib1
    rw [if_pos ⟨by rw [rH1]; rfl, by rw [v1]; norm_num⟩, v1]
    rfl
  have l2 : lib1 H2 s1.rhs = some fun _ => 1 / 7 := by
    unfold lib1
    rw [if_pos ⟨by rw [rH2, r1]; rfl, by rw [v3]; norm_num⟩, v3, b1]
    rfl
  rw [l1] at e1
  rw [l2] at e2
  exact ⟨s1, s2, _, _, e1, e2, rfl, rfl⟩

/-- The value is the quadratic form of the stored matrix. -/
theorem block_quadratic {R : Type} [CommRing R] (s : Blk R) (h : Square s.H) :
    s.rhsJtJrhs = ∑ i ∈ Finset.range s.H.rl.total, ∑ j ∈ Finset.range s.H.rl.total, s.rhs i * s.H.toDense.e i j * s.rhs j := by
  unfold Blk.rhsJtJrhs
  refine Finset.sum_congr rfl fun i hi => ?_
  rw [C52_mulVec_dense s.H h.wf s.rhs i (Finset.mem_range.1 hi), Finset.mul_sum, h.sq]
  exact Finset.sum_congr rfl fun j _ => by ring

/-- **C47, block solver, the part that holds.** Let the system hold the upper block triangle of `JᵀJ` (C07). If no error term couples two different variables, so that the blocks of `JᵀJ` off the
diagonal are zero, the value is `rhsᵀ JᵀJ rhs`. What is missing are coupled variables: see `C47_block_counterexample`. -/
theorem C47_block_partial {R : Type} [CommRing R] (s : Blk R) (h : Square s.H) (m : Nat) (J : Nat → Nat → R)
    (hH : ∀ r c a b, r < s.H.rl.n → c < s.H.rl.n → a < s.H.rl.size r → b < s.H.rl.size c →
      s.H.toDense.e (s.H.rl.base r + a) (s.H.rl.base c + b) = if r ≤ c then ∑ k ∈ Finset.range m, J k (s.H.rl.base r + a) * J k (s.H.rl.base c + b) else 0)
    (hdec : ∀ r c a b, r < s.H.rl.n → c < s.H.rl.n → a < s.H.rl.size r → b < s.H.rl.size c → r ≠ c →
      ∑ k ∈ Finset.range m, J k (s.H.rl.base r + a) * J k (s.H.rl.base c + b) = 0) :
    s.rhsJtJrhs = ∑ i ∈ Finset.range s.H.rl.total, ∑ j ∈ Finset.range s.H.rl.total, s.rhs i * (∑ k ∈ Finset.range m, J k i * J k j) * s.rhs j := by
  rw [block_quadratic s h]
  refine Finset.sum_congr rfl fun i hi => Finset.sum_congr rfl fun j hj => ?_
  obtain ⟨r, hr, a, ha, rfl⟩ := Layout.locate h.wf.rmono (Finset.mem_range.1 hi)
  obtain ⟨c, hc, b, hb, rfl⟩ := Layout.locate h.wf.rmono (Finset.mem_range.1 hj)
  rw [hH r c a b hr hc ha hb]
  split_ifs with hrc
  · rfl
  · rw [hdec r c a b hr hc ha hb (by omega)]

end blockSolve

/-- The hypotheses of `C47_block_partial` for one variable of dimension one. -/
example : Square (single 1 2).H ∧ (∀ r c a b, r < (single 1 2).H.rl.n → c < (single 1 2).H.rl.n → a < (single 1 2).H.rl.size r → b < (single 1 2).H.rl.size c →
      (single 1 2).H.toDense.e ((single 1 2).H.rl.base r + a) ((single 1 2).H.rl.base c + b) = if r ≤ c then ∑ k ∈ Finset.range 1, (1 : ℚ) * 1 else 0) := by
  refine ⟨(single_ok 1 2).sq, ?_⟩
  intro r c a b hr hc ha hb
  have h1 : r = 0 := by change r < 1 at hr; omega
  have h2 : c = 0 := by change c < 1 at hc; omega
  subst h1 h2
  have h3 : a = 0 := by change a < 1 at ha; omega
  have h4 : b = 0 := by change b < 1 at hb; omega
  subst h3 h4
  have := single_dense 1 2
  have hb : (single 1 2).H.rl.base 0 + 0 = 0 := by decide
  rw [hb, this]
  simp

section block2

/-- Two variables of dimension one. -/
def two : Layout := ⟨2, fun i => i + 1⟩

/-- The system of one error term `x + y` with error -1: `J = (1 1)`, the upper triangle of `JᵀJ` and `Jᵀe = (1, 1)`. -/
def coupled : Blk ℚ :=
  ⟨⟨two, two, true, fun c => if c = 0 then [(0, ⟨1, 1, fun _ _ => 1⟩)] else [(0, ⟨1, 1, fun _ _ => 1⟩), (1, ⟨1, 1, fun _ _ => 1⟩)]⟩, fun _ => 1, fun _ => 0, 2, false⟩

theorem coupled_sq : Square coupled.H := by
  refine ⟨⟨?_, ?_, ?_, ?_⟩, rfl, rfl⟩
  · intro r _; simp [coupled, two]
  · intro r _; simp [coupled, two]
  · intro c _
    by_cases h : c = 0 <;> simp [coupled, h]
  · intro c hc p hp
    have h01 : c = 0 ∨ c = 1 := by simp [coupled, two] at hc; omega
    rcases h01 with rfl | rfl
    · simp [coupled] at hp; subst hp; exact ⟨by decide, rfl, rfl⟩
    · simp [coupled] at hp
      rcases hp with rfl | rfl <;> exact ⟨by decide, rfl, rfl⟩

/-- **C47 fails for the block solver.** For the single error term `J = (1 1)` with `rhs = Jᵀe = (1, 1)` the curvature `rhsᵀ JᵀJ rhs` is 4, the block solver returns 3: only the upper triangle of the
symmetric matrix is stored and the product uses it as if it were the whole matrix. -/
theorem C47_block_counterexample :
    Holds coupled 1 (fun _ _ => 1) (fun _ => 1) (fun _ => 0) ∧ coupled.rhsJtJrhs = 3 ∧
    (∑ i ∈ Finset.range 2, ∑ j ∈ Finset.range 2, coupled.rhs i * (∑ k ∈ Finset.range 1, (1 : ℚ) * 1) * coupled.rhs j) = 4 := by
  have d : ∀ r c, r < 2 → c < 2 → coupled.H.toDense.e r c = if r ≤ c then 1 else 0 := by
    intro r c hr hc
    have hb : ∀ k, two.base k = k := fun k => by
      unfold Layout.base two
      split_ifs with h
      · exact h.symm
      · show k - 1 + 1 = k
        omega
    have hz : ∀ k, two.size k = 1 := fun k => by
      unfold Layout.size two
      split_ifs with h
      · subst h; rfl
      · show k + 1 - (k - 1 + 1) = 1
        omega
    have t := toDense_at coupled_sq.wf (r := r) (c := c) (a := 0) (b := 0) hr hc (by show 0 < two.size r; rw [hz]; omega) (by show 0 < two.size c; rw [hz]; omega)
    have hb1 : coupled.H.rl.base r + 0 = r := by show two.base r + 0 = r; rw [hb]; rfl
    have hb2 : coupled.H.cl.base c + 0 = c := by show two.base c + 0 = c; rw [hb]; rfl
    rw [hb1, hb2] at t
    rw [t]
    have h1 : r = 0 ∨ r = 1 := by omega
    have h2 : c = 0 ∨ c = 1 := by omega
    rcases h1 with rfl | rfl <;> rcases h2 with rfl | rfl <;> rfl
  have ht : coupled.H.rl.total = 2 := rfl
  refine ⟨⟨?_, ?_⟩, ?_, ?_⟩
  · intro i j hij hj
    rw [ht] at hj
    rw [d i j (by omega) hj, if_pos hij]
    simp
  · intro i hi
    simp [coupled]
  · rw [block_quadratic coupled coupled_sq, ht]
    simp only [Finset.sum_range_succ, Finset.sum_range_zero, zero_add]
    rw [d 0 0 (by omega) (by omega), d 0 1 (by omega) (by omega), d 1 0 (by omega) (by omega), d 1 1 (by omega) (by omega)]
    norm_num [coupled]
  · simp [Finset.sum_range_succ, coupled]
    norm_num

end block2

section sparse
variable {R : Type} [CommRing R]

/-- A legal state of the sparse Cholesky solver. -/
structure SpsOk (s : Sps R) : Prop where
  wf : CCM.WF s.A
  flag : s.A.hasDiag = false
  cond : s.cond.length = s.A.rows

/-- One damped solve: `setConditioner` and `solveSystem`. -/
def Sps.damped (s : Sps R) (a : List R × SpsLib R) : Res (SpsOut R) := { s with cond := a.1 }.solveSystem a.2

/-- The matrix the library sees. -/
def Sps.seen (s : Sps R) : CCM.CCM R := if s.useCond then CCM.withDiag s.A s.cond else s.A

theorem sparse_solve (s : Sps R) (h : SpsOk s) (lib : SpsLib R) (hl : lib.analyze s.seen = true ∨ s.factor = true) :
    s.solveSystem lib = .ok (.ret { s with factor := true } (lib.solve s.seen s.rhs)) := by
  have hb : (!s.factor && !lib.analyze s.seen) = false := by rcases hl with h1 | h1 <;> simp [h1]
  unfold Sps.solveSystem
  by_cases hu : s.useCond = true
  · have hs : s.seen = CCM.withDiag s.A s.cond := by unfold Sps.seen; rw [if_pos hu]
    rw [if_pos hu, CCM.pushDiag_ok h.wf h.flag s.cond h.cond, Res.bind_ok, ← hs]
    unfold Sps.finish
    rw [hb, if_neg (by simp), if_pos hu, hs, CCM.popDiag_ok h.wf h.flag s.cond h.cond, Res.bind_ok]
  · have hs : s.seen = s.A := by unfold Sps.seen; rw [if_neg hu]
    rw [if_neg hu]
    unfold Sps.finish
    rw [← hs, hb, if_neg (by simp), if_neg hu]

/-- **C45, sparse Cholesky.** For every history of damped solves, with any conditioners of the right length and any answers of the library (success or failure of each solve; the symbolic analysis
does not throw), every call returns normally and the matrix, the error vector and the right-hand side are exactly those of the beginning. -/
theorem C45_sparse (s : Sps R) (h : SpsOk s) (l : List (List R × SpsLib R)) (hlen : ∀ a ∈ l, a.1.length = s.A.rows) (hana : ∀ a ∈ l, ∀ B, a.2.analyze B = true) :
    ∃ s', Res.run (fun t a => Sps.damped t a >>= fun o => match o with | .ret t' _ => .ok t' | .exc _ => .exc) s l = .ok s' ∧
      s'.A = s.A ∧ s'.e = s.e ∧ s'.rhs = s.rhs ∧ s'.useCond = s.useCond := by
  induction l generalizing s with
  | nil => exact ⟨s, rfl, rfl, rfl, rfl, rfl⟩
  | cons a l ih =>
    have h1 : SpsOk { s with cond := a.1 } := ⟨h.wf, h.flag, hlen a (by simp)⟩
    have e1 := sparse_solve _ h1 a.2 (Or.inl (hana a (by simp) _))
    obtain ⟨s', e2, q⟩ := ih { s with cond := a.1, factor := true } ⟨h.wf, h.flag, hlen a (by simp)⟩ (fun b hb => hlen b (by simp [hb])) (fun b hb => hana b (by simp [hb]))
    refine ⟨s', ?_, q⟩
    rw [Res.run_cons]
    show (Sps.solveSystem a.2 { s with cond := a.1 } >>= _) >>= _ = _
    rw [e1, Res.bind_ok]
    exact e2

/-- **C45, exception of the analysis.** If the symbolic analysis throws, the diagonal stays appended, and every further solve of this system throws when it tries to append another one. -/
theorem C45_sparse_exception_counterexample (s : Sps R) (h : SpsOk s) (hu : s.useCond = true) (hf : s.factor = false) (lib : SpsLib R) (hl : ∀ B, lib.analyze B = false) :
    ∃ s', s.solveSystem lib = .ok (.exc s') ∧ s'.A = CCM.withDiag s.A s.cond ∧ ∀ lib', s'.solveSystem lib' = .exc := by
  refine ⟨{ s with A := CCM.withDiag s.A s.cond }, ?_, rfl, ?_⟩
  · unfold Sps.solveSystem
    rw [if_pos hu, CCM.pushDiag_ok h.wf h.flag s.cond h.cond, Res.bind_ok]
    unfold Sps.finish
    rw [hf, hl, if_pos (by simp)]
  · intro lib'
    unfold Sps.solveSystem
    rw [if_pos hu]
    have := (CCM.C14_illegal_calls_rejected s.A h.wf h.flag).2.2.2.2 s.cond h.cond _ (CCM.pushDiag_ok h.wf h.flag s.cond h.cond)
    show (CCM.pushDiag (CCM.withDiag s.A s.cond) s.cond >>= _) = _
    rw [this.1]
    rfl

/-- **C47, sparse solvers.** The value is the squared norm of `J rhs`, that is `rhsᵀ JᵀJ rhs`, where the stored matrix is `Jᵀ`. -/
theorem C47_sparse (s : Sps R) (h : SpsOk s) (hr : s.rhs.length = s.A.rows) :
    s.rhsJtJrhs = .ok (∑ i ∈ Finset.range s.A.rows, ∑ j ∈ Finset.range s.A.rows,
      s.rhs.getD i 0 * (∑ k ∈ Finset.range s.A.cols, CCS.read (CCM.arrays s.A) i k * CCS.read (CCM.arrays s.A) j k) * s.rhs.getD j 0) := by
  obtain ⟨y, e, hy⟩ := (CCM.C15_products s.A h.wf h.flag).2.1 s.rhs hr
  unfold Sps.rhsJtJrhs
  have hp : CCM.prodCols s.A = s.A.cols := by simp [CCM.prodCols, h.flag]
  rw [e, Res.bind_ok, hp]
  congr 1
  have : ∀ k ∈ Finset.range s.A.cols, y k * y k = ∑ i ∈ Finset.range s.A.rows, ∑ j ∈ Finset.range s.A.rows,
      s.rhs.getD i 0 * (CCS.read (CCM.arrays s.A) i k * CCS.read (CCM.arrays s.A) j k) * s.rhs.getD j 0 := by
    intro k hk
    rw [hy k (Finset.mem_range.1 hk), Finset.sum_mul_sum]
    exact Finset.sum_congr rfl fun i _ => Finset.sum_congr rfl fun j _ => by ring
  rw [Finset.sum_congr rfl this, Finset.sum_comm]
  refine Finset.sum_congr rfl fun i _ => ?_
  rw [Finset.sum_comm]
  refine Finset.sum_congr rfl fun j _ => ?_
  rw [Finset.mul_sum, Finset.sum_mul]

end sparse

section sparseSolve
variable {K : Type} [Field K] [LinearOrder K] [IsStrictOrderedRing K]

/-- What is assumed of CHOLMOD for an unsymmetric matrix: a returned vector solves `A Aᵀ x = b`. -/
def SolvesAAt (lib : SpsLib K) : Prop :=
  ∀ B b x, CCM.WF B → lib.solve B b = some x → x.length = B.rows ∧ ∀ i, i < B.rows →
    ∑ j ∈ Finset.range B.rows, (∑ k ∈ Finset.range B.cols, CCS.read (CCM.arrays B) i k * CCS.read (CCM.arrays B) j k) * x.getD j 0 = b.getD i 0

/-- **C46, sparse Cholesky.** With `J` the transpose of the stored matrix: building the right-hand side and solving with conditioner `d` returns the minimiser of `|J dx - e|² + |diag(d) dx|²`
(without conditioner, of `|J dx - e|²`), for the first and, by C45, every later solve. -/
theorem C46_sparse_cholesky (lib : SpsLib K) (hlib : SolvesAAt lib) (hana : ∀ B, lib.analyze B = true) (s : Sps K) (h : SpsOk s) (he : s.e.length = s.A.cols) :
    ∃ s1, s.buildRhs = .ok s1 ∧ ∃ dx, s1.solveSystem lib = .ok (.ret { s1 with factor := true } dx) ∧
      ∀ x, dx = some x → ∀ y : Nat → K,
        cost s.A.cols s.A.rows (fun i j => CCS.read (CCM.arrays s.A) j i) (fun i => s.e.getD i 0) (fun j => if s.useCond then s.cond.getD j 0 else 0) (fun j => x.getD j 0) ≤
        cost s.A.cols s.A.rows (fun i j => CCS.read (CCM.arrays s.A) j i) (fun i => s.e.getD i 0) (fun j => if s.useCond then s.cond.getD j 0 else 0) y := by
  obtain ⟨y0, e0, hy0⟩ := (CCM.C15_products s.A h.wf h.flag).1 s.e he
  refine ⟨{ s with rhs := (List.range s.A.rows).map y0 }, ?_, ?_⟩
  · unfold Sps.buildRhs; rw [e0, Res.bind_ok]
  · have hs1 : SpsOk { s with rhs := (List.range s.A.rows).map y0 } := ⟨h.wf, h.flag, h.cond⟩
    refine ⟨_, sparse_solve _ hs1 lib (Or.inl (hana _)), ?_⟩
    intro x hx y
    have hseen : ({ s with rhs := (List.range s.A.rows).map y0 } : Sps K).seen = s.seen := rfl
    rw [hseen] at hx
    apply normal_min
    intro k hk
    have hrhs : ((List.range s.A.rows).map y0).getD k 0 = ∑ i ∈ Finset.range s.A.cols, CCS.read (CCM.arrays s.A) k i * s.e.getD i 0 := by
      rw [← hy0 k hk]
      simp [List.getD_eq_getElem?_getD, hk]
    by_cases hu : s.useCond = true
    · have hsd : s.seen = CCM.withDiag s.A s.cond := by unfold Sps.seen; rw [if_pos hu]
      rw [hsd] at hx
      have hsol := (hlib _ _ x (CCM.withDiag_wf h.wf s.cond h.cond) hx).2 k hk
      rw [show ({ s with rhs := (List.range s.A.rows).map y0 } : Sps K).rhs = (List.range s.A.rows).map y0 from rfl, hrhs] at hsol
      rw [← hsol]
      simp only [hu, if_true]
      have hrow : (CCM.withDiag s.A s.cond).rows = s.A.rows := rfl
      have hcol : (CCM.withDiag s.A s.cond).cols = s.A.cols + s.A.rows := rfl
      rw [hrow, hcol]
      have hterm : ∀ j ∈ Finset.range s.A.rows, (∑ i ∈ Finset.range (s.A.cols + s.A.rows), CCS.read (CCM.arrays (CCM.withDiag s.A s.cond)) k i *
          CCS.read (CCM.arrays (CCM.withDiag s.A s.cond)) j i) * x.getD j 0 =
          (∑ i ∈ Finset.range s.A.cols, CCS.read (CCM.arrays s.A) k i * CCS.read (CCM.arrays s.A) j i) * x.getD j 0 +
            if k = j then s.cond.getD k 0 * s.cond.getD k 0 * x.getD k 0 else 0 := by
        intro j hj
        rw [Finset.sum_range_add, add_mul]
        congr 1
        · congr 1
          refine Finset.sum_congr rfl fun i hi => ?_
          rw [CCM.withDiag_read_old h.wf s.cond h.cond k i (Finset.mem_range.1 hi), CCM.withDiag_read_old h.wf s.cond h.cond j i (Finset.mem_range.1 hi)]
        · have : ∀ i ∈ Finset.range s.A.rows, CCS.read (CCM.arrays (CCM.withDiag s.A s.cond)) k (s.A.cols + i) * CCS.read (CCM.arrays (CCM.withDiag s.A s.cond)) j (s.A.cols + i) =
              if k = i then (if j = i then s.cond.getD i 0 * s.cond.getD i 0 else 0) else 0 := by
            intro i hi
            rw [CCM.withDiag_read_new h.wf s.cond h.cond k i (Finset.mem_range.1 hi), CCM.withDiag_read_new h.wf s.cond h.cond j i (Finset.mem_range.1 hi)]
            split_ifs <;> simp
          rw [Finset.sum_congr rfl this, Finset.sum_ite_eq, if_pos (Finset.mem_range.2 hk)]
          by_cases hkj : k = j
          · subst hkj; simp
          · have : ¬ j = k := fun h => hkj h.symm
            simp [hkj, this]
      rw [Finset.sum_congr rfl hterm, Finset.sum_add_distrib, Finset.sum_ite_eq, if_pos (Finset.mem_range.2 hk)]
    · have hsd : s.seen = s.A := by unfold Sps.seen; rw [if_neg hu]
      rw [hsd] at hx
      have hsol := (hlib _ _ x h.wf hx).2 k hk
      rw [show ({ s with rhs := (List.range s.A.rows).map y0 } : Sps K).rhs = (List.range s.A.rows).map y0 from rfl, hrhs] at hsol
      rw [← hsol]
      simp [hu]

/-- A library for sparse systems with one row. -/
def spsLib1 : SpsLib ℚ := ⟨fun _ => true, fun B b =>
  if B.rows = 1 ∧ (∑ k ∈ Finset.range B.cols, CCS.read (CCM.arrays B) 0 k * CCS.read (CCM.arrays B) 0 k) ≠ 0 then
    some [b.getD 0 0 / ∑ k ∈ Finset.range B.cols, CCS.read (CCM.arrays B) 0 k * CCS.read (CCM.arrays B) 0 k] else none⟩

theorem spsLib1_spec : SolvesAAt spsLib1 := by
  intro B b x _ hx
  simp only [spsLib1] at hx
  split_ifs at hx with hc
  cases hx
  refine ⟨by simp [hc.1], ?_⟩
  intro i hi
  rw [hc.1] at hi ⊢
  have : i = 0 := by omega
  subst this
  simp only [Finset.range_one, Finset.sum_singleton, List.getD_cons_zero]
  exact mul_div_cancel₀ _ hc.2

/-- A concrete legal sparse system: a 2×2 matrix with a conditioner. -/
example : SpsOk (⟨CCM.demo, [1, 1], [0, 0], List.replicate CCM.demo.rows 2, true, false⟩ : Sps ℤ) := ⟨CCM.demo_wf, rfl, by simp⟩

end sparseSolve

section dense
variable {K : Type} [Field K] [LinearOrder K] [IsStrictOrderedRing K]

/-- **C45, dense QR.** The matrix and the error vector are the same after the solve, whatever the conditioner and the library. -/
theorem C45_dense {R : Type} [CommRing R] (lib : List (List R) → List R → List R) (s : Dqr R) (jrows : Nat) (hJ : s.J.length = jrows) (he : s.e.length = jrows) :
    (s.solve lib jrows).1 = s := by
  unfold Dqr.solve
  split_ifs with h
  · have h1 : (s.J ++ diagRows s.cond).take jrows = s.J := by rw [← hJ, List.take_left]
    have h2 : (s.e ++ List.replicate s.cond.length 0).take jrows = s.e := by rw [← he, List.take_left]
    simp only [h1, h2]
  · rfl

/-- Entry of a list of rows. -/
def entry (J : List (List K)) (i j : Nat) : K := (J.getD i []).getD j 0

/-- What is assumed of the dense QR for problems with `n` unknowns: the result minimises the squared residual. -/
def LeastSquares (n : Nat) (lib : List (List K) → List K → List K) : Prop :=
  ∀ J e, (∀ r ∈ J, r.length = n) → e.length = J.length → ∀ y : Nat → K,
    cost J.length n (entry J) (fun i => e.getD i 0) (fun _ => 0) (fun j => (lib J e).getD j 0) ≤ cost J.length n (entry J) (fun i => e.getD i 0) (fun _ => 0) y

theorem stacked_cost (J : List (List K)) (e d : List K) (he : e.length = J.length) (y : Nat → K) :
    cost (J ++ diagRows d).length d.length (entry (J ++ diagRows d)) (fun i => (e ++ List.replicate d.length 0).getD i 0) (fun _ => 0) y =
      cost J.length d.length (entry J) (fun i => e.getD i 0) (fun j => d.getD j 0) y := by
  have hlen : (diagRows d).length = d.length := by simp [diagRows]
  unfold cost
  rw [List.length_append, hlen, Finset.sum_range_add]
  have z : ∑ j ∈ Finset.range d.length, ((0 : K) * y j) ^ 2 = 0 := by simp
  rw [z, add_zero]
  congr 1
  · refine Finset.sum_congr rfl fun i hi => ?_
    have hi' := Finset.mem_range.1 hi
    have h1 : (e ++ List.replicate d.length 0).getD i 0 = e.getD i 0 := by
      simp [List.getD_eq_getElem?_getD, List.getElem?_append_left (he ▸ hi')]
    have h2 : ∀ j, entry (J ++ diagRows d) i j = entry J i j := by
      intro j
      unfold entry
      simp [List.getD_eq_getElem?_getD, List.getElem?_append_left hi']
    show (_ - (e ++ List.replicate d.length 0).getD i 0) ^ 2 = (_ - e.getD i 0) ^ 2
    rw [h1]
    simp only [h2]
  · refine Finset.sum_congr rfl fun i hi => ?_
    have hi' := Finset.mem_range.1 hi
    have h1 : (e ++ List.replicate d.length 0).getD (J.length + i) 0 = 0 := by
      simp [List.getD_eq_getElem?_getD, ← he, hi']
    have h2 : ∀ j ∈ Finset.range d.length, entry (J ++ diagRows d) (J.length + i) j * y j = if i = j then d.getD i 0 * y i else 0 := by
      intro j hj
      have hj' := Finset.mem_range.1 hj
      unfold entry
      have : (J ++ diagRows d).getD (J.length + i) [] = (List.range d.length).map fun j => if i = j then d.getD i 0 else 0 := by
        simp [List.getD_eq_getElem?_getD, diagRows, hi']
      rw [this]
      have h3 : ((List.range d.length).map fun j => if i = j then d.getD i 0 else 0).getD j 0 = if i = j then d.getD i 0 else 0 := by
        simp [List.getD_eq_getElem?_getD, hj']
      rw [h3]
      split_ifs with h4
      · rw [h4]
      · simp
    show (_ - (e ++ List.replicate d.length 0).getD (J.length + i) 0) ^ 2 = (d.getD i 0 * y i) ^ 2
    rw [h1, Finset.sum_congr rfl h2, Finset.sum_ite_eq, if_pos hi]
    ring

/-- **C46, dense QR.** If the solver uses its conditioner, the result minimises `|J dx - e|² + |diag(d) dx|²`. What is missing: the solver never sets the flag that makes it use the conditioner (see
`C46_dense_unset_counterexample`). -/
theorem C46_dense_partial (lib : List (List K) → List K → List K) (s : Dqr K) (hlib : LeastSquares s.cond.length lib) (jrows : Nat) (hJ : ∀ r ∈ s.J, r.length = s.cond.length)
    (he : s.e.length = s.J.length) (hu : s.useCond = true) (y : Nat → K) :
    cost s.J.length s.cond.length (entry s.J) (fun i => s.e.getD i 0) (fun j => s.cond.getD j 0) (fun j => (s.solve lib jrows).2.getD j 0) ≤
      cost s.J.length s.cond.length (entry s.J) (fun i => s.e.getD i 0) (fun j => s.cond.getD j 0) y := by
  have h1 : (s.solve lib jrows).2 = lib (s.J ++ diagRows s.cond) (s.e ++ List.replicate s.cond.length 0) := by
    unfold Dqr.solve; rw [if_pos hu]
  rw [h1]
  have := hlib (s.J ++ diagRows s.cond) (s.e ++ List.replicate s.cond.length 0) (by
    intro r hr
    rcases List.mem_append.1 hr with h | h
    · exact hJ r h
    · simp only [diagRows, List.mem_map] at h
      obtain ⟨i, -, rfl⟩ := h
      simp) (by simp [diagRows, he]) y
  rw [stacked_cost s.J s.e s.cond he, stacked_cost s.J s.e s.cond he] at this
  exact this

/-- A least-squares solver for one unknown. -/
def ls1 (J : List (List ℚ)) (e : List ℚ) : List ℚ := [(∑ i ∈ Finset.range J.length, entry J i 0 * e.getD i 0) / (∑ i ∈ Finset.range J.length, entry J i 0 * entry J i 0)]

theorem ls1_spec : LeastSquares 1 ls1 := by
  intro J e _ _ y
  by_cases hz : (∑ i ∈ Finset.range J.length, entry J i 0 * entry J i 0) = 0
  · have h0 : ∀ i ∈ Finset.range J.length, entry J i 0 = 0 := by
      intro i hi
      have := (Finset.sum_eq_zero_iff_of_nonneg (fun i _ => mul_self_nonneg (entry J i 0))).1 hz i hi
      exact mul_self_eq_zero.1 this
    unfold cost
    apply le_of_eq
    congr 1
    · refine Finset.sum_congr rfl fun i hi => ?_
      simp [h0 i hi]
    · simp
  · apply normal_min
    intro k hk
    have : k = 0 := by omega
    subst this
    simp only [Finset.range_one, Finset.sum_singleton]
    have hl : (ls1 J e).getD 0 0 = (∑ i ∈ Finset.range J.length, entry J i 0 * e.getD i 0) / (∑ i ∈ Finset.range J.length, entry J i 0 * entry J i 0) := rfl
    rw [hl]
    rw [mul_div_cancel₀ _ hz]
    ring

/-- The hypotheses of `C46_dense_partial`. -/
example : let s : Dqr ℚ := ⟨[[1], [3]], [1, 2], [2], true⟩
    LeastSquares s.cond.length ls1 ∧ (∀ r ∈ s.J, r.length = s.cond.length) ∧ s.e.length = s.J.length ∧ s.useCond = true := ⟨ls1_spec, by simp, rfl, rfl⟩

/-- **C46 fails for dense QR.** `initMatrixStructure` of the dense solver does not store the request for a conditioner, the member keeps its indeterminate value. If that value reads as false, the
conditioner is ignored: with `J = 1`, `e = 1` and conditioner 1 the step is 1 instead of 1/2. -/
theorem C46_dense_unset_counterexample :
    (Dqr.solve ls1 1 ⟨[[1]], [1], [1], false⟩).2 = [1] ∧ (Dqr.solve ls1 1 ⟨[[1]], [1], [1], true⟩).2 = [1/2] ∧
    cost 1 1 (entry [[(1 : ℚ)]]) (fun _ => 1) (fun _ => 1) (fun _ => 1/2) < cost 1 1 (entry [[(1 : ℚ)]]) (fun _ => 1) (fun _ => 1) (fun _ => 1) := by
  decide +kernel

/-- **C47, dense QR.** The value is the squared norm of `J rhs`. -/
theorem C47_dense (s : Dqr K) (rhs : List K) (n : Nat) (hn : rhs.length = n) (hJ : ∀ r ∈ s.J, r.length = n) :
    s.rhsJtJrhs rhs = ∑ i ∈ Finset.range n, ∑ j ∈ Finset.range n, rhs.getD i 0 * (∑ k ∈ Finset.range s.J.length, entry s.J k i * entry s.J k j) * rhs.getD j 0 := by
  have hdot : ∀ (a b : List K) (n : Nat), a.length = n → b.length = n → (a.zipWith (· * ·) b).sum = ∑ j ∈ Finset.range n, a.getD j 0 * b.getD j 0 := by
    intro a
    induction a with
    | nil => intro b n h1 _; subst h1; simp
    | cons x a ih =>
      intro b n h1 h2
      cases b with
      | nil => simp at h2; subst h2; simp at h1
      | cons y b =>
        subst h1
        simp only [List.length_cons] at h2 ⊢
        rw [List.zipWith_cons_cons, List.sum_cons, ih b a.length rfl (by omega), Finset.sum_range_succ']
        simp [add_comm]
  have hsum : ∀ (l : List (List K)) (f : List K → K), (l.map f).sum = ∑ k ∈ Finset.range l.length, f (l.getD k []) := by
    intro l f
    induction l with
    | nil => simp
    | cons a l ih =>
      rw [List.map_cons, List.sum_cons, ih, List.length_cons, Finset.sum_range_succ']
      simp [add_comm]
  unfold Dqr.rhsJtJrhs
  rw [List.map_map, hsum]
  have : ∀ k ∈ Finset.range s.J.length, ((fun y => y * y) ∘ fun row : List K => (row.zipWith (· * ·) rhs).sum) (s.J.getD k []) =
      ∑ i ∈ Finset.range n, ∑ j ∈ Finset.range n, rhs.getD i 0 * (entry s.J k i * entry s.J k j) * rhs.getD j 0 := by
    intro k hk
    have hk' := Finset.mem_range.1 hk
    have hrow : (s.J.getD k []).length = n := by
      apply hJ
      simp [List.getD_eq_getElem?_getD, hk']
    simp only [Function.comp]
    rw [hdot _ _ n hrow hn, Finset.sum_mul_sum]
    exact Finset.sum_congr rfl fun i _ => Finset.sum_congr rfl fun j _ => by unfold entry; ring
  rw [Finset.sum_congr rfl this, Finset.sum_comm]
  refine Finset.sum_congr rfl fun i _ => ?_
  rw [Finset.sum_comm]
  refine Finset.sum_congr rfl fun j _ => ?_
  rw [Finset.mul_sum, Finset.sum_mul]

end dense

section qr
variable {K : Type} [Field K] [LinearOrder K] [IsStrictOrderedRing K]

/-- What is assumed of the sparse QR: the result minimises the squared residual. -/
def FacLS (m n : Nat) (fac : (Nat → Nat → K) → (Nat → K) → Option (Nat → K)) : Prop :=
  ∀ J e x, fac J e = some x → ∀ y, cost m n J e (fun _ => 0) x ≤ cost m n J e (fun _ => 0) y

/-- **C46, sparse QR, undamped.** The solution, with or without column scaling, minimises `|J dx - e|²` among all steps that are zero in the columns dropped for their small norm; without scaling, or if
no column is dropped, among all steps. The conditioner plays no role: see `C46_sparse_qr_counterexample`. -/
theorem C46_sparse_qr_partial (m n : Nat) (fac : (Nat → Nat → K) → (Nat → K) → Option (Nat → K)) (hfac : FacLS m n fac) (J : Nat → Nat → K) (e : Nat → K) (norm : Option (Nat → K))
    (tol : K) (htol : 0 < tol) (x : Nat → K) (h : qrSolve fac J e norm tol = .ok (some x)) (y : Nat → K) (hy : ∀ nc, norm = some nc → ∀ j, j < n → nc j < tol → y j = 0) :
    cost m n J e (fun _ => 0) x ≤ cost m n J e (fun _ => 0) y := by
  unfold qrSolve at h
  cases norm with
  | none =>
    simp only [Res.ok.injEq] at h
    exact hfac J e x h y
  | some nc =>
    simp only at h
    cases hf : fac (fun i j => J i j * if nc j < tol then 0 else 1 / nc j) e with
    | none => rw [hf] at h; cases h
    | some z =>
      rw [hf] at h
      simp only [Res.ok.injEq, Option.some.injEq] at h
      subst h
      have := hfac _ e z hf (fun j => nc j * y j)
      have c1 : cost m n (fun i j => J i j * if nc j < tol then 0 else 1 / nc j) e (fun _ => 0) z =
          cost m n J e (fun _ => 0) (fun j => (if nc j < tol then 0 else 1 / nc j) * z j) := by
        unfold cost
        congr 1
        · refine Finset.sum_congr rfl fun i _ => ?_
          congr 2
          exact Finset.sum_congr rfl fun j _ => by ring
        · simp
      have c2 : cost m n (fun i j => J i j * if nc j < tol then 0 else 1 / nc j) e (fun _ => 0) (fun j => nc j * y j) = cost m n J e (fun _ => 0) y := by
        unfold cost
        congr 1
        · refine Finset.sum_congr rfl fun i _ => ?_
          congr 2
          refine Finset.sum_congr rfl fun j hj => ?_
          show (J i j * if nc j < tol then 0 else 1 / nc j) * (nc j * y j) = J i j * y j
          split_ifs with hlt
          · rw [hy nc rfl j (Finset.mem_range.1 hj) hlt]; ring
          · have : nc j ≠ 0 := by
              intro h0; rw [h0] at hlt; exact hlt htol
            field_simp
        · simp
      rw [c1, c2] at this
      exact this

/-- A factorisation for 1×1 problems. -/
def fac1 (J : Nat → Nat → ℚ) (e : Nat → ℚ) : Option (Nat → ℚ) := if J 0 0 = 0 then none else some fun _ => e 0 / J 0 0

theorem fac1_spec : FacLS 1 1 fac1 := by
  intro J e x hx y
  unfold fac1 at hx
  split_ifs at hx with hc
  cases hx
  have h1 : cost 1 1 J e (fun _ => 0) (fun _ => e 0 / J 0 0) = 0 := by
    simp only [cost, Finset.range_one, Finset.sum_singleton]
    field_simp
    ring
  rw [h1]
  exact cost_nonneg _ _ _ _ _ _

/-- The hypotheses of `C46_sparse_qr_partial` and of the counterexample. -/
example : FacLS 1 1 fac1 ∧ (∃ x, qrSolve fac1 (fun _ _ => 2) (fun _ => 1) (some fun _ => 2) (1 / 10) = .ok (some x)) ∧
    (∃ x, qrSolve fac1 (fun _ _ => 1) (fun _ => 1) none 1 = .ok (some x)) := by
  refine ⟨fac1_spec, ?_, ?_⟩
  · have : fac1 (fun _ _ => (2 : ℚ) * if (2 : ℚ) < 1 / 10 then 0 else 1 / 2) (fun _ => 1) = some fun _ => 1 / (2 * if (2 : ℚ) < 1 / 10 then 0 else 1 / 2) := by
      unfold fac1
      rw [if_neg (by norm_num)]
    unfold qrSolve
    simp only [this]
    exact ⟨_, rfl⟩
  · exact ⟨_, rfl⟩

/-- **C46 fails for sparse QR.** The conditioner is not used (the flag is set to false whatever the caller asks for): with `J = 1`, `e = 1` and conditioner 1 every least-squares solution is 1, where the
damped cost is larger than at 1/2. -/
theorem C46_sparse_qr_counterexample (fac : (Nat → Nat → ℚ) → (Nat → ℚ) → Option (Nat → ℚ)) (hfac : FacLS 1 1 fac) (x : Nat → ℚ)
    (h : qrSolve fac (fun _ _ => 1) (fun _ => 1) none 1 = .ok (some x)) :
    cost 1 1 (fun _ _ => 1) (fun _ => 1) (fun _ => 1) (fun _ => 1/2) < cost 1 1 (fun _ _ => 1) (fun _ => 1) (fun _ => 1) x := by
  have h1 := C46_sparse_qr_partial 1 1 fac hfac _ _ none 1 one_pos x h (fun _ => 1) (by simp)
  have h2 : (x 0 - 1) ^ 2 ≤ 0 := by simpa [cost] using h1
  have h3 : x 0 = 1 := by
    have : x 0 - 1 = 0 := by
      rcases eq_or_ne (x 0 - 1) 0 with h | h
      · exact h
      · exact absurd (pow_pos (abs_pos.2 h) 2) (by rw [sq_abs]; linarith)
    linarith
  simp [cost, h3]
  norm_num

/-- **A failed factorisation with column scaling is undefined behaviour**: the null solution is scaled. -/
theorem C46_qr_null_counterexample (J : Nat → Nat → ℚ) (e nc : Nat → ℚ) (tol : ℚ) : qrSolve (fun _ _ => none) J e (some nc) tol = .ub := rfl

end qr
end Verif.Solver
