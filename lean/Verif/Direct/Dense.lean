import Verif.PCG.Props
import Mathlib.LinearAlgebra.FiniteDimensional.Basic
import Mathlib.LinearAlgebra.Matrix.ToLin

/-!
C90: `LinearSolverDense` (sparse_block_matrix/include/sparse_block_matrix/linear_solver_dense.h, below `H`).
-/
namespace Verif.Direct
open Verif.SBM
open Verif.MatrixStack (DMat)
open Verif.PCG (apply PosDef)

section model
variable {K : Type} [CommRing K]

/-- `c_idx` when block column `c` is visited, H:62, 88: the sum of the widths before it. -/
def colIdx (A : SBM K) (c : Nat) : Nat := ((List.range c).map A.cl.size).sum

/-- `H.block(rowBase, c_idx, r_size, c_size) = *(it->second)`, H:77-83, for blocks on or above the diagonal. `H` is
square with as many rows as `A` has columns (H:55-59); a block that leaves it, or whose size is not the one the layout
prescribes, is undefined behaviour (an Eigen assertion in debug builds). -/
def denseWrite (A : SBM K) (H : Nat → Nat → K) (v : Nat × Nat × DMat K) : Res (Nat → Nat → K) :=
  if v.1 ≤ v.2.1 then
    if A.rl.base v.1 + A.rl.size v.1 ≤ A.cl.total ∧ colIdx A v.2.1 + A.cl.size v.2.1 ≤ A.cl.total ∧
       v.2.2.rows = A.rl.size v.1 ∧ v.2.2.cols = A.cl.size v.2.1 then
      .ok fun i j =>
        if A.rl.base v.1 ≤ i ∧ i < A.rl.base v.1 + A.rl.size v.1 ∧
           colIdx A v.2.1 ≤ j ∧ j < colIdx A v.2.1 + A.cl.size v.2.1
        then v.2.2.e (i - A.rl.base v.1) (j - colIdx A v.2.1) else H i j
    else .ub
  else .ok H

/-- The loops of `solve`, H:65-89. -/
def denseFill (A : SBM K) : Res (Nat → Nat → K) := Res.run (denseWrite A) (fun _ _ => 0) A.visits

/-- `H.selfadjointView<Eigen::Upper>()`, H:104: the entries below the diagonal are those above it. Entries outside of
the `n × n` matrix do not exist; they are zero here. -/
def selfAdjointUpper (n : Nat) (H : Nat → Nat → K) (i j : Nat) : K :=
  if i < n ∧ j < n then (if i ≤ j then H i j else H j i) else 0

/-- `solve`, H:52-109: the returned flag and the solution. `ldlt` stands for Eigen's `ldlt().solve()`; its status is not
asked for. Nothing is kept between calls, and `init` (H:46-50) does nothing. -/
def denseSolve (ldlt : Nat → (Nat → Nat → K) → (Nat → K) → Nat → K) (A : SBM K) (b : Nat → K) :
    Res (Bool × (Nat → K)) :=
  denseFill A >>= fun H => .ok (true, ldlt A.cl.total (selfAdjointUpper A.cl.total H) b)

end model

section spec
variable {K : Type} [Field K] [LinearOrder K]

/-- What is asked of Eigen's factorisation in exact arithmetic: symmetric positive definite systems are solved. -/
def LdltOk (ldlt : Nat → (Nat → Nat → K) → (Nat → K) → Nat → K) : Prop :=
  ∀ n S b, (∀ i j, i < n → j < n → S i j = S j i) → PosDef n S →
    ∀ i, i < n → ∑ j ∈ Finset.range n, S i j * ldlt n S b j = b i

end spec

section lemmas
variable {K : Type} [CommRing K]

omit [CommRing K] in
theorem colIdx_eq {A : SBM K} (h : WF A) {c : Nat} (hc : c ≤ A.cl.n) : colIdx A c = A.cl.base c := by
  induction c with
  | zero => rfl
  | succ c ih =>
    unfold colIdx at ih ⊢
    rw [List.range_succ, List.map_append, List.sum_append, ih (by omega)]
    simp only [List.map_cons, List.map_nil, List.sum_cons, List.sum_nil, add_zero]
    exact Layout.base_add_size h.cmono (by omega)

/-- The writes without the checks. -/
def put (A : SBM K) (H : Nat → Nat → K) (v : Nat × Nat × DMat K) (i j : Nat) : K :=
  if v.1 ≤ v.2.1 ∧ A.rl.base v.1 ≤ i ∧ i < A.rl.base v.1 + A.rl.size v.1 ∧
     A.cl.base v.2.1 ≤ j ∧ j < A.cl.base v.2.1 + A.cl.size v.2.1
  then v.2.2.e (i - A.rl.base v.1) (j - A.cl.base v.2.1) else H i j

theorem denseFill_ok {A : SBM K} (h : WF A) (hsq : A.rl.same A.cl = true) :
    denseFill A = .ok (A.visits.foldl (put A) fun _ _ => 0) := by
  have key : ∀ (vs : List (Nat × Nat × DMat K)), (∀ v ∈ vs, v ∈ A.visits) → ∀ H,
      Res.run (denseWrite A) H vs = .ok (vs.foldl (put A) H) := by
    intro vs
    induction vs with
    | nil => intro _ H; rfl
    | cons v vs ih =>
      intro hm H
      obtain ⟨r, c, B⟩ := v
      obtain ⟨hc, hmem⟩ := mem_visits.1 (hm _ List.mem_cons_self)
      obtain ⟨hr, hB1, hB2⟩ := h.shape c hc _ hmem
      have hs : denseWrite A H (r, c, B) = .ok (put A H (r, c, B)) := by
        unfold denseWrite put
        by_cases hrc : r ≤ c
        · have h1 := Layout.base_add_size_le_total h.rmono hr
          have h2 := Layout.base_add_size_le_total h.cmono hc
          have h3 := Layout.same_total hsq
          simp only [hrc, if_true, colIdx_eq h (le_of_lt hc), true_and]
          rw [if_pos ⟨by simp only at h1; omega, by omega, hB1, hB2⟩]
        · simp [hrc]
      rw [Res.run_cons, hs, Res.bind_ok, ih (fun v hv => hm v (List.mem_cons_of_mem _ hv)), List.foldl_cons]
  exact key _ (fun _ hv => hv) _

theorem put_upper {A : SBM K} (h : WF A) (hsq : A.rl.same A.cl = true) {i j : Nat} (hij : i ≤ j) (hj : j < A.cl.total) :
    (A.visits.foldl (put A) fun _ _ => 0) i j = A.toDense.e i j := by
  have hi : i < A.rl.total := by rw [Layout.same_total hsq]; omega
  obtain ⟨r, hr, a, ha, rfl⟩ := Layout.locate h.rmono hi
  obtain ⟨c, hc, b, hb, rfl⟩ := Layout.locate h.cmono hj
  have hrc : r ≤ c := by
    by_contra hlt
    have h1 := Layout.base_le h.cmono (r := c + 1) (s := r) (by omega) (by rw [← Layout.same_n hsq]; omega)
    have h2 := Layout.same_base hsq (i := r) (by omega)
    have h3 := Layout.base_add_size h.cmono hc
    omega
  rw [toDense_at h hr hc ha hb]
  have huniq : ∀ v ∈ A.visits, (v.1 ≤ v.2.1 ∧ A.rl.base v.1 ≤ A.rl.base r + a ∧
      A.rl.base r + a < A.rl.base v.1 + A.rl.size v.1 ∧ A.cl.base v.2.1 ≤ A.cl.base c + b ∧
      A.cl.base c + b < A.cl.base v.2.1 + A.cl.size v.2.1) →
      v.1 = r ∧ v.2.1 = c ∧ A.block r c = some v.2.2 := by
    rintro ⟨r', c', B⟩ hv ⟨_, h1, h2, h3, h4⟩
    obtain ⟨hc', hm⟩ := mem_visits.1 hv
    have e1 := Layout.unique h.rmono (h.shape c' hc' _ hm).1 hr h1 h2 (by omega) (by omega)
    have e2 := Layout.unique h.cmono hc' hc h3 h4 (by omega) (by omega)
    simp only at e1 e2
    subst e1; subst e2
    exact ⟨rfl, rfl, (block_eq_some h hc).2 hm⟩
  unfold SBM.at
  apply foldl_write (fun (v : Nat × Nat × DMat K) i j => v.1 ≤ v.2.1 ∧ A.rl.base v.1 ≤ i ∧
      i < A.rl.base v.1 + A.rl.size v.1 ∧ A.cl.base v.2.1 ≤ j ∧ j < A.cl.base v.2.1 + A.cl.size v.2.1)
    (fun v i j => v.2.2.e (i - A.rl.base v.1) (j - A.cl.base v.2.1))
  · intro v hv hp
    obtain ⟨e1, e2, e3⟩ := huniq v hv hp
    rw [e3, e1, e2]
    simp
  · cases hblk : A.block r c with
    | none => right; rfl
    | some B =>
      left
      exact ⟨(r, c, B), mem_visits.2 ⟨hc, (block_eq_some h hc).1 hblk⟩, by simp only; omega⟩

theorem denseSolve_eq {A : SBM K} (h : WF A) (hsq : A.rl.same A.cl = true)
    (ldlt : Nat → (Nat → Nat → K) → (Nat → K) → Nat → K) (b : Nat → K) :
    denseSolve ldlt A b = .ok (true, ldlt A.cl.total (selfAdjointUpper A.cl.total A.toDense.e) b) := by
  unfold denseSolve
  rw [denseFill_ok h hsq, Res.bind_ok]
  congr 2
  have : selfAdjointUpper A.cl.total (A.visits.foldl (put A) fun _ _ => 0) = selfAdjointUpper A.cl.total A.toDense.e := by
    funext i j
    unfold selfAdjointUpper
    by_cases hn : i < A.cl.total ∧ j < A.cl.total
    · rw [if_pos hn, if_pos hn]
      by_cases hij : i ≤ j
      · rw [if_pos hij, if_pos hij, put_upper h hsq hij hn.2]
      · rw [if_neg hij, if_neg hij, put_upper h hsq (by omega) hn.1]
    · rw [if_neg hn, if_neg hn]
  rw [this]

end lemmas

/-- **C90** (solution; partial: the system must be positive definite, nothing is reported otherwise). For every legal block
matrix with equal row and column layout and every symmetric positive definite `S` whose upper triangle the matrix
holds, `solve` returns normally, reports success, and returns the solution of `S x = b`. Whatever is stored below the
diagonal plays no role, and missing blocks count as zero. -/
theorem C90_solution_partial {K : Type} [Field K] [LinearOrder K] {A : SBM K} (h : WF A) (hsq : A.rl.same A.cl = true)
    {S : Nat → Nat → K} (hS : ∀ i j, i < A.cl.total → j < A.cl.total → S i j = S j i)
    (hu : ∀ i j, i ≤ j → j < A.cl.total → A.toDense.e i j = S i j) (hp : PosDef A.cl.total S)
    {ldlt : Nat → (Nat → Nat → K) → (Nat → K) → Nat → K} (hl : LdltOk ldlt) (b : Nat → K) :
    ∃ x, denseSolve ldlt A b = .ok (true, x) ∧
      ∀ i, i < A.cl.total → ∑ j ∈ Finset.range A.cl.total, S i j * x j = b i := by
  refine ⟨_, denseSolve_eq h hsq ldlt b, ?_⟩
  have hadj : ∀ i j, i < A.cl.total → j < A.cl.total → selfAdjointUpper A.cl.total A.toDense.e i j = S i j := by
    intro i j hi hj
    unfold selfAdjointUpper
    rw [if_pos ⟨hi, hj⟩]
    by_cases hij : i ≤ j
    · rw [if_pos hij, hu i j hij hj]
    · rw [if_neg hij, hu j i (by omega) hi, hS i j hi hj]
  have happ : ∀ v i, i < A.cl.total → apply A.cl.total (selfAdjointUpper A.cl.total A.toDense.e) v i = apply A.cl.total S v i :=
    fun v i hi => Finset.sum_congr rfl fun j hj => by rw [hadj i j hi (Finset.mem_range.1 hj)]
  have hsol := hl A.cl.total (selfAdjointUpper A.cl.total A.toDense.e) b
    (fun i j hi hj => by rw [hadj i j hi hj, hadj j i hj hi, hS i j hi hj])
    (fun v hv => by
      rw [Finset.sum_congr rfl fun i hi => by rw [happ v i (Finset.mem_range.1 hi)]]
      exact hp v hv)
  intro i hi
  rw [← hsol i hi]
  exact Finset.sum_congr rfl fun j hj => by rw [hadj i j hi (Finset.mem_range.1 hj)]

/-- **C90** (only the upper triangle matters). Two legal matrices of the same layout with the same entries on and above
the diagonal give the same answer, whatever the factorisation does. -/
theorem C90_upper_only {K : Type} [CommRing K] {A A' : SBM K} (h : WF A) (h' : WF A') (hsq : A.rl.same A.cl = true)
    (hr : A'.rl = A.rl) (hc : A'.cl = A.cl) (hu : ∀ i j, i ≤ j → j < A.cl.total → A.toDense.e i j = A'.toDense.e i j)
    (ldlt : Nat → (Nat → Nat → K) → (Nat → K) → Nat → K) (b : Nat → K) :
    denseSolve ldlt A b = denseSolve ldlt A' b := by
  rw [denseSolve_eq h hsq, denseSolve_eq h' (by rw [hr, hc]; exact hsq), hc]
  congr 3
  funext i j
  unfold selfAdjointUpper
  by_cases hn : i < A.cl.total ∧ j < A.cl.total
  · rw [if_pos hn, if_pos hn]
    by_cases hij : i ≤ j
    · rw [if_pos hij, if_pos hij, hu i j hij hn.2]
    · rw [if_neg hij, if_neg hij, hu j i (by omega) hn.1]
  · rw [if_neg hn, if_neg hn]

/-- A positive definite system has one solution. -/
theorem posDef_unique {K : Type} [Field K] [LinearOrder K] {n : Nat} {S : Nat → Nat → K} (hp : PosDef n S) {x y b : Nat → K}
    (hx : ∀ i, i < n → ∑ j ∈ Finset.range n, S i j * x j = b i) (hy : ∀ i, i < n → ∑ j ∈ Finset.range n, S i j * y j = b i) :
    ∀ i, i < n → x i = y i := by
  intro i hi
  by_contra hne
  have h := hp (fun j => x j - y j) ⟨i, hi, sub_ne_zero.2 hne⟩
  have hz : ∑ i ∈ Finset.range n, (x i - y i) * apply n S (fun j => x j - y j) i = 0 := by
    apply Finset.sum_eq_zero
    intro k hk
    have : apply n S (fun j => x j - y j) k = 0 := by
      unfold apply
      simp only [mul_sub, Finset.sum_sub_distrib]
      rw [hx k (Finset.mem_range.1 hk), hy k (Finset.mem_range.1 hk), sub_self]
    rw [this, mul_zero]
  rw [hz] at h
  exact lt_irrefl _ h

/-- **C90** (exchanging the solver). On a positive definite system described by its block upper triangle, the dense
solver and the conjugate gradient solver with tolerance zero and the default iteration limit return the same step. -/
theorem C90_agrees_with_pcg {K : Type} [Field K] [LinearOrder K] [IsStrictOrderedRing K] (debug : Bool) {inv : DMat K → DMat K}
    {A : SBM K} {S : Nat → Nat → K} (h : PCG.Describes A S) (hi : PCG.InvOk inv A) (hp : PosDef A.cl.total S)
    {ldlt : Nat → (Nat → Nat → K) → (Nat → K) → Nat → K} (hl : LdltOk ldlt) {hh : PCG.Heap K} {id gen : Nat}
    (hid : hh id = some ⟨gen, A⟩) {s : PCG.St K} (hs1 : s.indices = []) (hs2 : s.sparse = []) (hr : s.residual ≤ 0)
    (ht : s.tol = 0) (hm : s.maxIter < 0 ∨ (A.cl.total : Int) ≤ s.maxIter) (b : Nat → K) :
    ∃ x s' y, denseSolve ldlt A b = .ok (true, x) ∧ PCG.solve debug inv hh s id b = .ok (some (s', y)) ∧
      ∀ i, i < A.cl.total → x i = y i := by
  have htot := Layout.same_total h.square
  obtain ⟨x, ex, hx⟩ := C90_solution_partial h.wf h.square (S := S)
    (fun i j hi hj => h.symm i j (by omega) (by omega))
    (fun i j hij hj => by
      obtain ⟨r, hr, a, ha, rfl⟩ := Layout.locate h.wf.rmono (i := i) (by omega)
      obtain ⟨c, hc, b, hb, rfl⟩ := Layout.locate h.wf.cmono hj
      have hrc : r ≤ c := by
        by_contra hlt
        have h1 := Layout.base_le h.wf.cmono (r := c + 1) (s := r) (by omega) (by rw [← Layout.same_n h.square]; omega)
        have h2 := Layout.same_base h.square (i := r) (by omega)
        have h3 := Layout.base_add_size h.wf.cmono hc
        omega
      exact h.upper r c hrc hc a b ha hb) hp hl b
  obtain ⟨s', y, ey, hy⟩ := PCG.C82_exact debug h hi hp hid hs1 hs2 hr ht hm b
  exact ⟨x, s', y, ex, ey, posDef_unique hp hx hy⟩

/-! ### Concrete cases and limits -/

/-- The contract asked of the factorisation can be met. -/
theorem ldltOk_exists (K : Type) [Field K] [LinearOrder K] :
    ∃ ldlt : Nat → (Nat → Nat → K) → (Nat → K) → Nat → K, LdltOk ldlt := by
  have key : ∀ (n : Nat) (S : Nat → Nat → K) (b : Nat → K), ∃ x : Nat → K, PosDef n S →
      ∀ i, i < n → ∑ j ∈ Finset.range n, S i j * x j = b i := by
    intro n S b
    by_cases hp : PosDef n S
    · let M : Matrix (Fin n) (Fin n) K := fun i j => S i j
      have hinj : Function.Injective (Matrix.toLin' M) := by
        intro u v huv
        funext i
        have ext : ∀ (w : Fin n → K) (k : Fin n), ∑ j ∈ Finset.range n, S k j * (if h : j < n then w ⟨j, h⟩ else 0) =
            Matrix.toLin' M w k := by
          intro w k
          rw [Finset.sum_range, Matrix.toLin'_apply]
          exact Finset.sum_congr rfl fun j _ => by simp [M]
        have := posDef_unique hp (x := fun j => if h : j < n then u ⟨j, h⟩ else 0)
          (y := fun j => if h : j < n then v ⟨j, h⟩ else 0)
          (b := fun k => if h : k < n then Matrix.toLin' M u ⟨k, h⟩ else 0)
          (fun k hk => by rw [ext u ⟨k, hk⟩]; simp [hk]) (fun k hk => by rw [ext v ⟨k, hk⟩, ← huv]; simp [hk]) i i.2
        simpa using this
      obtain ⟨x, hx⟩ := (LinearMap.injective_iff_surjective.1 hinj) fun i => b i
      refine ⟨fun j => if h : j < n then x ⟨j, h⟩ else 0, fun _ i hi => ?_⟩
      have := congrFun hx ⟨i, hi⟩
      rw [Matrix.toLin'_apply] at this
      rw [Finset.sum_range, ← this]
      exact Finset.sum_congr rfl fun j _ => by simp [M]
    · exact ⟨fun _ => 0, fun h => absurd h hp⟩
  choose f hf using key
  exact ⟨f, fun n S b _ hp => hf n S b hp⟩

/-- The system `[[2, 1], [1, 2]]`, given by its upper triangle, meets the hypotheses for both solvers. -/
example : ∃ ldlt : Nat → (Nat → Nat → ℚ) → (Nat → ℚ) → Nat → ℚ, LdltOk ldlt ∧
    ∃ x s' y, denseSolve ldlt (PCG.mat2 2 1 2) (fun i => i) = .ok (true, x) ∧
      PCG.solve true PCG.inv1 (fun _ => some ⟨0, PCG.mat2 2 1 2⟩) { (PCG.new : PCG.St ℚ) with tol := 0 } 0 (fun i => i) =
        .ok (some (s', y)) ∧ (∀ i, i < 2 → x i = y i) := by
  obtain ⟨ldlt, hl⟩ := ldltOk_exists ℚ
  obtain ⟨x, s', y, h1, h2, h3⟩ := C90_agrees_with_pcg true (PCG.mat2_describes 2 1 2)
    (PCG.mat2_inv (by norm_num) (by norm_num)) (PCG.mat2_posDef (a := 2) (b := 1) (c := 2) (by norm_num) (by norm_num)) hl
    (hh := fun _ => some ⟨0, PCG.mat2 2 1 2⟩) (id := 0) (gen := 0) rfl
    (s := { (PCG.new : PCG.St ℚ) with tol := 0 }) rfl rfl (by norm_num [PCG.new]) rfl (by decide) (fun i => (i : ℚ))
  exact ⟨ldlt, hl, x, s', y, h1, h2, h3⟩

/-- **C90, limit** (success without a solution). `solve` reports success for a system that has no solution, whatever
Eigen does. -/
theorem C90_singular_counterexample (ldlt : Nat → (Nat → Nat → ℚ) → (Nat → ℚ) → Nat → ℚ) :
    ∃ (A : SBM ℚ) (b : Nat → ℚ), WF A ∧ A.rl.same A.cl = true ∧ (∃ x, denseSolve ldlt A b = .ok (true, x)) ∧
      ¬ ∃ y : Nat → ℚ, ∀ i, i < A.cl.total → ∑ j ∈ Finset.range A.cl.total, PCG.dense2 1 1 1 i j * y j = b i := by
  refine ⟨PCG.mat2 1 1 1, fun i => i, PCG.mat2_wf _ _ _, Layout.same_refl _,
    ⟨_, denseSolve_eq (PCG.mat2_wf 1 1 1) (Layout.same_refl _) ldlt _⟩, ?_⟩
  rintro ⟨y, hy⟩
  have h0 := hy 0 (by decide)
  have h1 := hy 1 (by decide)
  rw [PCG.mat2_total] at h0 h1
  simp only [Finset.sum_range_succ, Finset.sum_range_zero, PCG.dense2] at h0 h1
  norm_num at h0 h1
  linarith

/-- **C90, limit** (rectangular matrices). A matrix with more rows than columns is not rejected: blocks are copied past
the end of the dense matrix. -/
theorem C90_rectangular_counterexample (ldlt : Nat → (Nat → Nat → Int) → (Nat → Int) → Nat → Int) :
    ∃ A : SBM Int, WF A ∧ denseSolve ldlt A (fun _ => 0) = .ub := by
  refine ⟨⟨⟨1, fun _ => 2⟩, ⟨1, fun _ => 1⟩, true, fun c => if c = 0 then [(0, ⟨2, 1, fun _ _ => 1⟩)] else []⟩,
    ⟨by intro r h; simp, by intro r h; simp, ?_, ?_⟩, rfl⟩
  · intro c hc
    have : c < 1 := hc
    interval_cases c; simp
  · intro c hc p hp
    have : c < 1 := hc
    interval_cases c
    simp at hp
    subst hp
    simp [Layout.size]

end Verif.Direct
