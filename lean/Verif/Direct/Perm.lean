import Verif.SBM.CCSProps
import Verif.Prelude
import Mathlib.Tactic.IntervalCases

/-!
Model of the block ordering of the Cholesky classes: the buffer for the block structure
(`MatrixStructure`, matrix_structure.cpp) and the permutation of scalar columns made from a permutation of
block columns (`computeSymbolicDecomposition`, linear_solver_cholmod.h:219-283 and
linear_solver_csparse.h:228-285), with property theorem C85.
-/
namespace Verif.Direct
open Verif.SBM

/-! ### The structure buffer -/

/-- `MatrixStructure`, matrix_structure.h:43-53: `n`, `maxN`, `maxNz`; the lengths of the arrays `Ap` and
`Aii` (`none` is the null pointer); and how many arrays were allocated and lost. -/
structure MS where
  n : Nat
  maxN : Nat
  maxNz : Nat
  ap : Option Nat
  aii : Option Nat
  lost : Nat

/-- Constructor, matrix_structure.cpp:35-38. -/
def MS.new : MS := ⟨0, 0, 0, none, none, 0⟩

/-- How many arrays are held. Not code: counted for matrix_structure.cpp:35-76. -/
def MS.held (s : MS) : Nat := (if s.ap.isSome then 1 else 0) + (if s.aii.isSome then 1 else 0)

/-- `alloc(n, nz)`, matrix_structure.cpp:45-66. -/
def MS.alloc (s : MS) (n nz : Nat) : MS :=
  if s.n = 0 then ⟨n, n, nz, some (n + 1), some nz, s.lost + s.held⟩
  else
    let s := { s with n := n }
    let s := if s.maxNz < nz then { s with maxNz := 2 * nz, aii := some (2 * nz) } else s
    if s.maxN < n then { s with maxN := 2 * n, ap := some (2 * n + 1) } else s

/-- `free()`, matrix_structure.cpp:68-76. -/
def MS.free (s : MS) : MS := ⟨0, 0, 0, none, none, s.lost⟩

/-- Calls on the buffer. matrix_structure.cpp:35-76. -/
inductive MSOp
  | alloc (n nz : Nat)
  | free

/-- One call. matrix_structure.cpp:35-76 (dispatch only). -/
def MS.step (s : MS) : MSOp → MS
  | .alloc n nz => s.alloc n nz
  | .free => s.free

/-- `nonZeroBlocks()`, sparse_block_matrix.hpp:569-574. -/
def nonZeroBlocks {R : Type} (A : SBM R) : Nat := ((List.range A.cl.n).map fun c => (A.col c).length).sum

/-- Writing the block structure of `A`, sparse_block_matrix.hpp:860-884: `alloc` with the number of stored
blocks, then the two lists of `fillBlockStructure`; writing past an array is undefined behaviour. -/
def MS.fill {R : Type} [CommRing R] (s : MS) (A : SBM R) : Res MS :=
  let s := s.alloc A.cl.n (nonZeroBlocks A)
  match s.ap, s.aii with
  | some a, some b =>
    if (fillBlockStructure A).1.length ≤ a ∧ (fillBlockStructure A).2.length ≤ b then .ok s else .ub
  | _, _ => .ub

/-! ### The permutation of scalar columns -/

/-- An Eigen vector that is only ever enlarged, linear_solver_cholmod.h:254-257,
linear_solver_csparse.h:252-255. -/
def resized (size n : Nat) : Nat :=
  let size := if size = 0 then n else size
  if size < n then 2 * n else size

/-- The two nested loops that blow up the block permutation, linear_solver_cholmod.h:258-265,
linear_solver_csparse.h:256-263: the values written to `_scalarPermutation(0)`, `(1)`, and so on. -/
def blowUp (L : Layout) (P : List Nat) : List Nat :=
  P.foldl (fun acc p => (List.range (L.size p)).foldl (fun acc j => acc ++ [L.base p + j]) acc) []

/-- The write position stays inside the vector, otherwise undefined behaviour (an assertion in debug
builds of the matrix library). linear_solver_cholmod.h:219-283, linear_solver_csparse.h:228-285. -/
def scalarPermutation (size : Nat) (L : Layout) (P : List Nat) : Res (Nat × List Nat) :=
  let size := resized size L.total
  if (blowUp L P).length ≤ size then .ok (size, blowUp L P) else .ub

/-- The inversion `pinv(p[i]) = i`, linear_solver_cholmod.h:143-146, 190-193. -/
def invert (p : List Nat) : Nat → Nat :=
  (p.zipIdx).foldl (fun f e => Function.update f e.1 e.2) fun _ => 0

/-! ### C85 -/

/-- What holds for the buffer between calls. -/
def MS.Ok (s : MS) : Prop := s.n ≠ 0 → s.ap = some (s.maxN + 1) ∧ s.aii = some s.maxNz

theorem MS.alloc_spec {s : MS} (h : s.Ok) (n nz : Nat) : (s.alloc n nz).Ok ∧ (s.alloc n nz).n = n ∧
    ∃ a b, (s.alloc n nz).ap = some a ∧ (s.alloc n nz).aii = some b ∧ n + 1 ≤ a ∧ nz ≤ b := by
  unfold MS.alloc
  by_cases h0 : s.n = 0
  · simp only [if_pos h0]
    exact ⟨fun _ => ⟨rfl, rfl⟩, trivial, _, _, rfl, rfl, le_refl _, le_refl _⟩
  · obtain ⟨h1, h2⟩ := h h0
    simp only [if_neg h0]
    by_cases c1 : s.maxNz < nz
    · simp only [if_pos c1]
      by_cases c2 : s.maxN < n
      · simp only [if_pos c2]
        exact ⟨fun _ => ⟨rfl, rfl⟩, trivial, _, _, rfl, rfl, by omega, by omega⟩
      · simp only [if_neg c2]
        exact ⟨fun _ => ⟨h1, rfl⟩, trivial, _, _, h1, rfl, by omega, by omega⟩
    · simp only [if_neg c1]
      by_cases c2 : s.maxN < n
      · simp only [if_pos c2]
        exact ⟨fun _ => ⟨rfl, h2⟩, trivial, _, _, rfl, h2, by omega, by omega⟩
      · simp only [if_neg c2]
        exact ⟨fun _ => ⟨h1, h2⟩, trivial, _, _, h1, h2, by omega, by omega⟩

theorem MS.run_ok (ops : List MSOp) {s : MS} (h : s.Ok) : (ops.foldl MS.step s).Ok := by
  induction ops generalizing s with
  | nil => exact h
  | cons o os ih =>
    apply ih
    cases o with
    | alloc n nz => exact (MS.alloc_spec h n nz).1
    | free => exact fun h => absurd rfl h

theorem structure_len {R : Type} [CommRing R] (A : SBM R) :
    (fillBlockStructure A).1.length = A.cl.n + 1 ∧ (fillBlockStructure A).2.length ≤ nonZeroBlocks A := by
  have inner : ∀ c (l : List (Nat × MatrixStack.DMat R)) (s : List Nat × List Nat × Nat),
      let s' := l.foldl (fun (s : List Nat × List Nat × Nat) p =>
        if p.1 ≤ c then (s.1, s.2.1 ++ [p.1], s.2.2 + 1) else s) s
      s'.1 = s.1 ∧ s'.2.1.length ≤ s.2.1.length + l.length := by
    intro c l
    induction l with
    | nil => intro s; exact ⟨rfl, by simp⟩
    | cons p l ih =>
      intro s
      obtain ⟨h1, h2⟩ := ih (if p.1 ≤ c then (s.1, s.2.1 ++ [p.1], s.2.2 + 1) else s)
      rw [List.foldl_cons]
      refine ⟨h1.trans (by split <;> rfl), h2.trans ?_⟩
      split <;> simp <;> omega
  have outer : ∀ (cs : List Nat) (s : List Nat × List Nat × Nat),
      let s' := cs.foldl (fun (s : List Nat × List Nat × Nat) c =>
        (A.col c).foldl (fun (s : List Nat × List Nat × Nat) p =>
          if p.1 ≤ c then (s.1, s.2.1 ++ [p.1], s.2.2 + 1) else s) (s.1 ++ [s.2.2], s.2.1, s.2.2)) s
      s'.1.length = s.1.length + cs.length ∧
        s'.2.1.length ≤ s.2.1.length + (cs.map fun c => (A.col c).length).sum := by
    intro cs
    induction cs with
    | nil => intro s; exact ⟨rfl, by simp⟩
    | cons c cs ih =>
      intro s
      rw [List.foldl_cons]
      obtain ⟨h1, h2⟩ := ih ((A.col c).foldl (fun (s : List Nat × List Nat × Nat) p =>
          if p.1 ≤ c then (s.1, s.2.1 ++ [p.1], s.2.2 + 1) else s) (s.1 ++ [s.2.2], s.2.1, s.2.2))
      obtain ⟨g1, g2⟩ := inner c (A.col c) (s.1 ++ [s.2.2], s.2.1, s.2.2)
      simp only at g1 g2
      refine ⟨?_, ?_⟩
      · rw [h1, g1]; simp; omega
      · refine h2.trans ?_
        simp only [List.map_cons, List.sum_cons]
        omega
  obtain ⟨h1, h2⟩ := outer (List.range A.cl.n) ([], [], 0)
  unfold fillBlockStructure nonZeroBlocks
  refine ⟨?_, ?_⟩
  · simp only [List.length_append, List.length_singleton]
    rw [h1]; simp
  · simpa using h2

/-- **C85** (the structure fits). After every history of allocations and frees, writing the block
structure of any matrix stays inside the buffer. -/
theorem C85_structure_fits {R : Type} [CommRing R] (ops : List MSOp) (A : SBM R) :
    ∃ s, (ops.foldl MS.step MS.new).fill A = .ok s ∧ s.n = A.cl.n := by
  have h : (ops.foldl MS.step MS.new).Ok := MS.run_ok ops fun h => absurd rfl h
  obtain ⟨_, h2, a, b, h3, h4, h5, h6⟩ := MS.alloc_spec h A.cl.n (nonZeroBlocks A)
  obtain ⟨l1, l2⟩ := structure_len A
  refine ⟨_, ?_, h2⟩
  unfold MS.fill
  simp only [h3, h4]
  rw [if_pos ⟨by omega, by omega⟩]

/-- **C85** (partial: nothing is lost). Histories which never ask for zero columns lose no memory.
Missing: an allocation for zero columns (see the counterexample). -/
theorem C85_no_leak_partial (ops : List MSOp) (h : ∀ n nz, MSOp.alloc n nz ∈ ops → n ≠ 0) :
    (ops.foldl MS.step MS.new).lost = 0 := by
  have key : ∀ (ops : List MSOp) (s : MS), (∀ n nz, MSOp.alloc n nz ∈ ops → n ≠ 0) → s.lost = 0 →
      (s.n = 0 → s.held = 0) → (ops.foldl MS.step s).lost = 0 := by
    intro ops
    induction ops with
    | nil => intro s _ h _; exact h
    | cons o os ih =>
      intro s hn hl hh
      have hos : ∀ n nz, MSOp.alloc n nz ∈ os → n ≠ 0 := fun n nz hm => hn n nz (by simp [hm])
      cases o with
      | free => exact ih _ hos hl fun _ => rfl
      | alloc n nz =>
        have hne := hn n nz (by simp)
        apply ih _ hos
        · show (s.alloc n nz).lost = 0
          unfold MS.alloc
          by_cases h0 : s.n = 0
          · simp only [if_pos h0, hl, hh h0]
          · simp only [if_neg h0]
            by_cases c1 : s.maxNz < nz <;> by_cases c2 : s.maxN < n <;> simp [c1, c2, hl]
        · intro hz
          exfalso
          revert hz
          show (s.alloc n nz).n = 0 → False
          unfold MS.alloc
          by_cases h0 : s.n = 0
          · simp only [if_pos h0]; exact hne
          · simp only [if_neg h0]
            by_cases c1 : s.maxNz < nz <;> by_cases c2 : s.maxN < n <;> simp [c1, c2, hne]
  exact key ops MS.new h rfl fun _ => rfl

/-- **C85** (counterexample: zero columns). After an allocation for zero columns the next allocation
forgets both arrays. -/
theorem C85_leak_counterexample :
    ([MSOp.alloc 0 0, MSOp.alloc 2 3].foldl MS.step MS.new).lost = 2 := rfl

theorem blowUp_eq (L : Layout) (P : List Nat) :
    blowUp L P = P.flatMap fun p => (List.range (L.size p)).map fun j => L.base p + j := by
  have inner : ∀ (js : List Nat) (p : Nat) (acc : List Nat),
      js.foldl (fun acc j => acc ++ [L.base p + j]) acc = acc ++ js.map fun j => L.base p + j := by
    intro js p
    induction js with
    | nil => intro acc; simp
    | cons j js ih => intro acc; rw [List.foldl_cons, ih]; simp
  have outer : ∀ (P : List Nat) (acc : List Nat),
      P.foldl (fun acc p => (List.range (L.size p)).foldl (fun acc j => acc ++ [L.base p + j]) acc) acc =
      acc ++ P.flatMap fun p => (List.range (L.size p)).map fun j => L.base p + j := by
    intro P
    induction P with
    | nil => intro acc; simp
    | cons p P ih => intro acc; rw [List.foldl_cons, inner, ih]; simp
  exact (outer P []).trans (by simp)

theorem blowUp_id {L : Layout} (h : L.Mono) :
    ((List.range L.n).flatMap fun p => (List.range (L.size p)).map fun j => L.base p + j) =
      List.range L.total := by
  have key : ∀ m, m ≤ L.n →
      ((List.range m).flatMap fun p => (List.range (L.size p)).map fun j => L.base p + j) =
        List.range (L.base m) := by
    intro m
    induction m with
    | zero => intro _; simp [Layout.base]
    | succ m ih =>
      intro hm
      rw [List.range_succ, List.flatMap_append, ih (by omega), List.flatMap_singleton,
        ← Layout.base_add_size h (r := m) (by omega), List.range_add]
  rw [key _ (le_refl _)]
  congr 1

/-- **C85** (the scalar permutation). For every layout and every order of the block columns, whatever the
vector held before: the loops write inside the vector, the result is a permutation of all scalar columns,
and the columns of each block stay together in their order, blocks following in the given order. -/
theorem C85_permutation (L : Layout) (h : L.Mono) (P : List Nat) (hP : P.Perm (List.range L.n)) (size : Nat) :
    ∃ size' Q, scalarPermutation size L P = .ok (size', Q) ∧ L.total ≤ size' ∧
      Q.Perm (List.range L.total) ∧
      ∀ pre p post, P = pre ++ p :: post → ∀ j, j < L.size p →
        Q[(pre.map L.size).sum + j]? = some (L.base p + j) := by
  have hperm : (blowUp L P).Perm (List.range L.total) := by
    rw [blowUp_eq, ← blowUp_id h]
    exact hP.flatMap_right _
  have hsz : L.total ≤ resized size L.total := by
    unfold resized
    simp only
    split <;> split <;> omega
  refine ⟨resized size L.total, blowUp L P, ?_, hsz, hperm, ?_⟩
  · unfold scalarPermutation
    simp only
    rw [if_pos]
    rw [hperm.length_eq, List.length_range]; exact hsz
  · intro pre p post hp j hj
    have hl : (pre.flatMap fun p => (List.range (L.size p)).map fun j => L.base p + j).length =
        (pre.map L.size).sum := by
      rw [List.length_flatMap]; simp
    rw [blowUp_eq, hp, List.flatMap_append, List.flatMap_cons, ← hl,
      List.getElem?_append_right (by omega), List.getElem?_append_left (by simp; omega)]
    simp [hj]

/-- **C85** (inverse). The inverted permutation undoes the permutation. -/
theorem C85_inverse (n : Nat) (p : List Nat) (hp : p.Perm (List.range n)) :
    (∀ i v, p[i]? = some v → invert p v = i) ∧ ∀ v, v < n → p[invert p v]? = some v := by
  have key : ∀ (p : List Nat) (k : Nat) (f : Nat → Nat), p.Nodup →
      (∀ i v, p[i]? = some v →
        ((p.zipIdx k).foldl (fun f e => Function.update f e.1 e.2) f) v = k + i) ∧
      (∀ v, v ∉ p → ((p.zipIdx k).foldl (fun f e => Function.update f e.1 e.2) f) v = f v) := by
    intro p
    induction p with
    | nil => intro k f _; simp
    | cons a p ih =>
      intro k f hn
      obtain ⟨h1, h2⟩ := List.nodup_cons.1 hn
      obtain ⟨g1, g2⟩ := ih (k + 1) (Function.update f a k) h2
      rw [List.zipIdx_cons, List.foldl_cons]
      refine ⟨fun i v hi => ?_, fun v hv => ?_⟩
      · cases i with
        | zero =>
          simp only [List.getElem?_cons_zero, Option.some.injEq] at hi
          subst hi
          rw [g2 _ h1]; simp
        | succ i =>
          rw [List.getElem?_cons_succ] at hi
          rw [g1 i v hi]; omega
      · simp only [List.mem_cons, not_or] at hv
        rw [g2 v hv.2]; simp [Function.update, hv.1]
  have hn : p.Nodup := hp.nodup_iff.2 List.nodup_range
  have h1 : ∀ i v, p[i]? = some v → invert p v = i := fun i v hi => by
    have := (key p 0 (fun _ => 0) hn).1 i v hi
    simpa [invert] using this
  refine ⟨h1, fun v hv => ?_⟩
  obtain ⟨i, hi, e⟩ := List.mem_iff_getElem.1 (hp.mem_iff.2 (List.mem_range.2 hv))
  have : p[i]? = some v := by rw [List.getElem?_eq_getElem hi, e]
  rw [h1 i v this, this]

/-- The hypotheses are met by three blocks of sizes 2, 1, 3 in the order 2, 0, 1. -/
example : (⟨3, fun i => if i = 0 then 2 else if i = 1 then 3 else 6⟩ : Layout).Mono ∧
    [2, 0, 1].Perm (List.range 3) ∧
    scalarPermutation 1 ⟨3, fun i => if i = 0 then 2 else if i = 1 then 3 else 6⟩ [2, 0, 1] =
      .ok (12, [3, 4, 5, 0, 1, 2]) ∧
    invert [3, 4, 5, 0, 1, 2] 4 = 1 ∧
    (∀ n nz, MSOp.alloc n nz ∈ [MSOp.alloc 2 3, MSOp.free, MSOp.alloc 5 1, MSOp.alloc 7 9] → n ≠ 0) := by
  refine ⟨?_, by decide, rfl, rfl, ?_⟩
  · intro i hi
    have : i + 1 < 3 := hi
    have : i < 2 := by omega
    interval_cases i <;> simp
  · intro n nz h
    simp at h
    omega

end Verif.Direct
