import Verif.MatrixStack.Lemmas

/-!
Property theorems C01, C02 for the chain-rule stack.
-/
namespace Verif.MatrixStack
open Spec

variable {R : Type} [Semiring R]

/-- **C01.** After every history of legal calls (conformable sizes that fit the integer types, no pop
of an empty stack), for every reserve and alignment, in debug and release builds: every call returns
normally, the stack has one stored matrix per live factor, and the stored matrix at depth `k` (0 = top)
is the product of the live factors from depth `k` down to the first push. -/
theorem C01_top_is_product (debug : Bool) (align numRows a b : Nat) (ha : 0 < align)
    (hn : numRows < 2 ^ 16) (os : List (Op R)) (fs : List (DMat R))
    (hr : Spec.Run align numRows [] os fs) :
    ∃ s, Res.run (step debug align) (new numRows a b) os = .ok s ∧ s.numRows = numRows ∧
      s.headers.length = fs.length ∧
      ∀ k h f, s.headers[k]? = some h → fs[k]? = some f →
        h.cols = f.cols ∧
        ∀ i j, i < numRows → j < f.cols → s.coeff h i j = prod (fs.drop k) i j := by
  have hnr : (new numRows a b : Stack R).numRows = numRows := Nat.mod_eq_of_lt hn
  obtain ⟨s, e, n, inv⟩ := run_inv (debug := debug) ha (new_inv align numRows a b) (by rw [hnr]; exact hr)
  rw [hnr] at n
  have key : ∀ (fs : List (DMat R)), Holds align numRows s.mem fs →
      (layout align numRows fs).length = fs.length ∧
      ∀ k h f, (layout align numRows fs)[k]? = some h → fs[k]? = some f → h.cols = f.cols ∧
        ∀ i j, i < numRows → j < f.cols → s.coeff h i j = prod (fs.drop k) i j := by
    intro fs hh
    induction fs with
    | nil => simp [layout]
    | cons f fs ih =>
      obtain ⟨h1, h2⟩ := hh
      obtain ⟨l1, l2⟩ := ih h2
      refine ⟨by simp [layout, l1], ?_⟩
      intro k h g hk hg
      cases k with
      | zero =>
        simp only [layout, List.getElem?_cons_zero, Option.some.injEq] at hk hg
        subst hk; subst hg
        refine ⟨rfl, fun i j hi hj => ?_⟩
        simpa [Stack.coeff, n] using h1 i j hi hj
      | succ k =>
        simp only [layout, List.getElem?_cons_succ] at hk hg
        simpa using l2 k h g hk hg
  have hh := inv.holds
  have hl := inv.headers
  rw [n] at hh hl
  refine ⟨s, e, n, ?_⟩
  rw [hl]
  exact key fs hh

/-- **C01** (forbidden pop). Popping the empty stack throws, in every state whose chain is empty. -/
theorem C01_pop_empty_throws (s : Stack R) (h : s.headers = []) : pop s = .exc := by
  simp [pop, h]

/-- **C01** (restore). A push followed by a pop restores every observable of the stack: the headers, the
element count, and all stored coefficients of the matrices that were live before. -/
theorem C01_push_pop_restores (debug : Bool) (align numRows a b : Nat) (ha : 0 < align)
    (hn : numRows < 2 ^ 16) (os : List (Op R)) (fs : List (DMat R)) (m : DMat R)
    (hr : Spec.Run align numRows [] (os ++ [.pushM m]) (m :: fs)) (hr0 : Spec.Run align numRows [] os fs) :
    ∃ s s', Res.run (step debug align) (new numRows a b) os = .ok s ∧
      Res.run (step debug align) (new numRows a b) (os ++ [.pushM m, .pop]) = .ok s' ∧
      s'.headers = s.headers ∧ s'.dataSize = s.dataSize ∧
      ∀ h ∈ s.headers, ∀ i j, i < numRows → j < h.cols → s'.coeff h i j = s.coeff h i j := by
  have hnr : (new numRows a b : Stack R).numRows = numRows := Nat.mod_eq_of_lt hn
  obtain ⟨s, e, n, inv⟩ := run_inv (debug := debug) ha (new_inv align numRows a b) (by rw [hnr]; exact hr0)
  rw [hnr] at n
  have app : ∀ (os : List (Op R)) (fs0 fs1 : List (DMat R)), Spec.Run align numRows fs0 os fs1 →
      Fits align numRows fs0 → Fits align numRows fs1 := by
    intro os fs0 fs1 h hf
    induction h with
    | nil => exact hf
    | cons _ h2 _ ih => exact ih h2
  have hr2 : Spec.Run align numRows [] (os ++ [.pushM m, .pop]) fs := by
    have : ∀ (os : List (Op R)) (fs0 : List (DMat R)), Fits align numRows fs0 →
        Spec.Run align numRows fs0 (os ++ [.pushM m]) (m :: fs) →
        Spec.Run align numRows fs0 (os ++ [.pushM m, .pop]) fs := by
      intro os
      induction os with
      | nil =>
        intro fs0 _ h
        cases h with
        | cons h1 h2 h3 =>
          cases h3
          refine .cons h1 h2 (.cons (fs' := fs) rfl h2.2.2.2 (.nil _))
      | cons o os ih =>
        intro fs0 hf h
        cases h with
        | cons h1 h2 h3 => exact .cons h1 h2 (ih _ h2 h3)
    exact this os [] trivial hr
  obtain ⟨s', e', n', inv'⟩ := run_inv (debug := debug) ha (new_inv align numRows a b) (by rw [hnr]; exact hr2)
  rw [hnr] at n'
  refine ⟨s, s', e, e', ?_, ?_, ?_⟩
  · rw [inv.headers, inv'.headers, n, n']
  · rw [inv.size, inv'.size, n, n']
  · have h1 := inv.holds
    have h2 := inv'.holds
    have h3 := inv.headers
    rw [n] at h1 h3
    rw [n'] at h2
    rw [h3]
    clear hr hr0 hr2 inv inv' h3
    have key : ∀ fs : List (DMat R), Holds align numRows s.mem fs → Holds align numRows s'.mem fs →
        ∀ h ∈ layout align numRows fs, ∀ i j, i < numRows → j < h.cols →
          s'.coeff h i j = s.coeff h i j := by
      intro fs
      induction fs with
      | nil => intro _ _ h hm; simp [layout] at hm
      | cons f fs ih =>
        intro h1 h2 h hm i j hi hj
        simp only [layout, List.mem_cons] at hm
        rcases hm with rfl | hm
        · simp only [Stack.coeff, n, n']
          rw [h1.1 i j hi hj, h2.1 i j hi hj]
        · exact ih h1.2 h2.2 h hm i j hi hj
    exact key fs h1 h2

/-- **C02.** After every history of legal calls, for every alignment and every reserve: each live matrix
occupies a region that starts on an aligned element and lies inside the buffer, and the regions are
pairwise disjoint (each later one starts at or after the end of every earlier one). -/
theorem C02_regions_disjoint_aligned_in_bounds (debug : Bool) (align numRows a b : Nat) (ha : 0 < align)
    (hn : numRows < 2 ^ 16) (os : List (Op R)) (fs : List (DMat R))
    (hr : Spec.Run align numRows [] os fs) :
    ∃ s, Res.run (step debug align) (new numRows a b) os = .ok s ∧
      (∀ h ∈ s.headers, h.dataIndex % align = 0 ∧ h.dataIndex + numRows * h.cols ≤ s.cap) ∧
      s.headers.Pairwise (fun later earlier =>
        earlier.dataIndex + numRows * earlier.cols ≤ later.dataIndex) := by
  have hnr : (new numRows a b : Stack R).numRows = numRows := Nat.mod_eq_of_lt hn
  obtain ⟨s, e, n, inv⟩ := run_inv (debug := debug) ha (new_inv align numRows a b) (by rw [hnr]; exact hr)
  rw [hnr] at n
  have hl := inv.headers
  have hc := inv.cap
  rw [n] at hl hc
  refine ⟨s, e, ?_⟩
  rw [hl]
  clear hr inv hl e
  have key : ∀ fs : List (DMat R),
      (∀ h ∈ layout align numRows fs, h.dataIndex % align = 0 ∧
        h.dataIndex + numRows * h.cols ≤ footprint align numRows fs) ∧
      (layout align numRows fs).Pairwise (fun later earlier =>
        earlier.dataIndex + numRows * earlier.cols ≤ later.dataIndex) := by
    intro fs
    induction fs with
    | nil => simp [layout]
    | cons f fs ih =>
      have hle := le_roundUp align (footprint align numRows fs) ha
      refine ⟨?_, ?_⟩
      · intro h hm
        simp only [layout, List.mem_cons] at hm
        rcases hm with rfl | hm
        · exact ⟨roundUp_mod _ _, by simp [footprint]⟩
        · obtain ⟨h1, h2⟩ := ih.1 h hm
          exact ⟨h1, by simp only [footprint]; omega⟩
      · simp only [layout, List.pairwise_cons]
        exact ⟨fun h hm => le_trans (ih.1 h hm).2 hle, ih.2⟩
  exact ⟨fun h hm => ⟨((key fs).1 h hm).1, le_trans ((key fs).1 h hm).2 hc⟩, (key fs).2⟩

/-- **C02** (frame). A write to a region leaves every element outside the region unchanged. -/
theorem C02_write_frame (s s' : Stack R) (h : Header) (f : Nat → Nat → R)
    (hw : s.write h f = .ok s') (a : Nat) (ha : a < h.dataIndex ∨ s.regionEnd h ≤ a) :
    s'.mem a = s.mem a := by
  unfold Stack.write at hw
  simp only at hw
  split at hw
  · cases hw
    simp only
    rw [if_neg (by omega)]
  · cases hw

/-- **C01, limit of the claim.** The header stores the column count in 16 bits: no push of a matrix
with 65536 or more columns completes normally, from whatever state. -/
theorem C01_limit_too_many_columns (debug : Bool) (align : Nat) (s : Stack R) (m : DMat R)
    (hm : 2 ^ 16 ≤ m.cols) (s' : Stack R) : pushM debug align s m ≠ .ok s' := by
  have key : ∀ s1, allocate debug align s m.cols = .ok s1 →
      ∃ h hs, s1.headers = h :: hs ∧ h.cols ≠ m.cols := by
    intro s1 h
    unfold allocate at h
    split at h
    · cases h
    · simp only at h
      split at h
      · cases h
      · cases h
        exact ⟨_, _, rfl, by simp only; omega⟩
  intro h
  unfold pushM at h
  split at h
  · split at h
    · split at h <;> cases h
    · cases ha : allocate debug align s m.cols with
      | ok s1 =>
        obtain ⟨hd, hs, e1, e2⟩ := key s1 ha
        rw [ha] at h
        simp only [Res.bind_ok, e1] at h
        rw [if_pos (Or.inl e2)] at h
        cases h
      | exc => rw [ha] at h; cases h
      | ub => rw [ha] at h; cases h
  · split at h
    · split at h <;> cases h
    · cases ha : allocate debug align s m.cols with
      | ok s1 =>
        obtain ⟨hd, hs, e1, e2⟩ := key s1 ha
        rw [ha] at h
        simp only [Res.bind_ok, e1] at h
        rw [if_pos e2] at h
        cases h
      | exc => rw [ha] at h; cases h
      | ub => rw [ha] at h; cases h

/-- **C01** (size check). In debug builds a push whose row count differs from the column count of the
current product throws. -/
theorem C01_debug_mismatch_throws (align : Nat) (s : Stack R) (m : DMat R)
    (h : m.rows ≠ (match s.headers with | [] => s.numRows | t :: _ => t.cols)) :
    pushM true align s m = .exc := by
  unfold pushM
  split <;> rename_i h' <;> rw [h'] at h <;> simp [Ne.symm h]

/-- Concrete non-trivial history (2 rows; push 2×3, push a scalar, pop, push 3×1) meeting the
hypotheses of the theorems above. -/
def demoOps : List (Op Int) :=
  [.pushM ⟨2, 3, fun i j => i + j⟩, .pushS 5, .pop, .pushM ⟨3, 1, fun i _ => i⟩]

example : Spec.Run 4 2 [] demoOps
    [⟨3, 1, fun i _ => (i : Int)⟩, ⟨2, 3, fun i j => (i : Int) + j⟩] := by
  refine .cons (fs' := [⟨2, 3, fun i j => (i : Int) + j⟩]) rfl ?_
    (.cons (fs' := [scalarMat 3 5, ⟨2, 3, fun i j => (i : Int) + j⟩]) rfl ?_
      (.cons (fs' := [⟨2, 3, fun i j => (i : Int) + j⟩]) rfl ?_
        (.cons rfl ?_ (.nil _)))) <;>
  simp [Fits, footprint, roundUp, scalarMat]

example : (0 : Nat) < 4 ∧ (2 : Nat) < 2 ^ 16 := by decide

end Verif.MatrixStack
