import Mathlib.Tactic.Ring
import Mathlib.Algebra.BigOperators.Group.Finset.Piecewise
import Verif.MatrixStack.Spec

namespace Verif.MatrixStack
open Spec

variable {R : Type} [Semiring R]

theorem alignStart_eq (align n : Nat) (h : 0 < align) : alignStart align n = roundUp align n := by
  unfold alignStart roundUp
  have h1 := Nat.div_add_mod n align
  have h2 := Nat.mod_lt n h
  set q := n / align with hq
  set r := n % align with hr
  by_cases h0 : r = 0
  · rw [if_neg (by simpa using h0)]
    have : (n + align - 1) / align = q := by
      apply Nat.div_eq_of_lt_le
      · rw [Nat.mul_comm]; omega
      · rw [Nat.add_mul, Nat.mul_comm q]; omega
    rw [this, Nat.mul_comm]; omega
  · rw [if_pos h0]
    have : (n + align - 1) / align = q + 1 := by
      apply Nat.div_eq_of_lt_le
      · rw [Nat.add_mul, Nat.mul_comm q]; omega
      · rw [Nat.add_mul, Nat.add_mul, Nat.mul_comm q]; omega
    rw [this, Nat.add_mul, Nat.mul_comm q]; omega

theorem le_roundUp (align n : Nat) (h : 0 < align) : n ≤ roundUp align n := by
  rw [← alignStart_eq align n h]; unfold alignStart; split <;> omega

theorem roundUp_mod (align n : Nat) : roundUp align n % align = 0 := by
  unfold roundUp; simp

/-- Headers the implementation keeps for given live factors. -/
def layout (align numRows : Nat) : List (DMat R) → List Header
  | [] => []
  | f :: fs => ⟨f.cols, roundUp align (footprint align numRows fs)⟩ :: layout align numRows fs

/-- The buffer holds the partial products. -/
def Holds (align numRows : Nat) (mem : Nat → R) : List (DMat R) → Prop
  | [] => True
  | f :: fs => (∀ i j, i < numRows → j < f.cols →
      mem (roundUp align (footprint align numRows fs) + j * numRows + i) = prod (f :: fs) i j) ∧
      Holds align numRows mem fs

structure Inv (align : Nat) (s : Stack R) (fs : List (DMat R)) : Prop where
  headers : s.headers = layout align s.numRows fs
  size : s.dataSize = footprint align s.numRows fs
  cap : footprint align s.numRows fs ≤ s.cap
  holds : Holds align s.numRows s.mem fs
  fits : Fits align s.numRows fs

theorem idx_lt {n m i j : Nat} (hi : i < n) (hj : j < m) : j * n + i < n * m := by
  calc j * n + i < j * n + n := by omega
    _ = n * (j + 1) := by ring
    _ ≤ n * m := Nat.mul_le_mul_left _ hj

theorem Holds.frame {align numRows : Nat} (ha : 0 < align) {mem mem' : Nat → R} {fs : List (DMat R)}
    (h : Holds align numRows mem fs)
    (heq : ∀ a, a < footprint align numRows fs → mem' a = mem a) : Holds align numRows mem' fs := by
  induction fs with
  | nil => trivial
  | cons f fs ih =>
    obtain ⟨h1, h2⟩ := h
    have hle := le_roundUp align (footprint align numRows fs) ha
    refine ⟨fun i j hi hj => ?_, ih h2 fun a ha' => heq a ?_⟩
    · rw [heq, h1 i j hi hj]
      have := idx_lt hi hj
      simp only [footprint]; omega
    · simp only [footprint]; omega

/-- Shape of the state after a successful `allocate`. -/
theorem allocate_ok {debug : Bool} {align : Nat} (ha : 0 < align) {s : Stack R} {fs : List (DMat R)}
    (hi : Inv align s fs) {f : DMat R} (hf : Fits align s.numRows (f :: fs)) :
    ∃ c', footprint align s.numRows (f :: fs) ≤ c' ∧ s.cap ≤ c' ∧
      allocate debug align s f.cols =
        .ok { s with cap := c', dataSize := footprint align s.numRows (f :: fs),
                     headers := layout align s.numRows (f :: fs) } := by
  obtain ⟨hc, hm, hfp, -⟩ := hf
  have hst : alignStart align s.dataSize = roundUp align (footprint align s.numRows fs) := by
    rw [alignStart_eq _ _ ha, hi.size]
  have hlt : roundUp align (footprint align s.numRows fs) < 2 ^ 32 := by
    simp only [footprint] at hfp; omega
  unfold allocate
  rw [if_neg (by omega), hst]
  simp only [Nat.mod_eq_of_lt hc, Nat.mod_eq_of_lt hlt, roundUp_mod]
  refine ⟨if footprint align s.numRows (f :: fs) > s.cap then
      max (2 * s.cap) (footprint align s.numRows (f :: fs)) else s.cap, ?_, ?_, ?_⟩
  · split <;> omega
  · split <;> omega
  · simp [layout, footprint, hi.headers]

theorem region_div {n i j : Nat} (hi : i < n) : (j * n + i) % n = i ∧ (j * n + i) / n = j := by
  have hn : 0 < n := by omega
  constructor
  · rw [Nat.add_comm, Nat.mul_comm, Nat.add_mul_mod_self_left, Nat.mod_eq_of_lt hi]
  · rw [Nat.add_comm, Nat.mul_comm, Nat.add_mul_div_left _ _ hn, Nat.div_eq_of_lt hi, Nat.zero_add]

/-- Writing the top matrix with the right product re-establishes the invariant. -/
theorem write_inv {align : Nat} (ha : 0 < align) {s : Stack R} {fs : List (DMat R)}
    (hi : Inv align s fs) {f : DMat R} (hf : Fits align s.numRows (f :: fs)) {c' : Nat}
    (hc : footprint align s.numRows (f :: fs) ≤ c') {g : Nat → Nat → R}
    (hg : ∀ i j, i < s.numRows → j < f.cols → g i j = prod (f :: fs) i j) :
    ∃ s', Stack.write { s with cap := c', dataSize := footprint align s.numRows (f :: fs),
                               headers := layout align s.numRows (f :: fs) }
        ⟨f.cols, roundUp align (footprint align s.numRows fs)⟩ g = .ok s' ∧
      s'.numRows = s.numRows ∧ Inv align s' (f :: fs) := by
  unfold Stack.write Stack.regionEnd
  simp only
  rw [if_pos (by simpa [footprint] using hc)]
  refine ⟨_, rfl, rfl, ⟨rfl, rfl, hc, ⟨?_, ?_⟩, hf⟩⟩
  · intro i j hi' hj
    replace hi' : i < s.numRows := hi'
    have hlt : j * s.numRows + i < s.numRows * f.cols := idx_lt hi' hj
    simp only
    rw [if_pos (by omega)]
    have e : roundUp align (footprint align s.numRows fs) + j * s.numRows + i -
        roundUp align (footprint align s.numRows fs) = j * s.numRows + i := by omega
    rw [e, (region_div hi').1, (region_div hi').2, hg i j hi' hj]
  · refine hi.holds.frame ha fun a h => ?_
    have := le_roundUp align (footprint align s.numRows fs) ha
    simp only
    rw [if_neg (by omega)]

theorem prod_single_rows {f : DMat R} {n i j : Nat} (hr : f.rows = n) (hi : i < n) :
    prod [f] i j = f.e i j := by
  simp only [prod, hr]
  rw [Finset.sum_eq_single i]
  · simp
  · intro b _ hb; simp [Ne.symm hb]
  · intro h; simp at h; omega

theorem step_inv {debug : Bool} {align : Nat} (ha : 0 < align) {s : Stack R} {fs fs' : List (DMat R)}
    {o : Op R} (hi : Inv align s fs) (hs : Spec.step s.numRows fs o = some fs')
    (hf : Fits align s.numRows fs') :
    ∃ s', step debug align s o = .ok s' ∧ s'.numRows = s.numRows ∧ Inv align s' fs' := by
  cases o with
  | pop =>
    cases fs with
    | nil => simp [Spec.step] at hs
    | cons f fs =>
      simp only [Spec.step, Option.some.injEq] at hs
      subst hs
      unfold step pop
      rw [hi.headers]
      refine ⟨_, rfl, rfl, ⟨rfl, ?_, ?_, hi.holds.2, hf⟩⟩
      · cases fs <;> simp [layout, footprint]
      · have := hi.cap
        have := le_roundUp align (footprint align s.numRows fs) ha
        simp only [footprint] at *; omega
  | pushM m =>
    simp only [Spec.step] at hs
    split at hs
    · rename_i hrow
      cases hs
      obtain ⟨c', hc1, hc2, hall⟩ := allocate_ok (debug := debug) ha hi hf
      simp only [step, pushM]
      rw [hall]
      cases fs with
      | nil =>
        rw [hi.headers]
        simp only [layout, Spec.cols] at hrow ⊢
        rw [if_neg (by omega)]
        simp only [Res.bind_ok]
        obtain ⟨s', h1, h2, h3⟩ := write_inv ha hi hf hc1 (g := m.e)
          (fun i j hi' _ => (prod_single_rows hrow hi').symm)
        refine ⟨s', ?_, h2, h3⟩
        simpa [layout] using h1
      | cons p ps =>
        rw [hi.headers]
        simp only [layout, Spec.cols] at hrow ⊢
        rw [if_neg (by omega)]
        simp only [Res.bind_ok]
        have hov : roundUp align (footprint align s.numRows ps) + s.numRows * p.cols ≤
            roundUp align (footprint align s.numRows (p :: ps)) := by
          have := le_roundUp align (footprint align s.numRows (p :: ps)) ha
          simpa [footprint] using this
        have hcap := hi.cap
        rw [if_neg]
        · obtain ⟨s', h1, h2, h3⟩ := write_inv ha hi hf hc1
            (g := fun i j => ∑ t ∈ Finset.range p.cols,
              s.mem (roundUp align (footprint align s.numRows ps) + t * s.numRows + i) * m.e t j)
            (fun i j hi' _ => by
              rw [prod, hrow]
              refine Finset.sum_congr rfl fun t ht => ?_
              rw [hi.holds.1 i t hi' (by simpa using ht)])
          refine ⟨s', ?_, h2, h3⟩
          simpa [layout, Stack.coeff] using h1
        · simp only [Stack.overlap, Stack.regionEnd, footprint] at *
          simp only [not_or]
          refine ⟨by simp, fun h => by have := of_decide_eq_true h; omega, by omega⟩
    · simp at hs
  | pushS c =>
    simp only [Spec.step, Option.some.injEq] at hs
    subst hs
    obtain ⟨c', hc1, hc2, hall⟩ := allocate_ok (debug := debug) ha hi hf
    simp only [step, pushS]
    cases fs with
    | nil =>
      simp only [Spec.cols, Spec.scalarMat] at hall
      rw [hi.headers, hall]
      simp only [layout, Res.bind_ok]
      rw [if_neg (by simp)]
      obtain ⟨s', h1, h2, h3⟩ := write_inv ha hi hf hc1
        (g := fun i j => (if i = j then 1 else 0) * c)
        (fun i j hi' hj => by
          rw [prod_single_rows (n := s.numRows) rfl hi']
          simp [Spec.scalarMat])
      refine ⟨s', ?_, h2, h3⟩
      simpa [layout, Spec.scalarMat, Spec.cols] using h1
    | cons p ps =>
      simp only [Spec.cols, Spec.scalarMat] at hall
      rw [hi.headers]
      simp only [layout]
      rw [hall]
      simp only [layout, Res.bind_ok]
      have hov : roundUp align (footprint align s.numRows ps) + s.numRows * p.cols ≤
          roundUp align (footprint align s.numRows (p :: ps)) := by
        have := le_roundUp align (footprint align s.numRows (p :: ps)) ha
        simpa [footprint] using this
      have hcap := hi.cap
      rw [if_neg]
      · obtain ⟨s', h1, h2, h3⟩ := write_inv ha hi hf hc1
          (g := fun i j =>
              s.mem (roundUp align (footprint align s.numRows ps) + j * s.numRows + i) * c)
          (fun i j hi' hj => by
            rw [hi.holds.1 i j hi' (by simpa [Spec.scalarMat, Spec.cols] using hj)]
            rw [prod.eq_def (_ :: p :: ps)]
            simp only [Spec.scalarMat, Spec.cols]
            rw [Finset.sum_eq_single j]
            · simp
            · intro b _ hb; simp [hb]
            · intro h; simp [Spec.scalarMat, Spec.cols] at h hj; omega)
        refine ⟨s', ?_, h2, h3⟩
        simpa [layout, Stack.coeff, Spec.scalarMat, Spec.cols] using h1
      · simp only [Stack.overlap, Stack.regionEnd, footprint] at *
        simp only [not_or]
        refine ⟨by simp, fun h => by have := of_decide_eq_true h; omega, by omega⟩

theorem run_inv {debug : Bool} {align : Nat} (ha : 0 < align) {s : Stack R} {fs fs' : List (DMat R)}
    {os : List (Op R)} (hi : Inv align s fs) (hr : Spec.Run align s.numRows fs os fs') :
    ∃ s', Res.run (step debug align) s os = .ok s' ∧ s'.numRows = s.numRows ∧ Inv align s' fs' := by
  induction os generalizing s fs with
  | nil => cases hr; exact ⟨s, rfl, rfl, hi⟩
  | cons o os ih =>
    cases hr with
    | cons h1 h2 h3 =>
      obtain ⟨s1, e1, n1, i1⟩ := step_inv (debug := debug) ha hi h1 h2
      obtain ⟨s2, e2, n2, i2⟩ := ih i1 (by rw [n1]; exact h3)
      exact ⟨s2, by simp [e1, e2], by rw [n2, n1], i2⟩

theorem new_inv (align numRows a b : Nat) : Inv align (new numRows a b : Stack R) [] :=
  ⟨rfl, rfl, Nat.zero_le _, trivial, trivial⟩

end Verif.MatrixStack
