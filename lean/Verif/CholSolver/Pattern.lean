import Verif.CholSolver.Props

/-!
C117, continued: what it means that CHOLMOD never gets a matrix with a pattern other than the one it analysed.
-/
namespace Verif.CholSolver
open Verif.CCM

/-- **C117** (meaning of the pattern check). If the symbolic analysis was done for the matrix `s.J` and a later factorisation with it, of any matrix `B`, is not undefined, then `B` has the size, the column
pointers and the row indices of `s.J`. So the absence of faults in `C117_solves_current_matrix` says that all matrices handed to the library between two analyses have the same non-zero positions. -/
theorem C117_same_positions {R : Type} (o o' : Oracle) (s s1 s2 : St R) (v : Bool) (B : CCM R) (hn : s.factor = none) (h1 : ensureFactor o s = .ok s1 ()) (h2 : factorize o' { s1 with J := B } = .ok s2 v) :
    B.rows = s.J.rows ∧ B.cols = s.J.cols ∧ B.colPtr = s.J.colPtr ∧ B.rowInd = s.J.rowInd := by
  have hp : s1.pat = some ⟨s.J.rows, s.J.cols, s.J.colPtr, s.J.rowInd⟩ := by
    unfold ensureFactor at h1
    rw [hn] at h1
    obtain ⟨a, b, c, d⟩ := o
    cases a <;> cases b <;> simp [analyze, alloc, need, Out.bind] at h1
    rw [← h1]
    rfl
  unfold factorize at h2
  cases hf : s1.factor with
  | none => simp [need, hf, Out.bind] at h2
  | some f =>
    by_cases hm : f ∈ s1.live
    · by_cases hb : s1.pat = some (patternOf B)
      · rw [hp] at hb
        have hb' := Option.some.inj hb
        simp only [patternOf, Pattern.mk.injEq] at hb'
        exact ⟨hb'.1.symm, hb'.2.1.symm, hb'.2.2.1.symm, hb'.2.2.2.symm⟩
      · simp [need, deref, hf, hm, hb, Out.bind] at h2
    · simp [need, deref, hf, hm, Out.bind] at h2

/-- The analysis and the factorisation of a 1×1 matrix. -/
example : ∃ s1 s2, ensureFactor ⟨true, true, true, true⟩ (⟨[], 0, none, none, one, false, []⟩ : St Int) = .ok s1 () ∧ factorize ⟨true, true, true, true⟩ { s1 with J := { (one : CCM Int) with values := ([5] : List Int) } } = .ok s2 true := by
  exact ⟨⟨[0], 1, some 0, some (patternOf one), one, false, []⟩, ⟨[0], 1, some 0, some (patternOf one), { (one : CCM Int) with values := ([5] : List Int) }, false, []⟩, rfl, rfl⟩

end Verif.CholSolver
