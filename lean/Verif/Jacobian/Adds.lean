import Verif.Jacobian.Props

/-!
A sequence of `add` calls on a fresh container (a consequence of C04 used by the models of single error terms).
-/
namespace Verif.Jacobian
open Verif.MatrixStack Verif.MatrixStack.Spec Verif.Jacobian.Spec

variable {R : Type} [Semiring R]

/-- The calls `add(dv, J)` for a list of pairs. -/
def adds (L : List (Nat × DMat R)) : List (Op R) := L.map fun p => .add p.1 p.2

/-- The sum of the matrices of one design variable. -/
def assigned (L : List (Nat × DMat R)) (dv i j : Nat) : R := ((L.filter fun p => p.1 = dv).map fun p => p.2.e i j).sum

theorem run_adds (env : Env R) (align n : Nat) (L : List (Nat × DMat R)) (hL : ∀ p ∈ L, p.2.rows = n ∧ p.2.cols = env.dim p.1)
    (ev : List (Event R)) : Run env align n ([], ev) (adds L)
      ([], ev ++ (L.filter fun p => env.active p.1).map fun p => (p.1, contribution [] p.2)) := by
  induction L generalizing ev with
  | nil => simpa [adds] using Run.nil (env := env) (align := align) (n := n) ([], ev)
  | cons p L ih =>
    have hp := hL p (List.mem_cons_self ..)
    refine Run.cons (s' := ([], record env ev p.1 (contribution [] p.2))) ?_ (by simp [Fits]) ?_
    · simp [Spec.step, MatrixStack.Spec.cols, hp]
    · have := ih (fun q hq => hL q (List.mem_cons_of_mem _ hq)) (record env ev p.1 (contribution [] p.2))
      have he : record env ev p.1 (contribution [] p.2) ++ (L.filter fun p => env.active p.1).map (fun p => (p.1, contribution [] p.2)) =
          ev ++ ((p :: L).filter fun p => env.active p.1).map (fun p => (p.1, contribution [] p.2)) := by
        by_cases ha : env.active p.1 = true <;> simp [record, ha]
      rw [he] at this
      exact this

theorem total_adds (env : Env R) (n : Nat) (L : List (Nat × DMat R)) (hL : ∀ p ∈ L, p.2.rows = n) (dv : Nat) (ha : env.active dv = true)
    {i : Nat} (hi : i < n) (j : Nat) :
    total ((L.filter fun p => env.active p.1).map fun p => (p.1, contribution [] p.2)) dv i j = assigned L dv i j := by
  induction L with
  | nil => rfl
  | cons p L ih =>
    have hp := hL p (List.mem_cons_self ..)
    have := ih fun q hq => hL q (List.mem_cons_of_mem _ hq)
    unfold total assigned at this ⊢
    by_cases he : p.1 = dv
    · rw [List.filter_cons_of_pos (p := fun p : Nat × DMat R => env.active p.1) (by simpa [he] using ha)]
      simp only [List.map_cons, List.filter_cons, he, decide_true, if_true, List.sum_cons, this, contribution_nil hp hi]
    · by_cases hb : env.active p.1 = true
      · rw [List.filter_cons_of_pos (p := fun p : Nat × DMat R => env.active p.1) hb]
        simp only [List.map_cons, List.filter_cons, he, decide_false, Bool.false_eq_true, if_false, this]
      · rw [List.filter_cons_of_neg (p := fun p : Nat × DMat R => env.active p.1) hb]
        simp only [List.filter_cons, he, decide_false, Bool.false_eq_true, if_false, this]

/-- After the calls, each active variable with a contribution has the sum of its matrices, the others have no entry. -/
theorem adds_spec (debug : Bool) (env : Env R) (henv : EnvOk env) (align n k : Nat) (ha : 0 < align) (hn : n < 2 ^ 16)
    (L : List (Nat × DMat R)) (hL : ∀ p ∈ L, p.2.rows = n ∧ p.2.cols = env.dim p.1) :
    ∃ jc, Res.run (step debug align env sparseAddJ) (newSparse n k) (adds L) = .ok jc ∧
      (∀ dv, env.active dv = true → dv ∈ L.map Prod.fst →
        ∃ J, sparseJacobian env jc dv = .ok J ∧ J.rows = n ∧ J.cols = env.dim dv ∧
          ∀ i j, i < n → j < env.dim dv → J.e i j = assigned L dv i j) ∧
      (∀ dv, env.active dv = true → dv ∉ L.map Prod.fst → sparseJacobian env jc dv = .exc) := by
  have hr := run_adds env align n L hL []
  rw [List.nil_append] at hr
  obtain ⟨jc, e, h1, h2, -⟩ := C04_sparse_accumulates debug env henv align n k ha hn _ _ _ hr
  refine ⟨jc, e, fun dv hact hm => ?_, fun dv hact hm => h2 dv hact fun hh => hm ?_⟩
  · have hm' : dv ∈ ((L.filter fun p => env.active p.1).map fun p => ((p.1, contribution [] p.2) : Event R)).map Prod.fst := by
      obtain ⟨p, hp, rfl⟩ := List.mem_map.1 hm
      simp only [List.map_map, List.mem_map, List.mem_filter]
      exact ⟨p, ⟨hp, hact⟩, rfl⟩
    obtain ⟨J, e1, e2, e3, e4⟩ := h1 dv hact hm'
    exact ⟨J, e1, e2, e3, fun i j hi hj => (e4 i j hi hj).trans (total_adds env n L (fun p hp => (hL p hp).1) dv hact hi j)⟩
  · simp only [List.map_map, List.mem_map, List.mem_filter] at hh
    obtain ⟨p, ⟨hp, -⟩, rfl⟩ := hh
    exact List.mem_map.2 ⟨p, hp, rfl⟩

end Verif.Jacobian
