import Verif.QrSolver.Model
import Mathlib.Tactic.Common
import Mathlib.Tactic.SplitIfs
import Mathlib.Tactic.CasesM

/-! Lemmas about the sparse QR solver: what each operation leaves behind. -/
namespace Verif.QrSolver
open Verif.CCM (CCM)
open Verif

variable {M K : Type}

/-- Everything but the heap and the factor is the same. -/
structure Same (s t : St M K) : Prop where
  J : t.J = s.J
  R : t.R = s.R
  c : t.colNorm = s.colNorm

/-- The heap is well formed: addresses are handed out once, and the factor is allocated. -/
structure WF (s : St M K) : Prop where
  nodup : s.live.Nodup
  lt : ∀ a ∈ s.live, a < s.next
  fac : ∀ f, s.factor = some f → f ∈ s.live

theorem WF.not_mem {s : St M K} (h : WF s) (k : Nat) (hk : s.next ≤ k) : k ∉ s.live := fun hm => by
  have := h.lt k hm; omega

/-- What `cholmodSolve` does. -/
theorem cholmodSolve_spec (lib : Lib M K) (o : SolveO) (s : St M K) (h : WF s) (f : Nat) (hf : s.factor = some f) :
    match cholmodSolve lib o s with
    | .ok t res => WF t ∧ Same s t ∧ t.factor = s.factor ∧ t.live = res.toList ++ s.live ∧ (∀ r, res = some r → r ≠ f) ∧
        t.num = (if o.num then some (if s.colNorm then lib.scale s.J else s.J) else none) ∧ (o.num = false → res = none)
    | .exc t => WF t ∧ Same s t ∧ t.factor = s.factor ∧ t.num = s.num ∧ (o.tr = false ∨ s.colNorm = true ∧ o.scale = false)
    | .fault e => e = .null ∧ s.colNorm = true ∧ ¬ (o.tr = true ∧ o.dn = true ∧ o.num = true ∧ o.sl = true) := by
  have h0 : s.next ∉ s.live := h.not_mem _ (by omega)
  have h1 : s.next + 1 ∉ s.live := h.not_mem _ (by omega)
  have h2 : s.next + 1 + 1 ∉ s.live := h.not_mem _ (by omega)
  have h3 : s.next + 1 + 1 + 1 ∉ s.live := h.not_mem _ (by omega)
  have hm : f ∈ s.live := h.fac f hf
  have hfn : f < s.next := h.lt f hm
  obtain ⟨nd, lt, fc⟩ := h
  rcases s with ⟨live, next, factor, num, J, R, cn⟩
  rcases o with ⟨tr, dn, sc, nm, qm, sl⟩
  simp only at *
  subst hf
  have e1 : next ≠ f := by omega
  have e2 : next + 1 ≠ f := by omega
  have e3 : next + 1 + 1 ≠ f := by omega
  have e4 : next + 1 + 1 + 1 ≠ f := by omega
  have lt' : ∀ a ∈ live, a < next + 1 := fun a ha => by have := lt a ha; omega
  have lt2 : ∀ a ∈ live, a < next + 1 + 1 := fun a ha => by have := lt a ha; omega
  have lt3 : ∀ a ∈ live, a < next + 1 + 1 + 1 := fun a ha => by have := lt a ha; omega
  have lt4 : ∀ a ∈ live, a < next + 1 + 1 + 1 + 1 := fun a ha => by have := lt a ha; omega
  have g1 : next + 1 + 1 ≠ next := by omega
  have g2 : next + 1 + 1 + 1 ≠ next := by omega
  have g3 : next + 1 + 1 + 1 ≠ next + 1 := by omega
  cases cn <;> cases tr <;> cases dn <;> cases sc <;> cases nm <;> cases qm <;> cases sl <;>
    simp [cholmodSolve, scaling, factorize, numeric, alloc, free, deref, need, Out.bind, List.erase_cons, hm, h0, h1, h2, h3, e1, e2, e3, e4, g1, g2, g3] <;>
    first
    | (refine ⟨⟨?_, ?_, ?_⟩, ⟨rfl, rfl, rfl⟩⟩ <;> simp_all <;> omega)
    | (refine ⟨⟨?_, ?_, ?_⟩, ⟨rfl, rfl, rfl⟩, ?_⟩ <;> simp_all <;> omega)
    | skip

/-- What `ensureFactor` does. -/
theorem ensureFactor_spec (o : SymO) (s : St M K) (h : WF s) :
    match ensureFactor o s with
    | .ok t _ => WF t ∧ Same s t ∧ (∃ f, t.factor = some f) ∧ (s.live = s.factor.toList → t.live = t.factor.toList) ∧ (s.factor.isSome → t = s)
    | .exc t => WF t ∧ Same s t ∧ t.factor = none ∧ s.factor = none ∧ t.num = s.num
    | .fault _ => False := by
  have h0 : s.next ∉ s.live := h.not_mem _ (by omega)
  have h1 : s.next + 1 ∉ s.live := h.not_mem _ (by omega)
  have wf := h
  obtain ⟨nd, lt, fc⟩ := h
  rcases s with ⟨live, next, factor, num, J, R, cn⟩
  rcases o with ⟨tr, ptr, st⟩
  simp only at *
  have lt' : ∀ a ∈ live, a < next + 1 := fun a ha => by have := lt a ha; omega
  have lt2 : ∀ a ∈ live, a < next + 1 + 1 := fun a ha => by have := lt a ha; omega
  cases factor with
  | some f =>
    simp only [ensureFactor]
    exact ⟨wf, ⟨rfl, rfl, rfl⟩, ⟨f, rfl⟩, id, fun _ => trivial⟩
  | none =>
    cases tr <;> cases ptr <;> cases st <;>
      simp [ensureFactor, analyzeQR, alloc, free, need, Out.bind] <;>
      (refine ⟨⟨?_, ?_, ?_⟩, ⟨rfl, rfl, rfl⟩⟩ <;> simp_all <;> omega)

/-- What `solveSystem` does. -/
theorem solveSystem_spec (lib : Lib M K) (oa : SymO) (o : SolveO) (s : St M K) (h : WF s) :
    match solveSystem lib oa o s with
    | .ok t b => WF t ∧ Same s t ∧ t.factor.isSome ∧ (s.live = s.factor.toList → t.live = t.factor.toList) ∧
        (b = true → t.num = some (if s.colNorm then lib.scale s.J else s.J))
    | .exc t => WF t ∧ Same s t
    | .fault e => e = .null ∧ s.colNorm = true ∧ ¬ (o.tr = true ∧ o.dn = true ∧ o.num = true ∧ o.sl = true) := by
  have e1 := ensureFactor_spec oa s h
  simp only [solveSystem]
  cases he : ensureFactor oa s with
  | fault e => rw [he] at e1; exact e1.elim
  | exc t => rw [he] at e1; exact ⟨e1.1, e1.2.1⟩
  | ok t u =>
    rw [he] at e1
    obtain ⟨wt, st, ⟨f, hf⟩, ht, -⟩ := e1
    simp only [Out.bind]
    have e2 := cholmodSolve_spec lib o t wt f hf
    cases hc : cholmodSolve lib o t with
    | fault e => rw [hc] at e2; rw [← st.c]; exact e2
    | exc t' => rw [hc] at e2; exact ⟨e2.1, ⟨e2.2.1.J.trans st.J, e2.2.1.R.trans st.R, e2.2.1.c.trans st.c⟩⟩
    | ok t' res =>
      rw [hc] at e2
      obtain ⟨w', s', f', l', ne, nm, nn⟩ := e2
      have same : Same s t' := ⟨s'.J.trans st.J, s'.R.trans st.R, s'.c.trans st.c⟩
      cases res with
      | none =>
        simp only [Option.isNone_none, if_true]
        refine ⟨w', same, by rw [f', hf]; rfl, fun hs => ?_, fun hb => by cases hb⟩
        rw [l', f', ← ht hs]; rfl
      | some r =>
        have hr : r ∈ t'.live := by rw [l']; simp
        simp only [Option.isNone_some, Bool.false_eq_true, if_false, deref, free, if_pos hr]
        have hl : t'.live.erase r = t.live := by rw [l']; simp
        have hnum : o.num = true := by
          cases hh : o.num with
          | true => rfl
          | false => exact absurd (nn hh) (by simp)
        refine ⟨⟨?_, ?_, ?_⟩, ⟨same.J, same.R, same.c⟩, ?_, fun hs => ?_, fun _ => ?_⟩
        · exact w'.nodup.erase r
        · intro a ha; exact w'.lt a (List.mem_of_mem_erase ha)
        · intro g hg
          rw [hl]
          exact wt.fac g (f' ▸ hg)
        · show t'.factor.isSome = true
          rw [f', hf]; rfl
        · show t'.live.erase r = t'.factor.toList
          rw [hl, f', ht hs]
        · show t'.num = _
          rw [nm, hnum, if_pos rfl, st.J, st.c]

/-- What `analyzeSystem` does. -/
theorem analyzeSystem_spec (oa : SymO) (tr ok : Bool) (s : St M K) (h : WF s) :
    match analyzeSystem oa tr ok s with
    | .ok t _ => WF t ∧ Same s t ∧ t.factor.isSome ∧ (s.live = s.factor.toList → t.live = t.factor.toList) ∧ t.num = some s.J
    | .exc t => WF t ∧ Same s t
    | .fault _ => False := by
  have e1 := ensureFactor_spec oa s h
  simp only [analyzeSystem]
  cases he : ensureFactor oa s with
  | fault e => rw [he] at e1; exact e1.elim
  | exc t => rw [he] at e1; exact ⟨e1.1, e1.2.1⟩
  | ok t u =>
    rw [he] at e1
    obtain ⟨wt, st, ⟨f, hf⟩, ht, -⟩ := e1
    have h0 : t.next ∉ t.live := wt.not_mem _ (by omega)
    have hm : f ∈ t.live := wt.fac f hf
    obtain ⟨nd, lt, fc⟩ := wt
    obtain ⟨sj, sr, sc⟩ := st
    rcases t with ⟨live, next, factor, num, J, R, cn⟩
    simp only at *
    subst hf
    have lt' : ∀ a ∈ live, a < next + 1 := fun a ha => by have := lt a ha; omega
    cases tr <;> cases ok <;>
      simp [factorize, numeric, alloc, free, deref, need, Out.bind, hm] <;>
      (constructorm* _ ∧ _, WF _, Same _ _ <;> simp_all)

/-- What `getR` does. -/
theorem getR_spec (lib : Lib M K) (o : RO) (s : St M K) (h : WF s) :
    match getR lib o s with
    | .ok t A => WF t ∧ t.J = s.J ∧ t.colNorm = s.colNorm ∧ t.factor = s.factor ∧ t.num = s.num ∧ (s.live = s.factor.toList → t.live = t.factor.toList) ∧
        A = t.R ∧ (t.R = s.R ∨ s.R.values.length = 0 ∧ t.R = fromCS s.R (lib.r s.J))
    | .exc t => WF t ∧ t.J = s.J ∧ t.colNorm = s.colNorm ∧ t.factor = s.factor ∧ t.num = s.num ∧
        (t.R = s.R ∨ CCM.check (fromCS s.R (lib.r s.J)) ≠ .ok ())
    | .fault e => e = .null ∧ o.tr = false := by
  have h0 : s.next ∉ s.live := h.not_mem _ (by omega)
  have h1 : s.next + 1 ∉ s.live := h.not_mem _ (by omega)
  have wf := h
  obtain ⟨nd, lt, fc⟩ := h
  by_cases hz : s.R.values.length = 0
  · simp only [getR, if_pos hz]
    rcases s with ⟨live, next, factor, num, J, R, cn⟩
    rcases o with ⟨tr, r, st⟩
    simp only at *
    have lt' : ∀ a ∈ live, a < next + 1 := fun a ha => by have := lt a ha; omega
    have lt2 : ∀ a ∈ live, a < next + 1 + 1 := fun a ha => by have := lt a ha; omega
    have g1 : ∀ f, factor = some f → next ≠ f := fun f hf => by have := lt f (fc f hf); omega
    have g2 : ∀ f, factor = some f → next + 1 ≠ f := fun f hf => by have := lt f (fc f hf); omega
    by_cases hck : CCM.check (fromCS R (lib.r J)) = .ok () <;>
    cases tr <;> cases r <;> cases st <;>
      simp [alloc, free, deref, need, Out.bind, hck] <;>
      (constructorm* _ ∧ _, WF _ <;> simp_all <;> first | omega | (intros; grind))
  · simp only [getR, if_neg hz]
    simpa using wf

end Verif.QrSolver
