import Verif.QrSolver.Lemmas

/-!
C111: what the getters of the sparse QR solver describe. C112: objects of the numerical library are released exactly once.
-/
namespace Verif.QrSolver
open Verif.CCM (CCM)
open Verif

variable {M K : Type}

/-! ### Histories -/

/-- The Jacobian of the last `initMatrixStructure` or `buildSystem` of a history. -/
def lastJ : M → List (Op M) → M
  | J, [] => J
  | _, .init J :: ops => lastJ J ops
  | _, .build J _ :: ops => lastJ J ops
  | J, _ :: ops => lastJ J ops

/-- The option `colNorm` at the end of a history. -/
def lastNorm : Bool → List (Op M) → Bool
  | c, [] => c
  | _, .setColNorm b :: ops => lastNorm b ops
  | c, _ :: ops => lastNorm c ops

/-- Operations that do not set up or factorise a system. -/
def Op.Quiet : Op M → Prop
  | .init _ | .solve .. | .analyze .. => False
  | _ => True

/-- Operations that do not change the Jacobian. -/
def Op.Keeps : Op M → Prop
  | .init _ | .build .. => False
  | _ => True

/-- The only operations that can dereference a null pointer, and when: a solve with column scaling and `getR`, if a call of the library fails. -/
def Op.NullRisk (c : Bool) : Op M → Prop
  | .solve _ o => c = true ∧ ¬ (o.tr = true ∧ o.dn = true ∧ o.num = true ∧ o.sl = true)
  | .getR o => o.tr = false
  | _ => False

/-- `getRank`, the only getter of the model that throws without a failure of the library. -/
def Op.IsRank : Op M → Prop
  | .getRank => True
  | _ => False

/-- What one operation does to the object. -/
theorem step_spec (lib : Lib M K) (op : Op M) (s : St M K) (h : WF s) :
    match step lib op s with
    | .ok t _ => WF t ∧ (s.live = s.factor.toList → t.live = t.factor.toList) ∧ t.J = lastJ s.J [op] ∧ t.colNorm = lastNorm s.colNorm [op] ∧
        (op.Quiet → t.factor = s.factor ∧ t.num = s.num)
    | .exc t => WF t ∧ t.J = lastJ s.J [op] ∧ t.colNorm = lastNorm s.colNorm [op] ∧ (op.Quiet → t.factor = s.factor ∧ t.num = s.num) ∧ (op.IsRank → t = s)
    | .fault e => e = .null ∧ op.NullRisk s.colNorm := by
  cases op with
  | init J =>
    simp only [step, initStructure, dropFactor, lastJ, lastNorm, Op.Quiet]
    cases hf : s.factor with
    | none =>
      simp only [free, Out.bind]
      refine ⟨⟨h.nodup, h.lt, fun f hf => by cases hf⟩, fun hs => ?_, trivial, trivial, fun hq => hq.elim⟩
      simpa [hf] using hs
    | some f =>
      have hm := h.fac f hf
      simp only [free, if_pos hm, Out.bind]
      refine ⟨⟨h.nodup.erase f, fun a ha => h.lt a (List.mem_of_mem_erase ha), fun f hf => by cases hf⟩, fun hs => ?_, trivial, trivial, fun hq => hq.elim⟩
      simp only [Option.toList_some] at hs
      rw [hs]; simp
  | build J t =>
    cases t with
    | true =>
      simp only [step, buildSystem, if_true, Out.bind, lastJ, lastNorm, Op.Quiet, Op.IsRank]
      exact ⟨⟨h.nodup, h.lt, h.fac⟩, by simp, by simp, by simp, by simp⟩
    | false =>
      simp only [step, buildSystem, Bool.false_eq_true, if_false, Out.bind, lastJ, lastNorm, Op.Quiet]
      exact ⟨⟨h.nodup, h.lt, h.fac⟩, id, by simp, by simp, by simp⟩
  | solve oa o =>
    have e := solveSystem_spec lib oa o s h
    simp only [step]
    cases hs : solveSystem lib oa o s with
    | fault f => rw [hs] at e; exact e
    | exc t => rw [hs] at e; exact ⟨e.1, e.2.J, e.2.c, fun hq => hq.elim, fun hr => hr.elim⟩
    | ok t b => rw [hs] at e; exact ⟨e.1, e.2.2.2.1, e.2.1.J, e.2.1.c, fun hq => hq.elim⟩
  | analyze oa tr ok =>
    have e := analyzeSystem_spec oa tr ok s h
    simp only [step]
    cases hs : analyzeSystem oa tr ok s with
    | fault f => rw [hs] at e; exact e.elim
    | exc t => rw [hs] at e; exact ⟨e.1, e.2.J, e.2.c, fun hq => hq.elim, fun hr => hr.elim⟩
    | ok t b => rw [hs] at e; exact ⟨e.1, e.2.2.2.1, e.2.1.J, e.2.1.c, fun hq => hq.elim⟩
  | getR o =>
    have e := getR_spec lib o s h
    simp only [step]
    cases hs : getR lib o s with
    | fault f => rw [hs] at e; exact e
    | exc t => rw [hs] at e; exact ⟨e.1, e.2.1, e.2.2.1, fun _ => ⟨e.2.2.2.1, e.2.2.2.2.1⟩, fun hr => hr.elim⟩
    | ok t b => rw [hs] at e; exact ⟨e.1, e.2.2.2.2.2.1, e.2.1, e.2.2.1, fun _ => ⟨e.2.2.2.1, e.2.2.2.2.1⟩⟩
  | getRank =>
    simp only [step, getRank]
    cases hf : s.factor with
    | none => simp [need, Out.bind, lastJ, lastNorm, h, hf]
    | some f =>
      have hm := h.fac f hf
      simp [need, deref, Out.bind, lastJ, lastNorm, h, hf, hm]
  | setColNorm b =>
    simp only [step, lastJ, lastNorm]
    exact ⟨⟨h.nodup, h.lt, h.fac⟩, id, by simp, by simp, by simp⟩

theorem lastJ_cons (J : M) (op : Op M) (ops : List (Op M)) : lastJ J (op :: ops) = lastJ (lastJ J [op]) ops := by
  cases op <;> rfl

theorem lastNorm_cons (c : Bool) (op : Op M) (ops : List (Op M)) : lastNorm c (op :: ops) = lastNorm (lastNorm c [op]) ops := by
  cases op <;> rfl

/-- The state after a history. -/
theorem run_spec (lib : Lib M K) : ∀ (ops : List (Op M)) (s t : St M K) (vs : List (Val K)), WF s → run lib ops s = .ok t vs →
    WF t ∧ t.J = lastJ s.J ops ∧ t.colNorm = lastNorm s.colNorm ops ∧ vs.length = ops.length ∧
    ((∀ op ∈ ops, op.Quiet) → t.factor = s.factor ∧ t.num = s.num) ∧
    ((∀ p ∈ ops.zip vs, p.2 = .threw → p.1.IsRank) → s.live = s.factor.toList → t.live = t.factor.toList)
  | [], s, t, vs, h, e => by
    simp only [run] at e
    injection e with e1 e2
    subst e1; subst e2
    exact ⟨h, rfl, rfl, rfl, fun _ => ⟨rfl, rfl⟩, fun _ hs => hs⟩
  | op :: ops, s, t, vs, h, e => by
    have e1 := step_spec lib op s h
    simp only [run] at e
    cases hs : step lib op s with
    | fault f => rw [hs] at e; cases e
    | ok s1 v =>
      rw [hs] at e e1
      simp only at e e1
      cases hr : run lib ops s1 with
      | fault f => rw [hr] at e; cases e
      | exc s => rw [hr] at e; cases e
      | ok t' vs' =>
        rw [hr] at e
        simp only [Out.bind] at e
        injection e with e2 e3
        subst e2; subst e3
        obtain ⟨w, hJ, hc, hl, hq, hlv⟩ := run_spec lib ops s1 t' vs' e1.1 hr
        refine ⟨w, ?_, ?_, by simp [hl], fun hall => ?_, fun hall hst => ?_⟩
        · rw [hJ, e1.2.2.1, ← lastJ_cons]
        · rw [hc, e1.2.2.2.1, ← lastNorm_cons]
        · have h1 := e1.2.2.2.2 (hall op (by simp))
          have h2 := hq fun o ho => hall o (by simp [ho])
          exact ⟨h2.1.trans h1.1, h2.2.trans h1.2⟩
        · exact hlv (fun p hp => hall p (by simp [hp])) (e1.2.1 hst)
    | exc s1 =>
      rw [hs] at e e1
      simp only at e e1
      cases hr : run lib ops s1 with
      | fault f => rw [hr] at e; cases e
      | exc s => rw [hr] at e; cases e
      | ok t' vs' =>
        rw [hr] at e
        simp only [Out.bind] at e
        injection e with e2 e3
        subst e2; subst e3
        obtain ⟨w, hJ, hc, hl, hq, hlv⟩ := run_spec lib ops s1 t' vs' e1.1 hr
        refine ⟨w, ?_, ?_, by simp [hl], fun hall => ?_, fun hall hst => ?_⟩
        · rw [hJ, e1.2.1, ← lastJ_cons]
        · rw [hc, e1.2.2.1, ← lastNorm_cons]
        · have h1 := e1.2.2.2.1 (hall op (by simp))
          have h2 := hq fun o ho => hall o (by simp [ho])
          exact ⟨h2.1.trans h1.1, h2.2.trans h1.2⟩
        · refine hlv (fun p hp => hall p (by simp [hp])) ?_
          have := hall (op, .threw) (by simp) rfl
          rw [e1.2.2.2.2 this]
          exact hst

/-- Histories in two parts. -/
theorem run_append (lib : Lib M K) : ∀ (a b : List (Op M)) (s t : St M K) (vs : List (Val K)), run lib (a ++ b) s = .ok t vs →
    ∃ s1 va vb, run lib a s = .ok s1 va ∧ run lib b s1 = .ok t vb ∧ vs = va ++ vb
  | [], b, s, t, vs, e => ⟨s, [], vs, rfl, e, rfl⟩
  | op :: a, b, s, t, vs, e => by
    simp only [List.cons_append, run] at e
    cases hs : step lib op s with
    | fault f => rw [hs] at e; cases e
    | ok s1 v =>
      rw [hs] at e
      simp only at e
      cases hr : run lib (a ++ b) s1 with
      | fault f => rw [hr] at e; cases e
      | exc s => rw [hr] at e; cases e
      | ok t' vs' =>
        rw [hr] at e
        simp only [Out.bind] at e
        injection e with e2 e3
        subst e2; subst e3
        obtain ⟨s2, va, vb, h1, h2, h3⟩ := run_append lib a b s1 t' vs' hr
        exact ⟨s2, v :: va, vb, by simp [run, hs, h1, Out.bind], h2, by simp [h3]⟩
    | exc s1 =>
      rw [hs] at e
      simp only at e
      cases hr : run lib (a ++ b) s1 with
      | fault f => rw [hr] at e; cases e
      | exc s => rw [hr] at e; cases e
      | ok t' vs' =>
        rw [hr] at e
        simp only [Out.bind] at e
        injection e with e2 e3
        subst e2; subst e3
        obtain ⟨s2, va, vb, h1, h2, h3⟩ := run_append lib a b s1 t' vs' hr
        exact ⟨s2, .threw :: va, vb, by simp [run, hs, h1, Out.bind], h2, by simp [h3]⟩

theorem wf_new (J : M) (c : Bool) : WF (new J c : St M K) := ⟨by simp [new], by simp [new], by simp [new]⟩

/-! ### C111 -/

/-- C111: after `solveSystem()` returned true, and any calls that neither set up nor factorise a system, `getRank()` is the rank of the matrix that was factorised: the Jacobian of the last
`buildSystem()` *before the solve*, with its columns scaled if the option was on at the time. For every history before and all behaviours of the library. -/
theorem C111_rank_partial (lib : Lib M K) (J0 : M) (c : Bool) (pre post : List (Op M)) (oa : SymO) (o : SolveO) (t : St M K) (vs : List (Val K))
    (e : run lib (pre ++ .solve oa o :: post) (new J0 c) = .ok t vs) (hv : vs[pre.length]? = some (.solved true)) (hq : ∀ op ∈ post, op.Quiet) :
    step lib .getRank t = .ok t (.rank (some (lib.rank (if lastNorm c pre then lib.scale (lastJ J0 pre) else lastJ J0 pre)))) := by
  obtain ⟨s1, va, vb, h1, h2, h3⟩ := run_append lib pre _ _ _ _ e
  obtain ⟨w1, hJ, hc, hl, -, -⟩ := run_spec lib pre _ _ _ (wf_new J0 c) h1
  have hspec := solveSystem_spec lib oa o s1 w1
  simp only [run, step] at h2
  cases hs : solveSystem lib oa o s1 with
  | fault f => rw [hs] at h2; cases h2
  | exc s2 =>
    rw [hs] at h2
    simp only [Out.bind] at h2
    cases hr : run lib post s2 with
    | fault f => rw [hr] at h2; cases h2
    | exc s => rw [hr] at h2; cases h2
    | ok t' vs' =>
      rw [hr] at h2
      injection h2 with h4 h5
      subst h3; subst h5
      rw [List.getElem?_append_right (by omega), hl] at hv
      simp at hv
  | ok s2 b =>
    rw [hs] at h2 hspec
    simp only [Out.bind] at h2
    cases hr : run lib post s2 with
    | fault f => rw [hr] at h2; cases h2
    | exc s => rw [hr] at h2; cases h2
    | ok t' vs' =>
      rw [hr] at h2
      injection h2 with h4 h5
      subst h3; subst h5; subst h4
      rw [List.getElem?_append_right (by omega), hl] at hv
      simp only [Nat.sub_self, List.getElem?_cons_zero, Option.some.injEq, Val.solved.injEq] at hv
      obtain ⟨wt, -, -, -, hqq, -⟩ := run_spec lib post _ _ _ hspec.1 hr
      obtain ⟨hf, hn⟩ := hqq hq
      have hnum := hspec.2.2.2.2 hv
      have hfs := hspec.2.2.1
      rw [← hf] at hfs
      obtain ⟨f, hf'⟩ := Option.isSome_iff_exists.mp hfs
      have hm := wt.fac f hf'
      have hJ' : s1.J = lastJ J0 pre := hJ
      have hc' : s1.colNorm = lastNorm c pre := hc
      rw [← hJ', ← hc']
      simp [step, getRank, need, deref, Out.bind, hf', hm, hn, hnum]

/-- C111: without a factorisation since the last `initMatrixStructure()`, `getRank()` throws and changes nothing. -/
theorem C111_rank_throws (lib : Lib M K) (J0 J : M) (c : Bool) (pre post : List (Op M)) (t : St M K) (vs : List (Val K))
    (e : run lib (pre ++ .init J :: post) (new J0 c) = .ok t vs) (hq : ∀ op ∈ post, op.Quiet) :
    step lib .getRank t = .exc t := by
  obtain ⟨s1, va, vb, h1, h2, h3⟩ := run_append lib pre _ _ _ _ e
  obtain ⟨w1, -⟩ := run_spec lib pre _ _ _ (wf_new J0 c) h1
  have hspec := step_spec lib (.init J) s1 w1
  have key : ∀ s2 v, step lib (.init J) s1 = .ok s2 v → s2.factor = none := by
    intro s2 v hh
    simp only [step, initStructure, dropFactor] at hh
    cases hf : free s1.factor s1 with
    | fault f => rw [hf] at hh; cases hh
    | exc s => rw [hf] at hh; cases hh
    | ok s3 u =>
      rw [hf] at hh
      simp only [Out.bind] at hh
      injection hh with h4 h5
      rw [← h4]
  simp only [run] at h2
  cases hs : step lib (.init J) s1 with
  | fault f => rw [hs] at h2; cases h2
  | exc s2 =>
    exfalso
    simp only [step, initStructure, dropFactor] at hs
    cases hf : s1.factor with
    | none => rw [hf] at hs; simp [free, Out.bind] at hs
    | some f => rw [hf] at hs; simp [free, w1.fac f hf, Out.bind] at hs
  | ok s2 v =>
    rw [hs] at h2 hspec
    simp only at h2
    cases hr : run lib post s2 with
    | fault f => rw [hr] at h2; cases h2
    | exc s => rw [hr] at h2; cases h2
    | ok t' vs' =>
      rw [hr] at h2
      injection h2 with h4 h5
      subst h4
      obtain ⟨-, -, -, -, hqq, -⟩ := run_spec lib post _ _ _ hspec.1 hr
      have := (hqq hq).1
      rw [key s2 v hs] at this
      simp [step, getRank, need, Out.bind, this]

/-- The arrays of a matrix are those of the matrix the library returned. -/
def Matches (A : CCM K) (cs : CS K) : Prop :=
  A.rows = cs.nrow ∧ A.cols = cs.ncol ∧ A.colPtr = cs.colPtr ∧ A.rowInd = cs.rowInd ∧ A.values = cs.values

/-- A matrix of the library without spare capacity: as many entries as the last column pointer says. -/
def CS.Compact (cs : CS K) : Prop :=
  cs.colPtr.getLast? = some cs.values.length ∧ cs.rowInd.length = cs.values.length ∧ cs.colPtr.length = cs.ncol + 1

theorem check_fromCS (A : CCM K) (cs : CS K) (h : cs.Compact) : CCM.check (fromCS A cs) = .ok () := by
  obtain ⟨h1, h2, h3⟩ := h
  simp [CCM.check, fromCS, h1, h2, h3]

/-- Calls that keep the Jacobian keep a valid or empty `_R` valid or empty. -/
theorem keeps_R (lib : Lib M K) (hc : ∀ A, (lib.r A).Compact) : ∀ (ops : List (Op M)) (s t : St M K) (vs : List (Val K)), WF s → run lib ops s = .ok t vs →
    (∀ op ∈ ops, op.Keeps) → (s.R.values.length = 0 ∨ Matches s.R (lib.r s.J)) → t.J = s.J ∧ (t.R.values.length = 0 ∨ Matches t.R (lib.r t.J))
  | [], s, t, vs, h, e, _, hR => by
    simp only [run] at e
    injection e with e1 e2
    subst e1
    exact ⟨rfl, hR⟩
  | op :: ops, s, t, vs, h, e, hk, hR => by
    have e1 := step_spec lib op s h
    have one : ∀ s1, (∃ v, step lib op s = .ok s1 v) ∨ step lib op s = .exc s1 → s1.J = s.J ∧ (s1.R.values.length = 0 ∨ Matches s1.R (lib.r s1.J)) := by
      intro s1 hs1
      have hop := hk op (by simp)
      cases op with
      | init J => exact hop.elim
      | build J t => exact hop.elim
      | solve oa o =>
        have e := solveSystem_spec lib oa o s h
        simp only [step] at hs1
        cases hs : solveSystem lib oa o s with
        | fault f => rw [hs] at hs1; simp [Out.bind] at hs1
        | exc t =>
          rw [hs] at hs1 e
          simp only [Out.bind, reduceCtorEq, exists_false, false_or, Out.exc.injEq] at hs1
          subst hs1
          rw [e.2.J, e.2.R]; exact ⟨rfl, hR⟩
        | ok t b =>
          rw [hs] at hs1 e
          simp only [Out.bind, Out.ok.injEq, reduceCtorEq, or_false] at hs1
          obtain ⟨v, hs1, -⟩ := hs1
          subst hs1
          rw [e.2.1.J, e.2.1.R]; exact ⟨rfl, hR⟩
      | analyze oa tr ok =>
        have e := analyzeSystem_spec oa tr ok s h
        simp only [step] at hs1
        cases hs : analyzeSystem oa tr ok s with
        | fault f => rw [hs] at hs1; simp [Out.bind] at hs1
        | exc t =>
          rw [hs] at hs1 e
          simp only [Out.bind, reduceCtorEq, exists_false, false_or, Out.exc.injEq] at hs1
          subst hs1
          rw [e.2.J, e.2.R]; exact ⟨rfl, hR⟩
        | ok t b =>
          rw [hs] at hs1 e
          simp only [Out.bind, Out.ok.injEq, reduceCtorEq, or_false] at hs1
          obtain ⟨v, hs1, -⟩ := hs1
          subst hs1
          rw [e.2.1.J, e.2.1.R]; exact ⟨rfl, hR⟩
      | getR o =>
        have e := getR_spec lib o s h
        simp only [step] at hs1
        cases hs : getR lib o s with
        | fault f => rw [hs] at hs1; simp [Out.bind] at hs1
        | exc t =>
          rw [hs] at hs1 e
          simp only [Out.bind, reduceCtorEq, exists_false, false_or, Out.exc.injEq] at hs1
          subst hs1
          have hr : t.R = s.R := e.2.2.2.2.2.resolve_right fun hne => hne (check_fromCS _ _ (hc _))
          rw [e.2.1, hr]; exact ⟨rfl, hR⟩
        | ok t b =>
          rw [hs] at hs1 e
          simp only [Out.bind, Out.ok.injEq, reduceCtorEq, or_false] at hs1
          obtain ⟨v, hs1, -⟩ := hs1
          subst hs1
          rcases e.2.2.2.2.2.2.2 with hr | ⟨_, hr⟩
          · rw [e.2.1, hr]; exact ⟨rfl, hR⟩
          · rw [e.2.1, hr]; exact ⟨rfl, Or.inr ⟨rfl, rfl, rfl, rfl, rfl⟩⟩
      | getRank =>
        simp only [step, getRank] at hs1
        cases hf : s.factor with
        | none =>
          rw [hf] at hs1
          simp only [Option.isSome_none, need, Bool.false_eq_true, if_false, Out.bind, reduceCtorEq, exists_false, false_or, Out.exc.injEq] at hs1
          subst hs1; exact ⟨rfl, hR⟩
        | some f =>
          have hm := h.fac f hf
          simp only [hf, Option.isSome_some, need, if_true, deref, hm, Out.bind, Out.ok.injEq, reduceCtorEq, or_false] at hs1
          obtain ⟨v, hs1, -⟩ := hs1
          subst hs1; exact ⟨rfl, hR⟩
      | setColNorm b =>
        simp only [step, Out.ok.injEq, reduceCtorEq, or_false] at hs1
        obtain ⟨v, hs1, -⟩ := hs1
        subst hs1; exact ⟨rfl, hR⟩
    simp only [run] at e
    cases hs : step lib op s with
    | fault f => rw [hs] at e; cases e
    | ok s1 v =>
      have o1 := one s1 (Or.inl ⟨v, hs⟩)
      rw [hs] at e e1
      simp only at e e1
      cases hr : run lib ops s1 with
      | fault f => rw [hr] at e; cases e
      | exc s => rw [hr] at e; cases e
      | ok t' vs' =>
        rw [hr] at e
        injection e with e2 e3
        subst e2
        have := keeps_R lib hc ops s1 t' vs' e1.1 hr (fun o ho => hk o (by simp [ho])) o1.2
        exact ⟨this.1.trans o1.1, this.2⟩
    | exc s1 =>
      have o1 := one s1 (Or.inr hs)
      rw [hs] at e e1
      simp only at e e1
      cases hr : run lib ops s1 with
      | fault f => rw [hr] at e; cases e
      | exc s => rw [hr] at e; cases e
      | ok t' vs' =>
        rw [hr] at e
        injection e with e2 e3
        subst e2
        have := keeps_R lib hc ops s1 t' vs' e1.1 hr (fun o ho => hk o (by simp [ho])) o1.2
        exact ⟨this.1.trans o1.1, this.2⟩

/-- C111: after a `buildSystem()` that returned, and any calls that do not set up or build a system, a call of `getR()` for which the library succeeds returns the triangular factor of the Jacobian
that was built, whatever was asked or solved in between. Provided the library returns matrices without spare capacity. -/
theorem C111_r_partial (lib : Lib M K) (hc : ∀ A, (lib.r A).Compact) (J0 J : M) (c : Bool) (pre post : List (Op M)) (t : St M K) (vs : List (Val K))
    (e : run lib (pre ++ .build J false :: post) (new J0 c) = .ok t vs) (hk : ∀ op ∈ post, op.Keeps) :
    ∃ (t' : St M K) (A : CCM K), step lib (.getR ⟨true, true, true⟩) t = .ok t' (.r A) ∧ Matches A (lib.r J) ∧ t'.live.length = t.live.length := by
  obtain ⟨s1, va, vb, h1, h2, h3⟩ := run_append lib pre _ _ _ _ e
  obtain ⟨w1, -⟩ := run_spec lib pre _ _ _ (wf_new J0 c) h1
  simp only [run, step, buildSystem, Bool.false_eq_true, if_false, Out.bind] at h2
  cases hr : run lib post { s1 with J := J, R := CCM.clear s1.R } with
  | fault f => rw [hr] at h2; cases h2
  | exc s => rw [hr] at h2; cases h2
  | ok t1 vs1 =>
    rw [hr] at h2
    injection h2 with h4 h5
    subst h4
    have w2 : WF { s1 with J := J, R := CCM.clear s1.R } := ⟨w1.nodup, w1.lt, w1.fac⟩
    have hR := keeps_R lib hc post _ _ _ w2 hr hk (Or.inl (by simp [CCM.clear]))
    obtain ⟨wt, -⟩ := run_spec lib post _ _ _ w2 hr
    have hJ : t1.J = J := hR.1
    by_cases hz : t1.R.values.length = 0
    · refine ⟨{ t1 with R := fromCS t1.R (lib.r J), next := t1.next + 1 + 1 }, fromCS t1.R (lib.r J), ?_, ⟨rfl, rfl, rfl, rfl, rfl⟩, rfl⟩
      have hck := check_fromCS t1.R (lib.r J) (hc J)
      have g : t1.next + 1 ≠ t1.next := by omega
      simp [step, getR, alloc, deref, free, need, Out.bind, hz, hJ, hck]
    · refine ⟨t1, t1.R, ?_, ?_, rfl⟩
      · simp only [step, getR, if_neg hz, Out.bind]
      · have := hR.2.resolve_left hz
        rwa [hJ] at this

/-- A library for the examples: Jacobians are natural numbers, the rank is the number itself, and the triangular factor is a 1×1 matrix holding it. -/
def exLib : Lib Nat Int := ⟨id, id, fun n => ⟨1, 1, [0, 1], [0], [(n : Int)]⟩⟩

/-- The library calls of the examples all succeed. -/
def okA : SymO := ⟨true, true, true⟩
/-- The library calls of the examples all succeed. -/
def okS : SolveO := ⟨true, true, true, true, true, true⟩

/-- The hypotheses of `C111_rank_partial` are met: set up, build, solve, then build another system. -/
example : ∃ (t : St Nat Int) (vs : List (Val Int)), run exLib ([.init 0, .build 2 false] ++ .solve okA okS :: [.build 1 false]) (new 0 true) = .ok t vs ∧
    vs[2]? = some (.solved true) ∧ (∀ op ∈ ([.build 1 false] : List (Op Nat)), op.Quiet) :=
  ⟨_, _, rfl, rfl, by simp [Op.Quiet]⟩

/-- The hypotheses of `C111_rank_throws` are met: the factor of an earlier system is gone. -/
example : ∃ (t : St Nat Int) (vs : List (Val Int)), run exLib ([.init 0, .build 2 false, .solve okA okS] ++ .init 3 :: [.build 4 false]) (new 0 true) = .ok t vs :=
  ⟨_, _, rfl⟩

/-- The hypotheses of `C111_r_partial` are met: a failed solve and an earlier call of `getR` in between. -/
example : (∀ A, (exLib.r A).Compact) ∧ ∃ (t : St Nat Int) (vs : List (Val Int)),
    run exLib ([.init 0, .build 2 false, .getR ⟨true, true, true⟩] ++ .build 5 false :: [.getR ⟨true, true, true⟩, .solve okA ⟨true, true, true, false, true, true⟩]) (new 0 false) = .ok t vs :=
  ⟨fun _ => by simp [CS.Compact, exLib], _, _, rfl⟩

/-- C111: `getRank()` after `buildSystem()` answers for the system before: the rank 2 of the Jacobian solved last, not the rank 1 of the one just built. `getR()` in the same state answers for the
new system. -/
theorem C111_stale_rank_counterexample : ∃ (t : St Nat Int) (vs : List (Val Int)),
    run exLib [.init 0, .build 2 false, .solve okA okS, .build 1 false] (new 0 false) = .ok t vs ∧ t.J = 1 ∧
    step exLib .getRank t = .ok t (.rank (some 2)) ∧ ∃ t' A, step exLib (.getR ⟨true, true, true⟩) t = .ok t' (.r A) ∧ A.values = [1] :=
  ⟨_, _, rfl, rfl, rfl, _, _, rfl, rfl⟩

/-- C111: `getR()` after a new `initMatrixStructure()` returns the triangular factor of the old system; so does one after a `buildSystem()` that threw on the way. -/
theorem C111_stale_r_counterexample : (∃ (t : St Nat Int) (vs : List (Val Int)),
    run exLib [.init 0, .build 2 false, .getR ⟨true, true, true⟩, .init 7] (new 0 false) = .ok t vs ∧ t.J = 7 ∧
    ∃ A, step exLib (.getR ⟨true, true, true⟩) t = .ok t (.r A) ∧ A.values = [2]) ∧
    ∃ (t : St Nat Int) (vs : List (Val Int)),
    run exLib [.init 0, .build 2 false, .getR ⟨true, true, true⟩, .build 7 true] (new 0 false) = .ok t vs ∧ t.J = 7 ∧
    ∃ A, step exLib (.getR ⟨true, true, true⟩) t = .ok t (.r A) ∧ A.values = [2] :=
  ⟨⟨_, _, rfl, rfl, _, rfl, rfl⟩, _, _, rfl, rfl, _, rfl, rfl⟩

/-- A library that allocates one entry for a matrix without entries (CHOLMOD allocates at least one): the column pointers say 0, the arrays hold 1. -/
def spareLib : Lib Nat Int := ⟨id, id, fun _ => ⟨1, 1, [0, 0], [0], [0]⟩⟩

/-- C111: spare capacity makes `getR()` throw, because the copy is checked after it was stored. The second call finds entries and returns the matrix the first one rejected. -/
theorem C111_spare_capacity_counterexample : ∃ (t : St Nat Int), run spareLib [.init 0, .build 0 false, .getR ⟨true, true, true⟩] (new 0 false) = .ok t [.done, .done, .threw] ∧
    ∃ A, step spareLib (.getR ⟨true, true, true⟩) t = .ok t (.r A) ∧ CCM.check A = .exc :=
  ⟨_, rfl, _, rfl, rfl⟩

/-! ### C112 -/

/-- C112: no history of calls on one solver object, whatever the library returns, releases an object twice or uses one that was released. Undefined behaviour has one cause, a null pointer: a solve with
column scaling in which the library fails, or `getR()` without memory. -/
theorem C112_no_double_release (lib : Lib M K) : ∀ (ops : List (Op M)) (s : St M K), WF s → ∀ f, run lib ops s = .fault f →
    f = .null ∧ ∃ pre op post, ops = pre ++ op :: post ∧ op.NullRisk (lastNorm s.colNorm pre)
  | [], s, h, f, e => by cases e
  | op :: ops, s, h, f, e => by
    have e1 := step_spec lib op s h
    simp only [run] at e
    have next : ∀ s1 : St M K, WF s1 → s1.colNorm = lastNorm s.colNorm [op] → run lib ops s1 = .fault f →
        f = .null ∧ ∃ pre op' post, op :: ops = pre ++ op' :: post ∧ op'.NullRisk (lastNorm s.colNorm pre) := by
      intro s1 w hc hr
      obtain ⟨hf, pre, op', post, hops, hn⟩ := C112_no_double_release lib ops s1 w f hr
      refine ⟨hf, op :: pre, op', post, by simp [hops], ?_⟩
      rw [lastNorm_cons, ← hc]; exact hn
    cases hs : step lib op s with
    | fault g =>
      rw [hs] at e e1
      injection e with e2
      subst e2
      exact ⟨e1.1, [], op, ops, rfl, e1.2⟩
    | ok s1 v =>
      rw [hs] at e e1
      simp only at e e1
      cases hr : run lib ops s1 with
      | fault g =>
        rw [hr] at e
        injection e with e2
        subst e2
        exact next s1 e1.1 e1.2.2.2.1 hr
      | exc s => rw [hr] at e; cases e
      | ok t' vs' => rw [hr] at e; cases e
    | exc s1 =>
      rw [hs] at e e1
      simp only at e e1
      cases hr : run lib ops s1 with
      | fault g =>
        rw [hr] at e
        injection e with e2
        subst e2
        exact next s1 e1.1 e1.2.2.1 hr
      | exc s => rw [hr] at e; cases e
      | ok t' vs' => rw [hr] at e; cases e

/-- C112: if no call threw (`getRank()` may), the factor is the only object of the library that is left, and the destructor releases it. -/
theorem C112_released_partial (lib : Lib M K) (J0 : M) (c : Bool) (ops : List (Op M)) (t : St M K) (vs : List (Val K)) (e : run lib ops (new J0 c) = .ok t vs)
    (hn : ∀ p ∈ ops.zip vs, p.2 = .threw → p.1.IsRank) :
    t.live = t.factor.toList ∧ ∃ t', dropFactor t = .ok t' () ∧ t'.live = [] := by
  obtain ⟨w, -, -, -, -, hl⟩ := run_spec lib ops _ _ _ (wf_new J0 c) e
  have h := hl hn (by simp [new])
  refine ⟨h, ?_⟩
  cases hf : t.factor with
  | none =>
    rw [hf] at h
    exact ⟨{ t with factor := none, num := none }, by simp [dropFactor, free, Out.bind, hf], by simpa using h⟩
  | some f =>
    have hm := w.fac f hf
    rw [hf] at h
    exact ⟨{ t with live := t.live.erase f, factor := none, num := none }, by simp [dropFactor, free, Out.bind, hf, hm], by simp [h]⟩

/-- C112: the destructor never releases an object twice, also after exceptions. -/
theorem C112_destructor (lib : Lib M K) (J0 : M) (c : Bool) (ops : List (Op M)) (t : St M K) (vs : List (Val K)) (e : run lib ops (new J0 c) = .ok t vs) :
    ∃ t', dropFactor t = .ok t' () := by
  obtain ⟨w, -⟩ := run_spec lib ops _ _ _ (wf_new J0 c) e
  cases hf : t.factor with
  | none => exact ⟨{ t with factor := none, num := none }, by simp [dropFactor, free, Out.bind, hf]⟩
  | some f =>
    have hm := w.fac f hf
    exact ⟨{ t with live := t.live.erase f, factor := none, num := none }, by simp [dropFactor, free, Out.bind, hf, hm]⟩

/-- C112: a numeric factorisation that fails leaves nothing behind. Whatever the history, if the solver owns its factor and nothing else, it does so after `analyzeSystem()` too, which throws in this
case; the transposed matrix has been released. -/
theorem C112_failed_factorization (lib : Lib M K) (J0 : M) (c : Bool) (ops : List (Op M)) (s : St M K) (vs : List (Val K)) (e : run lib ops (new J0 c) = .ok s vs)
    (hl : s.live = s.factor.toList) :
    ∃ t, analyzeSystem ⟨true, true, true⟩ true false s = .exc t ∧ t.live = t.factor.toList ∧ t.factor.isSome = true ∧ t.num = none := by
  obtain ⟨w, -⟩ := run_spec lib ops _ _ _ (wf_new J0 c) e
  have hn := w.not_mem s.next le_rfl
  cases hf : s.factor with
  | some f =>
    rw [hf] at hl
    simp only [Option.toList_some] at hl
    have hne : s.next ≠ f := fun h => hn (by rw [hl, h]; simp)
    refine ⟨{ s with live := [f], next := s.next + 1, num := none }, ?_, by simp [hf], by simp [hf], rfl⟩
    simp [analyzeSystem, ensureFactor, hf, Out.bind, alloc, factorize, need, deref, numeric, free, hl]
  | none =>
    rw [hf] at hl
    simp only [Option.toList_none] at hl
    refine ⟨{ s with live := [s.next + 1], next := s.next + 3, factor := some (s.next + 1), num := none }, ?_, rfl, rfl, rfl⟩
    simp [analyzeSystem, ensureFactor, analyzeQR, hf, Out.bind, alloc, factorize, need, deref, numeric, free, hl]

/-- The hypotheses of `C112_failed_factorization` after a solve. -/
example : ∃ (t : St Nat Int) (vs : List (Val Int)), run exLib [.init 0, .build 2 false, .solve okA okS] (new 0 true) = .ok t vs ∧ t.live = t.factor.toList ∧ t.factor.isSome = true :=
  ⟨_, _, rfl, rfl, rfl⟩

/-- The hypotheses of the C112 theorems are met by a history with two systems, a failed factorisation, a throwing `getRank()` and a throwing `analyzeSystem()` (only for `C112_destructor`). -/
example : ∃ (t : St Nat Int) (vs : List (Val Int)), run exLib [.init 0, .getRank, .build 2 false, .solve okA okS, .setColNorm false, .solve okA ⟨true, true, true, false, true, true⟩, .init 1, .build 3 false,
    .analyze okA true true, .getR ⟨true, true, true⟩] (new 0 true) = .ok t vs ∧ t.live.length = 1 :=
  ⟨_, _, rfl, rfl⟩

example : WF (new 0 true : St Nat Int) ∧ run exLib [.init 0, .build 2 false, .solve okA ⟨true, true, true, false, true, true⟩] (new 0 true) = .fault .null := ⟨wf_new _ _, rfl⟩

/-- C112: exceptions leave objects behind that nothing releases: a failed scaling (the transposed Jacobian and the scaling), a failed `getR()`, and a `getR()` whose result is rejected. In each case the
destructor runs and one or two objects remain. -/
theorem C112_leak_counterexample :
    (∃ (t t' : St Nat Int), run exLib [.init 0, .build 2 false, .solve okA ⟨true, true, false, true, true, true⟩] (new 0 true) = .ok t [.done, .done, .threw] ∧
      dropFactor t = .ok t' () ∧ t'.live.length = 2) ∧
    (∃ (t t' : St Nat Int), run exLib [.init 0, .build 2 false, .getR ⟨true, false, false⟩] (new 0 true) = .ok t [.done, .done, .threw] ∧
      dropFactor t = .ok t' () ∧ t'.live.length = 1) ∧
    (∃ (t t' : St Nat Int), run spareLib [.init 0, .build 0 false, .getR ⟨true, true, true⟩] (new 0 true) = .ok t [.done, .done, .threw] ∧
      dropFactor t = .ok t' () ∧ t'.live.length = 1) :=
  ⟨⟨_, _, rfl, rfl, rfl⟩, ⟨_, _, rfl, rfl, rfl⟩, _, _, rfl, rfl, rfl⟩

/-- C112: the class can be copied. After one solve, destroying the original and the copy releases the factor twice. -/
theorem C112_copy_counterexample : ∃ (t : St Nat Int) (vs : List (Val Int)), run exLib [.init 0, .build 2 false, .solve okA okS] (new 0 true) = .ok t vs ∧
    destroyBoth t = .fault .freed :=
  ⟨_, _, rfl, rfl⟩

end Verif.QrSolver
