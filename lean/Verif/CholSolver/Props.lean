import Verif.CholSolver.Spec
import Verif.CCM.Props

/-! Claim C117. -/
namespace Verif.CholSolver
open Verif.CCM (CCM WF withDiag pushDiag_ok popDiag_ok withDiag_wf)

variable {R : Type} [Semiring R]

/-- The object stands for `a`. With `clean`, nothing but the factor is allocated. -/
structure Rel (clean : Bool) (s : St R) (a : Abs R) : Prop where
  cond : s.cond = a.cond
  diag : s.diag = a.diag
  len : a.diag.length = a.J.rows
  wf : WF a.J
  nodiag : a.J.hasDiag = false
  free : a.stuck = false → s.J = a.J
  held : a.stuck = true → ∃ d, d.length = a.J.rows ∧ s.J = withDiag a.J d
  stuck : a.stuck = true → a.cond = true ∧ a.fac = false
  fac : s.factor.isSome = a.fac
  low : ∀ x ∈ s.live, x < s.next
  nodup : s.live.Nodup
  mem : ∀ f, s.factor = some f → f ∈ s.live
  pat : a.fac = true → s.pat = some (patternOf a.mat)
  tight : clean = true → s.live = s.factor.toList

omit [Semiring R] in
theorem pattern_withDiag (A : CCM R) (v : List R) (hv : v.length = A.values.length) (d d' : List R) :
    patternOf (withDiag { A with values := v } d') = patternOf (withDiag A d) := by
  simp [patternOf, withDiag, hv]

theorem wf_values {A : CCM R} (h : WF A) (v : List R) (hv : v.length = A.values.length) : WF { A with values := v } := by
  obtain ⟨h1, h2, h3, h4, h5, h6, h7⟩ := h
  refine ⟨h1, h2, h3, ?_, ?_, h6, h7⟩
  · simp only [CCM.arrays] at h4 ⊢; rw [h4, hv]
  · simp only [CCM.arrays] at h5 ⊢; rw [h5, hv]

omit [Semiring R] in
theorem writeValues_plain (v : Nat → R) (A : CCM R) (h : A.hasDiag = false) :
    writeValues v A = { A with values := (List.range A.values.length).map v } := by
  unfold writeValues
  simp [h]

omit [Semiring R] in
theorem writeValues_diag (v : Nat → R) (A : CCM R) (d : List R) (hd : d.length = A.rows) :
    writeValues v (withDiag A d) = withDiag { A with values := (List.range A.values.length).map v } d := by
  unfold writeValues withDiag
  simp [hd]

/-- What an outcome should be. -/
def Sim (clean : Bool) (r : Out (St R) (Val R)) (q : Abs R × Val R) : Prop :=
  match r with
  | .ok s v => Rel clean s q.1 ∧ v = q.2
  | .exc s => Rel clean s q.1 ∧ q.2 = .threw
  | .fault _ => False

omit [Semiring R] in
theorem erase_head (x : Nat) (l : List Nat) : (x :: l).erase x = l := by simp

theorem step_init (clean : Bool) (s : St R) (hlow : ∀ x ∈ s.live, x < s.next) (hn : s.live.Nodup) (hm : ∀ f, s.factor = some f → f ∈ s.live)
    (ht : clean = true → s.live = s.factor.toList) (a : Abs R) (A : CCM R) (c t : Bool) (hA : WF A) (hf : A.hasDiag = false) :
    Sim clean (step (.init A c t) s) (astep (.init A c t) a) := by
  have hdrop : ∃ s', dropFactor { s with diag := List.replicate A.rows (0 : R) } = .ok s' () ∧ s'.factor = none ∧ s'.diag = List.replicate A.rows (0 : R) ∧
      (∀ x ∈ s'.live, x < s'.next) ∧ s'.live.Nodup ∧ (clean = true → s'.live = []) := by
    unfold dropFactor free
    cases h : s.factor with
    | none => exact ⟨_, rfl, rfl, rfl, hlow, hn, fun hc => by simpa [h] using ht hc⟩
    | some f =>
      simp only [hm f h, if_true, Out.bind]
      refine ⟨_, rfl, rfl, rfl, fun x hx => hlow x (List.mem_of_mem_erase hx), hn.erase _, fun hc => ?_⟩
      simp [ht hc, h]
  obtain ⟨s', e, h1, h2, h3, h4, h5⟩ := hdrop
  have rel : Rel clean { s' with cond := c, J := A } (⟨A, c, List.replicate A.rows 0, false, false⟩ : Abs R) :=
    ⟨rfl, h2, by simp, hA, hf, fun _ => rfl, (by intro h; cases h), (by intro h; cases h), by simp [h1], h3, h4, by simp [h1], (by intro h; cases h), fun hc => by simp [h1, h5 hc]⟩
  unfold step initStructure astep
  simp only [e, Out.bind]
  cases t with
  | true => exact ⟨rel, rfl⟩
  | false =>
    cases c with
    | false => exact ⟨rel, rfl⟩
    | true =>
      simp only [Bool.false_eq_true, if_false, if_true, onJ, CCM.pushConstDiag, pushDiag_ok hA hf (List.replicate A.rows 1) (by simp), popDiag_ok hA hf (List.replicate A.rows 1) (by simp)]
      exact ⟨rel, rfl⟩

theorem step_build (clean : Bool) (s : St R) (a : Abs R) (h : Rel clean s a) (v : Nat → R) (t : Bool) : Sim clean (step (.build v t) s) (astep (.build v t) a) := by
  have rel : Rel clean { s with J := writeValues v s.J } { a with J := { a.J with values := (List.range a.J.values.length).map v } } := by
    refine ⟨h.cond, h.diag, h.len, wf_values h.wf _ (by simp), h.nodiag, fun hs => ?_, fun hs => ?_, h.stuck, h.fac, h.low, h.nodup, h.mem, fun hf => ?_, h.tight⟩
    · simp only [h.free hs]
      rw [writeValues_plain v a.J h.nodiag]
    · obtain ⟨d, hd, e⟩ := h.held hs
      refine ⟨d, hd, ?_⟩
      simp only [e]
      rw [writeValues_diag v a.J d hd]
    · rw [h.pat hf]
      congr 1
      unfold Abs.mat
      dsimp only
      split
      · exact (pattern_withDiag a.J _ (by simp) a.diag a.diag).symm
      · rfl
  unfold step buildSystem astep
  cases t
  · exact ⟨rel, rfl⟩
  · exact ⟨rel, rfl⟩

theorem Rel.rows {clean : Bool} {s : St R} {a : Abs R} (h : Rel clean s a) : s.J.rows = a.J.rows := by
  cases hs : a.stuck with
  | false => rw [h.free hs]
  | true =>
    obtain ⟨d, hd, e⟩ := h.held hs
    rw [e]; rfl

theorem step_cond (clean : Bool) (s : St R) (a : Abs R) (h : Rel clean s a) (d : List R) : Sim clean (step (.setCond d) s) (astep (.setCond d) a) := by
  unfold step setConditioner astep
  rw [h.rows]
  by_cases hd : d.length = a.J.rows
  · simp only [hd, if_true, Out.bind]
    refine ⟨⟨h.cond, rfl, hd, h.wf, h.nodiag, h.free, h.held, h.stuck, h.fac, h.low, h.nodup, h.mem, fun hf => ?_, h.tight⟩, rfl⟩
    rw [h.pat hf]
    congr 1
    unfold Abs.mat
    dsimp only
    split
    · exact pattern_withDiag a.J a.J.values rfl a.diag d |>.symm ▸ rfl
    · rfl
  · simp only [hd, if_false, Out.bind]
    exact ⟨h, rfl⟩

theorem push_stuck {A : CCM R} (h : WF A) (d d' : List R) (hd : d.length = A.rows) : CCM.pushDiag (withDiag A d) d' = .exc := by
  unfold CCM.pushDiag
  rw [(withDiag_wf h d hd).check]
  simp only [Res.bind_ok]
  split_ifs with h1 h2
  · rfl
  · rfl
  · exact absurd rfl h2

omit [Semiring R] in
/-- The part of `solveSystem` between appending and removing the diagonal: with a factor for the pattern at hand. -/
theorem tail_ok (o : Oracle) (s : St R) (hlow : ∀ x ∈ s.live, x < s.next) (hn : s.live.Nodup) (f : Nat) (hf : s.factor = some f) (hm : f ∈ s.live)
    (hp : s.pat = some (patternOf s.J)) :
    ∃ nx, cholmodSolve o s = .ok { s with live := (if o.fact && o.sl then [s.next] else []) ++ s.live, next := nx } (if o.fact && o.sl then some s.next else none) ∧ s.next ≤ nx ∧
      (o.fact = true → o.sl = true → s.next < nx) := by
  obtain ⟨lv, nx, fa, pa, J, co, di⟩ := s
  simp only at hf hm hp hlow hn
  subst hf hp
  unfold cholmodSolve factorize need deref
  simp only [Option.isSome_some, if_true, Out.bind, hm]
  cases hfa : o.fact
  · exact ⟨nx, by simp , le_refl _, by simp⟩
  · cases hsl : o.sl
    · exact ⟨nx, by simp [alloc], le_refl _, by simp⟩
    · exact ⟨nx + 1, by simp [alloc], by omega, by intros; omega⟩

/-- What `solveSystem` does once the diagonal is in place and a factor exists. -/
theorem solve_rest (clean : Bool) (o : Oracle) (s : St R) (a : Abs R) (hs : a.stuck = false) (hlow : ∀ x ∈ s.live, x < s.next) (hn : s.live.Nodup) (f : Nat) (hf : s.factor = some f)
    (hm : f ∈ s.live) (hp : s.pat = some (patternOf s.J)) (hJ : s.J = a.mat) (hc : s.cond = a.cond) (hdg : s.diag = a.diag) (hl : a.diag.length = a.J.rows) (hw : WF a.J) (hnd : a.J.hasDiag = false)
    (ht : clean = true → s.live = [f]) :
    ∃ s', ((cholmodSolve o s).bind fun s1 sol =>
      (if s1.cond then onJ CCM.popDiag s1 else .ok s1 ()).bind fun s2 _ =>
      if sol.isNone then .ok s2 (false, s.J)
      else (deref sol s2).bind fun s2 _ => (free sol s2).bind fun s2 _ => .ok s2 (true, s.J) : Out (St R) (Bool × CCM R)) = .ok s' (o.fact && o.sl, a.mat) ∧ Rel clean s' { a with fac := true } := by
  obtain ⟨nx, e, hnx, hnx'⟩ := tail_ok o s hlow hn f hf hm hp
  rw [e]
  simp only [Out.bind]
  have hpop : ∀ lv n, (if s.cond then onJ CCM.popDiag { s with live := lv, next := n } else Out.ok { s with live := lv, next := n } ()) = .ok { s with live := lv, next := n, J := a.J } () := by
    intro lv n
    rw [hc]
    cases hac : a.cond with
    | false =>
      have : s.J = a.J := by rw [hJ]; simp [Abs.mat, hac]
      simp [← this]
    | true =>
      have : s.J = withDiag a.J a.diag := by rw [hJ]; simp [Abs.mat, hac]
      simp only [if_true, onJ, this, popDiag_ok hw hnd a.diag hl]
  simp only [hpop]
  have hrel : Rel clean { s with next := nx, J := a.J } { a with fac := true } := by
    refine ⟨hc, hdg, hl, hw, hnd, fun _ => rfl, ?_, ?_, by simp [hf], fun x hx => ?_, hn, ?_, fun _ => ?_, fun hcl => ?_⟩
    · intro h; rw [show a.stuck = true from h] at hs; cases hs
    · intro h; rw [show a.stuck = true from h] at hs; cases hs
    · exact lt_of_lt_of_le (hlow x hx) hnx
    · intro g hg
      rw [show s.factor = some g from hg] at hf
      cases hf; exact hm
    · rw [show s.pat = _ from hp, hJ]; rfl
    · rw [show s.live = _ from ht hcl, show s.factor = _ from hf]; rfl
  cases hb : (o.fact && o.sl) with
  | false =>
    simp only [Bool.false_eq_true, if_false, Option.isNone_none, if_true, List.nil_append]
    exact ⟨_, by rw [hJ], hrel⟩
  | true =>
    simp only [if_true, Option.isNone_some, Bool.false_eq_true, if_false, deref, free, List.cons_append, List.nil_append, List.mem_cons, true_or, List.erase_cons_head]
    exact ⟨_, by rw [hJ], hrel⟩

omit [Semiring R] in
theorem solve_eq (o : Oracle) (s : St R) : solveSystem o s =
    ((if s.cond then onJ (fun A => CCM.pushDiag A s.diag) s else .ok s ()).bind fun s _ =>
     (ensureFactor o s).bind fun s _ =>
      (cholmodSolve o s).bind fun s1 sol =>
      (if s1.cond then onJ CCM.popDiag s1 else .ok s1 ()).bind fun s2 _ =>
      if sol.isNone then .ok s2 (false, s.J)
      else (deref sol s2).bind fun s2 _ => (free sol s2).bind fun s2 _ => .ok s2 (true, s.J)) := rfl

theorem step_solve (clean : Bool) (s : St R) (a : Abs R) (h : Rel clean s a) (o : Oracle) (ho : clean = true → o.ptr = true → o.status = true) :
    Sim clean (step (.solve o) s) (astep (.solve o) a) := by
  unfold step astep
  simp only [solve_eq]
  cases hs : a.stuck with
  | true =>
    obtain ⟨hcond, _⟩ := h.stuck hs
    obtain ⟨d, hd, e⟩ := h.held hs
    simp only [h.cond, hcond, if_true, onJ, e, push_stuck h.wf d s.diag hd, Out.bind]
    exact ⟨h, rfl⟩
  | false =>
    have hpush : (if s.cond then onJ (fun A => CCM.pushDiag A s.diag) s else .ok s ()) = .ok { s with J := a.mat } () := by
      have hcc := h.cond
      cases hc : a.cond with
      | false =>
        have : s.J = a.mat := by rw [h.free hs]; simp [Abs.mat, hc]
        have hcs : s.cond = false := by rw [hcc, hc]
        rw [if_neg (by simp [hcs]), ← this]
      | true =>
        have : a.mat = withDiag a.J s.diag := by rw [h.diag]; simp [Abs.mat, hc]
        have hcs : s.cond = true := by rw [hcc, hc]
        simp only [hcs, if_true, onJ, h.free hs, pushDiag_ok h.wf h.nodiag s.diag (by rw [h.diag, h.len]), this]
    rw [hpush]
    simp only [Out.bind_ok_eq, Bool.false_eq_true, if_false]
    rcases Option.eq_none_or_eq_some s.factor |>.symm with ⟨f, hfac⟩ | hfac
    · have hfa : a.fac = true := by rw [← h.fac, hfac]; rfl
      have he : ensureFactor o { s with J := a.mat } = .ok { s with J := a.mat } () := by simp [ensureFactor, hfac]
      rw [he]
      simp only [Out.bind_ok_eq]
      obtain ⟨s', e, hr⟩ := solve_rest clean o { s with J := a.mat } a hs h.low h.nodup f hfac (h.mem f hfac) (by simpa using h.pat hfa) rfl h.cond h.diag h.len h.wf h.nodiag
        (fun hc => by simpa [hfac] using h.tight hc)
      dsimp only at e
      rw [e]
      simp only [Out.bind_ok_eq, hfa, true_or, if_true]
      exact ⟨by simpa only [hs] using hr, rfl⟩
    · have hfa : a.fac = false := by rw [← h.fac, hfac]; rfl
      have hst : ∀ lv nx, (∀ x ∈ lv, x < nx) → lv.Nodup → (clean = true → lv = []) →
          Rel clean { s with J := a.mat, live := lv, next := nx } { a with stuck := a.cond } := by
        intro lv nx h1 h2 h3
        refine ⟨h.cond, h.diag, h.len, h.wf, h.nodiag, fun hc => ?_, fun hc => ?_, fun hc => ⟨hc, hfa⟩, h.fac, h1, h2, ?_, ?_, fun hc => ?_⟩
        · simp [Abs.mat, show a.cond = false from hc]
        · exact ⟨a.diag, h.len, by simp [Abs.mat, show a.cond = true from hc]⟩
        · intro f hf
          rw [show s.factor = some f from hf] at hfac; cases hfac
        · intro hc
          rw [show a.fac = true from hc] at hfa; cases hfa
        · rw [show s.factor = none from hfac]; exact h3 hc
      have hempty : clean = true → s.live = [] := fun hc => by simpa [hfac] using h.tight hc
      cases hp : o.ptr with
      | false =>
        have he : ensureFactor o { s with J := a.mat } = .exc { s with J := a.mat } := by
          simp only [ensureFactor, hfac, analyze, alloc, hp, Bool.false_eq_true, if_false, Out.bind, need, Option.isSome_none]
          cases o.status <;> rfl
        rw [he]
        simp only [Out.bind, hfa, hp, Bool.false_eq_true, false_and, or_self, if_false]
        exact ⟨by simpa only [hfa] using hst s.live s.next h.low h.nodup hempty, rfl⟩
      | true =>
        have hnl : s.next ∉ s.live := fun hx => lt_irrefl _ (h.low _ hx)
        have hlow' : ∀ x ∈ s.next :: s.live, x < s.next + 1 := by
          intro x hx
          rw [List.mem_cons] at hx
          rcases hx with rfl | hx
          · omega
          · have := h.low x hx; omega
        cases hst' : o.status with
        | false =>
          have he : ensureFactor o { s with J := a.mat } = .exc { s with J := a.mat, live := s.next :: s.live, next := s.next + 1 } := by
            simp [ensureFactor, hfac, analyze, alloc, hp, Out.bind, need, hst']
          rw [he]
          simp only [Out.bind, hfa, hp, Bool.false_eq_true, and_false, or_self, if_false]
          have hq := hst _ _ hlow' (List.nodup_cons.2 ⟨hnl, h.nodup⟩) (fun hc => by
            have := ho hc hp
            rw [hst'] at this; cases this)
          exact ⟨by simpa only [hfa] using hq, rfl⟩
        | true =>
          have he : ensureFactor o { s with J := a.mat } =
              .ok { s with J := a.mat, live := s.next :: s.live, next := s.next + 1, factor := some s.next, pat := some (patternOf a.mat) } () := by
            simp [ensureFactor, hfac, analyze, alloc, hp, Out.bind, need, hst']
          rw [he]
          simp only [Out.bind_ok_eq]
          obtain ⟨s', e, hr⟩ := solve_rest clean o { s with J := a.mat, live := s.next :: s.live, next := s.next + 1, factor := some s.next, pat := some (patternOf a.mat) } a hs hlow'
            (List.nodup_cons.2 ⟨hnl, h.nodup⟩) s.next rfl (by simp) rfl rfl h.cond h.diag h.len h.wf h.nodiag (fun hc => by simp [hempty hc])
          dsimp only at e
          rw [e]
          simp only [Out.bind_ok_eq, hp, and_self, or_true, if_true]
          exact ⟨by simpa only [hs] using hr, rfl⟩

/-- One step of a started history. -/
theorem step_sim (clean : Bool) (s : St R) (a : Abs R) (h : Rel clean s a) (op : Op R) (hA : ∀ A c t, op = .init A c t → WF A ∧ A.hasDiag = false)
    (hc : clean = true → ∀ o, op = .solve o → o.ptr = true → o.status = true) : Sim clean (step op s) (astep op a) := by
  cases op with
  | init A c t => exact step_init clean s h.low h.nodup h.mem h.tight a A c t (hA A c t rfl).1 (hA A c t rfl).2
  | build v t => exact step_build clean s a h v t
  | setCond d => exact step_cond clean s a h d
  | solve o => exact step_solve clean s a h o fun c => hc c o rfl

theorem run_sim (clean : Bool) (ops : List (Op R)) (s : St R) (a : Abs R) (h : Rel clean s a) (hA : Legal ops) (hc : clean = true → Clean ops) :
    ∃ s', run ops s = .ok s' (arun ops a).2 ∧ Rel clean s' (arun ops a).1 := by
  induction ops generalizing s a with
  | nil => exact ⟨s, rfl, h⟩
  | cons op ops ih =>
    have hs := step_sim clean s a h op (fun A c t e => hA A c t (by simp [e])) (fun c o e => hc c o (by simp [e]))
    have hA' : Legal ops := fun A c t hm => hA A c t (by simp [hm])
    have hc' : clean = true → Clean ops := fun c o hm => hc c o (by simp [hm])
    simp only [run, arun]
    cases e : step op s with
    | ok s1 v =>
      rw [e] at hs
      obtain ⟨h1, rfl⟩ := hs
      obtain ⟨s', e', h'⟩ := ih s1 _ h1 hA' hc'
      exact ⟨s', by simp only [e', Out.bind_ok_eq], h'⟩
    | exc s1 =>
      rw [e] at hs
      obtain ⟨h1, h2⟩ := hs
      obtain ⟨s', e', h'⟩ := ih s1 _ h1 hA' hc'
      exact ⟨s', by simp only [e', Out.bind_ok_eq, h2], h'⟩
    | fault f =>
      rw [e] at hs
      exact hs.elim

theorem start_sim (clean : Bool) (ops : List (Op R)) (a : Abs R) (hb : Begins ops) (hA : Legal ops) (hc : clean = true → Clean ops) :
    ∃ s', run ops new = .ok s' (arun ops a).2 ∧ Rel clean s' (arun ops a).1 := by
  obtain ⟨A, c, t, rest, rfl⟩ := hb
  have hs := step_init clean (new : St R) (by simp [new]) (by simp [new]) (by simp [new]) (by simp [new]) a A c t (hA A c t (by simp)).1 (hA A c t (by simp)).2
  have hA' : Legal rest := fun A c t hm => hA A c t (by simp [hm])
  have hc' : clean = true → Clean rest := fun c o hm => hc c o (by simp [hm])
  simp only [run, arun]
  cases e : step (.init A c t) (new : St R) with
  | ok s1 v =>
    rw [e] at hs
    obtain ⟨h1, rfl⟩ := hs
    obtain ⟨s', e', h'⟩ := run_sim clean rest s1 _ h1 hA' hc'
    exact ⟨s', by simp only [e', Out.bind_ok_eq], h'⟩
  | exc s1 =>
    rw [e] at hs
    obtain ⟨h1, h2⟩ := hs
    obtain ⟨s', e', h'⟩ := run_sim clean rest s1 _ h1 hA' hc'
    exact ⟨s', by simp only [e', Out.bind_ok_eq, h2], h'⟩
  | fault f =>
    rw [e] at hs
    exact hs.elim

/-- **C117** (solving). In every history that begins with setting up the structure, with exceptions caught and whatever the library returns, nothing undefined happens (no null or released object is used, CHOLMOD never
gets a matrix with a pattern other than the one it analysed), and every call has the effect of `astep`: each solve is done with the Jacobian last built, followed by the diagonal of the conditioner last
set if there is one, and reports success exactly if the library factorised and solved. -/
theorem C117_solves_current_matrix (ops : List (Op R)) (hb : Begins ops) (hA : Legal ops) (a : Abs R) : ∃ s, run ops new = .ok s (arun ops a).2 := by
  obtain ⟨s, e, _⟩ := start_sim false ops a hb hA (by intro h; cases h)
  exact ⟨s, e⟩

/-- **C117** (ledger; partial: `cholmod_analyze` must not return an object together with an error status, see `C117_leak_counterexample`). After every history the only object of the library that is
allocated is the factor, and destroying the solver releases it. -/
theorem C117_no_leak_partial (ops : List (Op R)) (hb : Begins ops) (hA : Legal ops) (hc : Clean ops) (a : Abs R) :
    ∃ s s', run ops new = .ok s (arun ops a).2 ∧ s.live = s.factor.toList ∧ dropFactor s = .ok s' () ∧ s'.live = [] := by
  obtain ⟨s, e, h⟩ := start_sim true ops a hb hA fun _ => hc
  refine ⟨s, ?_⟩
  refine ⟨{ s with live := [], factor := none, pat := none }, e, h.tight rfl, ?_, rfl⟩
  have ht := h.tight rfl
  unfold dropFactor free
  cases hf : s.factor with
  | none => rw [hf] at ht; simp only [Out.bind]; rw [ht]; rfl
  | some f => simp [Out.bind, ht, hf]

/-- A 1×1 matrix. -/
def one : CCM Int := ⟨1, 1, [3], [0], [0, 1], false, false⟩

theorem one_wf : WF one := by
  refine ⟨rfl, rfl, ?_, rfl, rfl, ?_, ?_⟩
  · intro j hj
    have : j = 0 := by simp [one] at hj; omega
    subst this; decide
  · intro k hk
    have : k = 0 := by simp [one, CCM.arrays] at hk; omega
    subst this; decide
  · intro j hj k h1 h2
    have : j = 0 := by simp [one] at hj; omega
    subst this
    simp [one, CCM.arrays] at h2

/-- The hypotheses of both theorems are met by a history with conditioners, a failed factorisation and two structures; the second solve is done with `[3, 7]`. -/
example : ∃ ops : List (Op Int), Begins ops ∧ Legal ops ∧ Clean ops ∧ ∃ a,
    (arun ops a).2[4]? = some (.solved true ⟨1, 2, [5, 7], [0, 0], [0, 1, 2], true, false⟩) := by
  refine ⟨[.init one true false, .build (fun _ => 5) false, .solve ⟨true, true, false, true⟩, .setCond [7], .solve ⟨true, true, true, true⟩, .init CCM.demo false true], ⟨_, _, _, _, rfl⟩, ?_, ?_,
    ⟨one, false, [], false, false⟩, rfl⟩
  · intro A c t h
    simp at h
    rcases h with ⟨rfl, _⟩ | ⟨rfl, _⟩
    · exact ⟨one_wf, rfl⟩
    · exact ⟨CCM.demo_wf, rfl⟩
  · intro o h
    simp at h
    rcases h with rfl | rfl <;> intro _ <;> rfl

/-- **C117** (negation: a solve that throws leaves the solver usable). Once an analysis has failed while a conditioner is in use, every later solve throws, whatever is built or set and whatever the library would answer, until the
structure is set up again: the diagonal block stays appended. -/
theorem C117_stuck_counterexample (pre ops : List (Op R)) (hb : Begins pre) (hA : Legal pre) (a : Abs R) (o : Oracle)
    (hcond : (arun pre a).1.cond = true) (hfac : (arun pre a).1.fac = false) (ho : ¬ (o.ptr = true ∧ o.status = true)) (hops : ∀ op ∈ ops, ∀ A c t, op ≠ .init A c t) :
    ∃ s vs ws, run (pre ++ .solve o :: ops) new = .ok s (vs ++ .threw :: ws) ∧ vs.length = pre.length ∧ ws.length = ops.length ∧
      ∀ i (h : i < ops.length) (h' : i < ws.length) o', ops[i] = .solve o' → ws[i] = .threw := by
  have hlen : ∀ (l : List (Op R)) (b : Abs R), (arun l b).2.length = l.length := by
    intro l
    induction l with
    | nil => intro b; rfl
    | cons op l ih => intro b; simp [arun, ih]
  have happ : ∀ (l m : List (Op R)) (b : Abs R), (arun (l ++ m) b).2 = (arun l b).2 ++ (arun m (arun l b).1).2 := by
    intro l m
    induction l with
    | nil => intro b; rfl
    | cons op l ih => intro b; simp [arun, ih]
  have key : ∀ (l : List (Op R)) (b : Abs R), b.stuck = true → (∀ op ∈ l, ∀ A c t, op ≠ .init A c t) →
      ∀ i (h : i < l.length) (h' : i < (arun l b).2.length) o', l[i] = .solve o' → (arun l b).2[i] = .threw := by
    intro l
    induction l with
    | nil => intro b _ _ i h; simp at h
    | cons op l ih =>
      intro b hb hl i h h' o' e
      have hst : (astep op b).1.stuck = true := by
        cases op with
        | init A c t => exact absurd rfl (hl _ (by simp) A c t)
        | build v t => exact hb
        | setCond d => simp only [astep]; split <;> exact hb
        | solve o => simp only [astep, hb, if_true]
      cases i with
      | zero =>
        simp only [List.getElem_cons_zero] at e
        subst e
        simp [arun, astep, hb]
      | succ i =>
        simp only [arun, List.getElem_cons_succ] at e h' ⊢
        exact ih _ hst (fun op hm => hl op (by simp [hm])) i (by simpa using h) _ o' e
  have hb' : Begins (pre ++ .solve o :: ops) := by
    obtain ⟨A, c, t, rest, rfl⟩ := hb
    exact ⟨A, c, t, _, rfl⟩
  have hA' : Legal (pre ++ .solve o :: ops) := by
    intro A c t hm
    rw [List.mem_append, List.mem_cons] at hm
    rcases hm with hm | hm | hm
    · exact hA A c t hm
    · cases hm
    · exact absurd rfl (hops _ hm A c t)
  obtain ⟨s, e, _⟩ := start_sim false _ a hb' hA' (by intro h; cases h)
  have hthrow : (astep (.solve o) (arun pre a).1).2 = Val.threw ∧ ((arun pre a).1.stuck = true ∨ (astep (.solve o) (arun pre a).1).1.stuck = true) := by
    simp only [astep]
    split_ifs with h1 h2
    · exact ⟨rfl, Or.inl h1⟩
    · rcases h2 with h2 | h2
      · rw [hfac] at h2; cases h2
      · exact absurd h2 ho
    · exact ⟨rfl, Or.inr hcond⟩
  have hst : (astep (.solve o) (arun pre a).1).1.stuck = true := by
    rcases hthrow.2 with h | h
    · simp only [astep, h, if_true]
    · exact h
  refine ⟨s, (arun pre a).2, (arun ops (astep (.solve o) (arun pre a).1).1).2, ?_, hlen _ _, hlen _ _, fun i h h' o' e => key ops _ hst hops i h h' o' e⟩
  rw [e, happ]
  simp only [arun, hthrow.1]

/-- The hypotheses are met: the first solve after setting up a structure with a conditioner. -/
example : Begins [Op.init one true false] ∧ Legal [Op.init one true false] ∧ (arun [Op.init one true false] ⟨one, false, [], false, false⟩).1.cond = true ∧
    (arun [Op.init one true false] ⟨one, false, [], false, false⟩).1.fac = false ∧ ¬ ((Oracle.mk false false true true).ptr = true ∧ (Oracle.mk false false true true).status = true) :=
  ⟨⟨_, _, _, _, rfl⟩, by intro A c t h; simp at h; obtain ⟨rfl, _⟩ := h; exact ⟨one_wf, rfl⟩, rfl, rfl, by simp⟩

/-- **C117** (negation). If `cholmod_analyze` returns an object and an error status, the exception leaks the object: it is still allocated after the solver was destroyed. -/
theorem C117_leak_counterexample : ∃ (ops : List (Op Int)) (s s' : St Int) (vs : List (Val Int)), Begins ops ∧ Legal ops ∧ run ops new = .ok s vs ∧ dropFactor s = .ok s' () ∧ s'.live ≠ [] := by
  refine ⟨[.init one false false, .solve ⟨true, false, true, true⟩], _, _, _, ⟨_, _, _, _, rfl⟩, ?_, rfl, rfl, by decide⟩
  intro A c t h
  simp at h
  obtain ⟨rfl, _⟩ := h
  exact ⟨one_wf, rfl⟩

end Verif.CholSolver
