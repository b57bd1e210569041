import Verif.Direct.Lemmas
import Mathlib.Tactic.IntervalCases

/-!
Property theorem C84: what the direct solvers hand to the library over histories of calls.
-/
namespace Verif.Direct
open Verif.SBM
open Verif.MatrixStack (DMat)

variable {K : Type} [CommRing K] {α : Type}

/-- The answer of a solver built for this one call. -/
def fresh (k : Kind) (debug : Bool) (lib : Lib K α) (A : SBM K) (q : Query K) : Option α :=
  match call k debug lib new A q with
  | .ok r => r.2
  | _ => none

/-- Whether a call gives up the analysis: only `solve` of the Cholmod class does, when it fails. -/
def GivesUp (k : Kind) (q : Query K) (r : Option α) : Prop :=
  k = .cholmod ∧ (∃ b, q = .rhs b) ∧ r = none

open Classical in
/-- A history in which the pattern changes only after a restart, or after a failed solve of the Cholmod
class. `cur` is the matrix the kept analysis belongs to. -/
def Calm (k : Kind) (debug : Bool) (lib : Lib K α) : Option (SBM K) → List (Op K) → Prop
  | _, [] => True
  | _, .init :: os => Calm k debug lib none os
  | cur, .call A q :: os => Good A ∧ (∀ A0, cur = some A0 → SamePattern A0 A) ∧
      Calm k debug lib (if GivesUp k q (fresh k debug lib A q) then none else some A) os

/-- The answers new solvers would give to the calls of a history. -/
def answers (k : Kind) (debug : Bool) (lib : Lib K α) : List (Op K) → List (Option α)
  | [] => []
  | .init :: os => answers k debug lib os
  | .call A q :: os => fresh k debug lib A q :: answers k debug lib os

/-- What holds between calls. -/
structure Inv (k : Kind) (s : St K) (cur : Option (SBM K)) : Prop where
  cap : Cap s.ext
  sym : ∀ σ, s.sym = some σ → ∃ A0, cur = some A0 ∧ Good A0 ∧ Filled k s.ext A0 ∧
    σ = (A0.rl.total, A0.cl.total, (arrays k A0).cp, (arrays k A0).ci)

/-- One call in terms of the exported arrays. -/
theorem call_spec {k : Kind} {s : St K} {cur : Option (SBM K)} (hi : Inv k s cur) (debug : Bool)
    (lib : Lib K α) {A : SBM K} (h : Good A) (hs : ∀ A0, cur = some A0 → SamePattern A0 A) (q : Query K)
    (hq : ¬ (k = .qr ∧ q = .cov)) :
    ∃ e, Filled k e A ∧ ((GivesUp k q (lib A.rl.total A.cl.total (arrays k A) q) ∧
        call k debug lib s A q = .ok (⟨e, none⟩, lib A.rl.total A.cl.total (arrays k A) q)) ∨
      (¬ GivesUp k q (lib A.rl.total A.cl.total (arrays k A) q) ∧
        call k debug lib s A q =
          .ok (⟨e, some (A.rl.total, A.cl.total, (arrays k A).cp, (arrays k A).ci)⟩,
            lib A.rl.total A.cl.total (arrays k A) q))) := by
  have hfill : ∃ e, fill k debug s.ext A s.sym.isSome = .ok e ∧ Filled k e A ∧
      s.sym.getD (A.rl.total, A.cl.total, (arrays k A).cp, (arrays k A).ci) =
        (A.rl.total, A.cl.total, (arrays k A).cp, (arrays k A).ci) := by
    cases hsym : s.sym with
    | none =>
      obtain ⟨e, e1, e2⟩ := fill_fresh (k := k) h hi.cap debug
      exact ⟨e, e1, e2, rfl⟩
    | some σ =>
      obtain ⟨A0, c1, c2, c3, c4⟩ := hi.sym σ hsym
      obtain ⟨e, e1, e2⟩ := fill_cached h c2 (hs A0 c1) c3 debug
      obtain ⟨p1, p2⟩ := samePattern_arrays c2 h (hs A0 c1) k
      refine ⟨e, e1, e2, ?_⟩
      rw [c4, Option.getD_some, p1, p2, (hs A0 c1).1, (hs A0 c1).2.1]
  obtain ⟨e, e1, e2, e3⟩ := hfill
  have hcall : call k debug lib s A q = (do
      let e ← fill k debug s.ext A s.sym.isSome
      let m ← view e
      let pat : Pattern := (e.nrow, e.ncol, m.cp, m.ci)
      let sym := s.sym.getD pat
      if sym = pat then
        let r := lib e.nrow e.ncol m q
        let keep := match k, q, r with
          | .cholmod, .rhs _, none => false
          | _, _, _ => true
        .ok (⟨e, if keep then some sym else none⟩, r)
      else .ub) := by
    cases k <;> cases q <;> first | rfl | exact absurd ⟨rfl, rfl⟩ hq
  rw [e1, Res.bind_ok, view_filled h e2, Res.bind_ok, e2.nrow, e2.ncol] at hcall
  simp only [e3] at hcall
  rw [if_pos trivial] at hcall
  refine ⟨e, e2, ?_⟩
  generalize lib A.rl.total A.cl.total (arrays k A) q = r at hcall ⊢
  cases k with
  | cholmod =>
    cases q with
    | rhs b =>
      cases r with
      | none => exact Or.inl ⟨⟨rfl, ⟨b, rfl⟩, rfl⟩, hcall⟩
      | some a => exact Or.inr ⟨fun hg => (by cases hg.2.2), hcall⟩
    | cov => exact Or.inr ⟨fun hg => (by obtain ⟨b, hb⟩ := hg.2.1; cases hb), hcall⟩
  | csparse => exact Or.inr ⟨fun hg => (by cases hg.1), hcall⟩
  | qr => exact Or.inr ⟨fun hg => (by cases hg.1), hcall⟩

theorem inv_new (k : Kind) (cur : Option (SBM K)) : Inv k (new : St K) cur :=
  ⟨fun h => absurd h (by simp [new]), fun σ h => by cases h⟩

theorem fresh_eq (k : Kind) (debug : Bool) (lib : Lib K α) {A : SBM K} (h : Good A) (q : Query K)
    (hq : ¬ (k = .qr ∧ q = .cov)) :
    fresh k debug lib A q = lib A.rl.total A.cl.total (arrays k A) q := by
  obtain ⟨e, _, hc⟩ := call_spec (inv_new k none) debug lib h (fun _ h0 => by cases h0) q hq
  unfold fresh
  rcases hc with ⟨_, hc⟩ | ⟨_, hc⟩ <;> rw [hc]

/-- **C84** (partial: calm histories). For each of the three solver classes, every library, every history
of solves, covariance requests and restarts on arbitrary matrices in which the block pattern or layout
changes only right after a restart (or after a failed solve of the Cholmod class): nothing is written
outside of the solver's arrays, nothing uninitialised is handed to the library, the library is never asked
to use an analysis of another pattern, and every answer is the one a solver built for that one call gives.
Missing: pattern changes without a restart (see the counterexamples). -/
theorem C84_history_partial (k : Kind) (debug : Bool) (lib : Lib K α) (ops : List (Op K))
    (hc : Calm k debug lib none ops) :
    ∃ s, Res.run (step k debug lib) (new, []) ops = .ok (s, answers k debug lib ops) := by
  have key : ∀ (ops : List (Op K)) (cur : Option (SBM K)) (s : St K) (out : List (Option α)),
      Inv k s cur → Calm k debug lib cur ops →
      ∃ s', Res.run (step k debug lib) (s, out) ops = .ok (s', out ++ answers k debug lib ops) := by
    intro ops
    induction ops with
    | nil => intro cur s out _ _; exact ⟨s, by simp [answers]⟩
    | cons o os ih =>
      intro cur s out hi hcalm
      cases o with
      | init =>
        exact ih none s.init out ⟨hi.cap, fun σ h => by cases h⟩ hcalm
      | call A q =>
        obtain ⟨hg, hs, hcalm⟩ := hcalm
        rw [Res.run_cons]
        by_cases hq : k = .qr ∧ q = .cov
        · obtain ⟨rfl, rfl⟩ := hq
          have e1 : step .qr debug lib (s, out) (.call A .cov) = .ok (s, out ++ [none]) := rfl
          have e2 : fresh .qr debug lib A .cov = none := rfl
          rw [e1, Res.bind_ok]
          rw [if_neg (fun hg => by cases hg.1)] at hcalm
          have hi' : Inv .qr s (some A) ∨ ∃ A0, cur = some A0 ∧ SamePattern A0 A := by
            cases cur with
            | none => exact Or.inl ⟨hi.cap, fun σ h => by obtain ⟨_, h, _⟩ := hi.sym σ h; cases h⟩
            | some A0 => exact Or.inr ⟨A0, rfl, hs A0 rfl⟩
          have hcalm' : ∃ cur', Inv .qr s cur' ∧ Calm .qr debug lib cur' os := by
            rcases hi' with hi' | ⟨A0, rfl, hsp⟩
            · exact ⟨_, hi', hcalm⟩
            · refine ⟨some A0, hi, ?_⟩
              clear ih hi
              cases os with
              | nil => trivial
              | cons o os =>
                cases o with
                | init => exact hcalm
                | call B q =>
                  obtain ⟨b1, b2, b3⟩ := hcalm
                  refine ⟨b1, fun A1 h1 => ?_, b3⟩
                  cases h1
                  obtain ⟨c1, c2, c3⟩ := b2 A rfl
                  obtain ⟨d1, d2, d3⟩ := hsp
                  exact ⟨d1.trans c1, d2.trans c2, fun c => (d3 c).trans (c3 c)⟩
          obtain ⟨cur', i1, i2⟩ := hcalm'
          obtain ⟨s', hr⟩ := ih cur' s (out ++ [none]) i1 i2
          exact ⟨s', by rw [hr, answers, e2, List.append_assoc]; rfl⟩
        · have hf := fresh_eq k debug lib hg q hq
          obtain ⟨e, e1, hcall⟩ := call_spec hi debug lib hg hs q hq
          rw [← hf] at hcall
          rcases hcall with ⟨hgu, hcall⟩ | ⟨hgu, hcall⟩
          · rw [if_pos hgu] at hcalm
            obtain ⟨s', hr⟩ := ih none ⟨e, none⟩ (out ++ [fresh k debug lib A q])
              ⟨fun _ => e1.hasP, fun σ h => by cases h⟩ hcalm
            refine ⟨s', ?_⟩
            have hst : step k debug lib (s, out) (.call A q) =
                (call k debug lib s A q).bind fun r => .ok (r.1, out ++ [r.2]) := rfl
            rw [hst, hcall]
            show Res.run _ (_, out ++ [fresh k debug lib A q]) os = _
            rw [hr, answers, List.append_assoc, List.singleton_append]
          · rw [if_neg hgu] at hcalm
            obtain ⟨s', hr⟩ := ih (some A)
              ⟨e, some (A.rl.total, A.cl.total, (arrays k A).cp, (arrays k A).ci)⟩
              (out ++ [fresh k debug lib A q])
              ⟨fun _ => e1.hasP, fun σ h => by cases h; exact ⟨A, rfl, hg, e1, rfl⟩⟩ hcalm
            refine ⟨s', ?_⟩
            have hst : step k debug lib (s, out) (.call A q) =
                (call k debug lib s A q).bind fun r => .ok (r.1, out ++ [r.2]) := rfl
            rw [hst, hcall]
            show Res.run _ (_, out ++ [fresh k debug lib A q]) os = _
            rw [hr, answers, List.append_assoc, List.singleton_append]
  obtain ⟨s, h⟩ := key ops none new [] (inv_new k none) hc
  exact ⟨s, by simpa using h⟩

/-- **C84** (what a new solver hands over). A new solver calls the library with legal arrays of the
matrix' dimension: the upper triangle of the dense expansion for the two Cholesky classes, the symmetric
matrix it stands for for the QR class. -/
theorem C84_new (k : Kind) (debug : Bool) (lib : Lib K α) {A : SBM K} (h : Good A) (hb : BlockUpper A)
    (q : Query K) (hq : ¬ (k = .qr ∧ q = .cov)) :
    ∃ M : CCS.Arrays K, fresh k debug lib A q = lib A.cl.total A.cl.total M q ∧
      CCS.Legal M A.cl.total A.cl.total ∧
      ∀ i j, i < A.cl.total → j < A.cl.total → CCS.read M i j =
        if i ≤ j then A.toDense.e i j else if k = .qr then A.toDense.e j i else 0 := by
  have htot := Layout.same_total h.square
  refine ⟨arrays k A, by rw [fresh_eq k debug lib h q hq, htot], ?_⟩
  have hf := full_eq h k debug
  cases k with
  | qr =>
    obtain ⟨s, h1, h2, _, h3⟩ := C53_fillSym_dense_partial debug A h.wf h.square h.pos hb
    have : full .qr debug A = .ok s := h1
    rw [this] at hf
    cases hf
    rw [htot] at h2 h3
    exact ⟨h2, fun i j hi hj => by rw [h3 i j hi hj]; simp⟩
  | cholmod =>
    obtain ⟨s, h1, h2, _, h3⟩ := C53_fillCCS_upper_partial debug A h.wf h.square h.pos hb
    have : full .cholmod debug A = .ok s := h1
    rw [this] at hf
    cases hf
    rw [htot] at h2 h3
    exact ⟨h2, fun i j hi hj => by rw [h3 i j hi hj]; simp⟩
  | csparse =>
    obtain ⟨s, h1, h2, _, h3⟩ := C53_fillCCS_upper_partial debug A h.wf h.square h.pos hb
    have : full .csparse debug A = .ok s := h1
    rw [this] at hf
    cases hf
    rw [htot] at h2 h3
    exact ⟨h2, fun i j hi hj => by rw [h3 i j hi hj]; simp⟩

/-! ### Concrete cases -/

/-- Blocks of size one. -/
def ones (n : Nat) : Layout := ⟨n, fun i => i + 1⟩

/-- A block holding one number. -/
def one (a : Int) : DMat Int := ⟨1, 1, fun _ _ => a⟩

/-- Three unknowns with diagonal `d`, and `a` in the first row of column `c`. -/
def tri (d a : Int) (c : Nat) : SBM Int :=
  ⟨ones 3, ones 3, true, fun k => if k < 3 then (if k = c then [(0, one a), (k, one d)] else [(k, one d)]) else []⟩

/-- A diagonal matrix. -/
def diag (n : Nat) (d : Int) : SBM Int :=
  ⟨ones n, ones n, true, fun k => if k < n then [(k, one d)] else []⟩

/-- All blocks on and above the diagonal. -/
def dense3 : SBM Int :=
  ⟨ones 3, ones 3, true, fun c => if c < 3 then (List.range (c + 1)).map fun r => (r, one 1) else []⟩

/-- A library that gives back what it was handed, and fails if the first value is not positive. -/
def echo : Lib Int (List Nat × List Nat × List Int) := fun _ _ m _ =>
  if 0 < m.cx.headD 0 then some (m.cp, m.ci, m.cx) else none

/-- The answers of a history. -/
def outs {α : Type} : Res (St Int × List (Option α)) → Option (List (Option α))
  | .ok w => some w.2
  | _ => none

theorem ones_mono (n : Nat) : (ones n).Mono := by
  intro i hi
  cases i <;> simp [ones, Layout.base]

theorem tri_good (d a : Int) {c : Nat} (hc : c = 1 ∨ c = 2) : Good (tri d a c) := by
  refine ⟨⟨ones_mono 3, ones_mono 3, ?_, ?_⟩, rfl, ?_, Nat.succ_pos 2⟩
  · intro k hk
    have : k < 3 := hk
    rcases hc with rfl | rfl <;> interval_cases k <;> simp [tri]
  · intro k hk p hp
    have : k < 3 := hk
    rcases hc with rfl | rfl <;> interval_cases k <;> simp [tri] at hp <;>
      (try rcases hp with rfl | rfl) <;> (try subst hp) <;> simp [tri, ones, one, Layout.size, Layout.base]
  · intro r hr
    have : r < 3 := hr
    interval_cases r <;> exact Nat.one_pos

theorem tri_same (d a d' a' : Int) (c : Nat) : SamePattern (tri d a c) (tri d' a' c) := by
  refine ⟨rfl, rfl, fun k => ?_⟩
  simp only [tri]
  split
  · split <;> rfl
  · rfl

/-- A calm history with a value change, a failed solve, a pattern change after it and another one after a
restart: the hypotheses of `C84_history_partial` are met, and the answers are the current matrices. -/
example : Calm .cholmod true echo none
      [.call (tri 2 1 1) (.rhs fun _ => 0), .call (tri (-3) 5 1) (.rhs fun _ => 0),
        .call (tri 4 6 2) .cov, .init, .call (tri 7 8 1) (.rhs fun _ => 0)] ∧
    outs (Res.run (step .cholmod true echo) (new, [])
      [.call (tri 2 1 1) (.rhs fun _ => 0), .call (tri (-3) 5 1) (.rhs fun _ => 0),
        .call (tri 4 6 2) .cov, .init, .call (tri 7 8 1) (.rhs fun _ => 0)]) =
      some [some ([0, 1, 3, 4], [0, 0, 1, 2], [2, 1, 2, 2]), none,
        some ([0, 1, 2, 4], [0, 1, 0, 2], [4, 4, 6, 4]),
        some ([0, 1, 3, 4], [0, 0, 1, 2], [7, 8, 7, 7])] := by
  refine ⟨⟨tri_good _ _ (Or.inl rfl), fun _ h => (by cases h), ?_⟩, by decide +kernel⟩
  rw [if_neg (fun h => by have := h.2.2; revert this; decide +kernel)]
  refine ⟨tri_good _ _ (Or.inl rfl), fun _ h => (by cases h; exact tri_same _ _ _ _ _), ?_⟩
  rw [if_pos ⟨rfl, ⟨_, rfl⟩, by decide +kernel⟩]
  exact ⟨tri_good _ _ (Or.inr rfl), fun _ h => (by cases h), tri_good _ _ (Or.inl rfl),
    fun _ h => (by cases h), trivial⟩

/-- The hypotheses of `C84_new` are met. -/
example : Good (tri 2 1 2) ∧ BlockUpper (tri 2 1 2) ∧
    ¬ ((Kind.qr = .qr) ∧ (Query.rhs fun _ => (0 : Int)) = .cov) := by
  refine ⟨tri_good _ _ (Or.inr rfl), ?_, fun h => by cases h.2⟩
  intro r c hc hcr
  have : c < 3 := hc
  interval_cases c <;> simp [SBM.block, tri] <;> omega

/-- **C84** (counterexample: stale row indices). A block that moved to another column between two solves
without a restart: the library is handed the new values with the old row indices and column pointers,
which is neither of the two matrices. Both Cholesky classes. -/
theorem C84_stale_pattern_counterexample (k : Kind) (hk : k ≠ .qr) :
    outs (Res.run (step k true echo) (new, [])
      [.call (tri 2 1 1) .cov, .call (tri 3 5 2) .cov]) =
      some [some ([0, 1, 3, 4], [0, 0, 1, 2], [2, 1, 2, 2]),
        some ([0, 1, 3, 4], [0, 0, 1, 2], [3, 3, 5, 3])] ∧
    fresh k true echo (tri 3 5 2) .cov = some ([0, 1, 2, 4], [0, 1, 0, 2], [3, 3, 5, 3]) := by
  cases k with
  | qr => exact absurd rfl hk
  | cholmod => exact ⟨by decide +kernel, by decide +kernel⟩
  | csparse => exact ⟨by decide +kernel, by decide +kernel⟩

/-- **C84** (counterexample: buffer overflow). A block added between two solves without a restart, as
happens when a term starts to depend on another variable: the values are written past the end of the
array. All three classes. -/
theorem C84_overflow_counterexample (k : Kind) :
    Res.run (step k true echo) (new, [])
      (match k with
      | .qr => [.call (diag 3 2) (.rhs fun _ => 0),
          .call dense3 (.rhs fun _ => 0)]
      | _ => [.call (diag 3 2) (.rhs fun _ => 0), .call (tri 2 1 1) (.rhs fun _ => 0)]) = .ub := by
  cases k <;> rfl

/-- **C84** (counterexample: uninitialised column pointers). A matrix with more columns without a restart,
whose values happen to fit: the column pointers are reallocated but not filled, and the library reads
them. -/
theorem C84_uninitialised_counterexample :
    Res.run (step .cholmod true echo) (new, [])
      [.call dense3 (.rhs fun _ => 0), .init, .call (diag 1 2) (.rhs fun _ => 0),
        .call (diag 4 2) (.rhs fun _ => 0)] = .ub ∧
    ∃ w, Res.run (step .cholmod true echo) (new, [])
        [.call dense3 (.rhs fun _ => 0), .init, .call (diag 1 2) (.rhs fun _ => 0)] = .ok w ∧
      ∃ e, fill .cholmod true w.1.ext (diag 4 2) true = .ok e ∧ e.p = none :=
  ⟨rfl, _, rfl, _, rfl, rfl⟩

/-- **C84** (counterexample: no unknowns). A new solver given an empty matrix writes through a null
pointer. -/
theorem C84_empty_counterexample (k : Kind) :
    Res.run (step k true echo) (new, []) [.call (diag 0 2) (.rhs fun _ => 0)] = .ub := by
  cases k <;> rfl

end Verif.Direct
