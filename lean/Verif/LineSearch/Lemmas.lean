import Verif.LineSearch.Model
import Mathlib.Tactic.SplitIfs

/-!
Lemmas about the line search, for every number type.
-/
namespace Verif.LineSearch
open FloatLike

variable {F : Type} [FloatLike F] {X V : Type}

local instance : Add F := ⟨FloatLike.add⟩
local instance : Mul F := ⟨FloatLike.mul⟩

/-- The stored values belong to the state, unless they are flagged as outdated. -/
structure Fresh (E : Env F X V) (s : LS F X V) : Prop where
  err : s.errOut = false → s.err = E.err s.x
  derr : s.derrOut = false → ∃ d, s.dir = some d ∧ s.derr = E.dot (E.grad s.x) d

/-- Error, gradient and derivative along `d` all belong to the state, and no flag is set. -/
structure Current (E : Env F X V) (d : V) (s : LS F X V) : Prop where
  errOut : s.errOut = false
  derrOut : s.derrOut = false
  dir : s.dir = some d
  err : s.err = E.err s.x
  grad : s.grad = E.grad s.x
  derr : s.derr = E.dot (E.grad s.x) d

theorem Current.fresh {E : Env F X V} {d : V} {s : LS F X V} (h : Current E d s) : Fresh E s :=
  ⟨fun _ => h.err, fun _ => ⟨d, h.dir, h.derr⟩⟩

/-- A direction is set and what is not flagged belongs to the state. -/
structure Semi (E : Env F X V) (d : V) (s : LS F X V) : Prop where
  dir : s.dir = some d
  err : s.errOut = false → s.err = E.err s.x
  grad : s.derrOut = false → s.grad = E.grad s.x
  derr : s.derrOut = false → s.derr = E.dot (E.grad s.x) d

/-- As `Semi`, without the stored gradient. -/
structure SemiD (E : Env F X V) (d : V) (s : LS F X V) : Prop where
  dir : s.dir = some d
  err : s.errOut = false → s.err = E.err s.x
  derr : s.derrOut = false → s.derr = E.dot (E.grad s.x) d

theorem Current.semi {E : Env F X V} {d : V} {s : LS F X V} (h : Current E d s) : Semi E d s :=
  ⟨h.dir, fun _ => h.err, fun _ => h.grad, fun _ => h.derr⟩

theorem Semi.semiD {E : Env F X V} {d : V} {s : LS F X V} (h : Semi E d s) : SemiD E d s :=
  ⟨h.dir, h.err, h.derr⟩

theorem SemiD.fresh {E : Env F X V} {d : V} {s : LS F X V} (h : SemiD E d s) : Fresh E s :=
  ⟨h.err, fun g => ⟨d, h.dir, h.derr g⟩⟩

theorem SemiD.moveTo {E : Env F X V} {d : V} {s : LS F X V} (h : SemiD E d s) (t : F) :
    SemiD E d (moveTo E d s t) := by
  unfold LineSearch.moveTo
  dsimp only
  split_ifs
  · exact ⟨h.dir, h.err, h.derr⟩
  · exact ⟨h.dir, by simp, by simp⟩

theorem SemiD.updateError {E : Env F X V} {d : V} {s : LS F X V} (h : SemiD E d s) :
    SemiD E d (updateError E s) := by
  unfold LineSearch.updateError
  split_ifs
  · exact ⟨h.dir, fun _ => rfl, h.derr⟩
  · exact h

theorem SemiD.derivAt {E : Env F X V} {d : V} {s : LS F X V} (h : SemiD E d s) :
    SemiD E d (derivAt E d s) := by
  unfold LineSearch.derivAt
  split_ifs
  · exact ⟨h.dir, h.err, fun _ => rfl⟩
  · exact h

theorem Semi.moveTo {E : Env F X V} {d : V} {s : LS F X V} (h : Semi E d s) (t : F) :
    Semi E d (moveTo E d s t) := by
  unfold LineSearch.moveTo
  dsimp only
  split_ifs
  · exact ⟨h.dir, h.err, h.grad, h.derr⟩
  · exact ⟨h.dir, by simp, by simp, by simp⟩

theorem Semi.updateError {E : Env F X V} {d : V} {s : LS F X V} (h : Semi E d s) :
    Semi E d (updateError E s) := by
  unfold LineSearch.updateError
  split_ifs
  · exact ⟨h.dir, fun _ => rfl, h.grad, h.derr⟩
  · exact h

theorem Semi.derivAt {E : Env F X V} {d : V} {s : LS F X V} (h : Semi E d s) :
    Semi E d (derivAt E d s) := by
  unfold LineSearch.derivAt
  split_ifs
  · exact ⟨h.dir, h.err, fun _ => rfl, fun _ => rfl⟩
  · exact h

theorem errOut_updateError (E : Env F X V) (s : LS F X V) : (updateError E s).errOut = false := by
  unfold updateError
  split_ifs with h
  · rfl
  · simpa using h

theorem derrOut_derivAt (E : Env F X V) (d : V) (s : LS F X V) : (derivAt E d s).derrOut = false := by
  unfold derivAt
  split_ifs with h
  · rfl
  · simpa using h

theorem errOut_derivAt (E : Env F X V) (d : V) (s : LS F X V) : (derivAt E d s).errOut = s.errOut := by
  unfold derivAt
  split_ifs <;> rfl

theorem err_derivAt (E : Env F X V) (d : V) (s : LS F X V) : (derivAt E d s).err = s.err := by
  unfold derivAt
  split_ifs <;> rfl

theorem step_derivAt (E : Env F X V) (d : V) (s : LS F X V) : (derivAt E d s).step = s.step := by
  unfold derivAt
  split_ifs <;> rfl

theorem step_updateError (E : Env F X V) (s : LS F X V) : (updateError E s).step = s.step := by
  unfold updateError
  split_ifs <;> rfl

theorem step_moveTo (E : Env F X V) (d : V) (s : LS F X V) (t : F) : (moveTo E d s t).step = t := by
  unfold moveTo
  dsimp only
  split_ifs <;> rfl

/-- Both flags are clear and `Semi` holds: everything is current. -/
theorem Semi.current {E : Env F X V} {d : V} {s : LS F X V} (h : Semi E d s) (h1 : s.errOut = false) (h2 : s.derrOut = false) :
    Current E d s :=
  ⟨h1, h2, h.dir, h.err h1, h.grad h2, h.derr h2⟩

/-- Outdated or not, after the derivative update of a state with up-to-date error everything is current. -/
theorem Semi.current_derivAt {E : Env F X V} {d : V} {s : LS F X V} (h : Semi E d s) (h1 : s.errOut = false) :
    Current E d (LineSearch.derivAt E d s) :=
  h.derivAt.current (by rw [errOut_derivAt]; exact h1) (derrOut_derivAt E d s)

theorem applyStateUpdate_eq (E : Env F X V) (s : LS F X V) (t : F) {d : V} (h : s.dir = some d) :
    applyStateUpdate E s t = (moveTo E d s t, .ok ()) := by
  unfold applyStateUpdate moveTo
  rw [h]
  dsimp only
  split_ifs <;> rfl

theorem updateErrorDerivative_eq (E : Env F X V) (s : LS F X V) {d : V} (h : s.dir = some d) :
    updateErrorDerivative E s = (derivAt E d s, .ok ()) := by
  unfold updateErrorDerivative derivAt
  rw [h]
  dsimp only
  split_ifs <;> rfl

/-- What `Dcsrch::updateStepLength` never changes. -/
theorem Dc.update_consts (c : Dc F) (e g : F) :
    (c.update e g).finit = c.finit ∧ (c.update e g).gtest = c.gtest ∧ (c.update e g).gneg = c.gneg ∧
    (c.update e g).minS = c.minS ∧ (c.update e g).maxS = c.maxS ∧ (c.update e g).stage ≠ 0 := by
  unfold Dc.update
  split_ifs with h1 h2
  · exact ⟨rfl, rfl, rfl, rfl, rfl, by simp⟩
  · refine ⟨rfl, rfl, rfl, rfl, rfl, ?_⟩
    simp only [Dc.stage']
    split_ifs
    · simp
    · simpa using h1
  · refine ⟨rfl, rfl, rfl, rfl, rfl, ?_⟩
    simp only [Dc.advance, Dc.stage']
    split_ifs
    · simp
    · simpa using h1

/-- Convergence is only reported after the two tests. -/
theorem Dc.update_converged {c : Dc F} {e g : F} (hr : c.status = .running) (h : (c.update e g).status = .converged) :
    c.stage ≠ 0 ∧ le e (c.finit + c.step * c.gtest) = true ∧ le (abs g) c.gneg = true := by
  unfold Dc.update at h
  split_ifs at h with h1 h2
  · rw [hr] at h; cases h
  · refine ⟨by simpa using h1, ?_⟩
    simp only [Dc.status'] at h
    split_ifs at h with h3 h4
    · simp only [Dc.conv, Dc.ftest, Bool.and_eq_true] at h3
      exact h3
    · rw [hr] at h; cases h
  · simp only [Dc.advance] at h
    rw [hr] at h; cases h

/-- Not code: `loop1` started with a running search. -/
theorem loop1_spec (E : Env F X V) (d : V) (e0 k1 k2 : F) : ∀ (n : Nat) (s : LS F X V) (c : Dc F) (s' : LS F X V) (r : End1),
    loop1 E d n s c = (s', r) → c.status = .running → c.finit = e0 → c.gtest = k1 → c.gneg = k2 →
    (c.stage = 0 ∨ c.step = s.step) → Current E d s →
    Current E d s' ∧ s'.errOld = s.errOld ∧
      (r = .success → le s'.err (e0 + s'.step * k1) = true ∧ le (abs s'.derr) k2 = true) := by
  intro n
  induction n with
  | zero =>
    intro s c s' r h _ _ _ _ _ hc
    simp only [loop1, Prod.mk.injEq] at h
    obtain ⟨rfl, rfl⟩ := h
    exact ⟨hc, rfl, fun h => by cases h⟩
  | succ n ih =>
    intro s c s' r h hr h1 h2 h3 hs hc
    simp only [loop1] at h
    obtain ⟨f1, f2, f3, f4, f5, f6⟩ := Dc.update_consts c s.err s.derr
    split at h
    · rename_i hst
      have hcur : Current E d (derivAt E d (updateError E (moveTo E d s (c.update s.err s.derr).step))) := by
        apply Semi.current_derivAt
        · exact (hc.semi.moveTo _).updateError
        · exact errOut_updateError E _
      have := ih _ _ s' r h hst (f1.trans h1) (f2.trans h2) (f3.trans h3)
        (Or.inr (by rw [step_derivAt, step_updateError, step_moveTo])) hcur
      refine ⟨this.1, ?_, this.2.2⟩
      rw [this.2.1]
      unfold derivAt updateError moveTo
      dsimp only
      split_ifs <;> rfl
    · rename_i hst
      simp only [Prod.mk.injEq] at h
      obtain ⟨rfl, rfl⟩ := h
      refine ⟨hc, rfl, fun _ => ?_⟩
      obtain ⟨g1, g2, g3⟩ := Dc.update_converged hr hst
      have : c.step = s.step := hs.resolve_left g1
      rw [← this, ← h1, ← h2, ← h3]
      exact ⟨g2, g3⟩
    · simp only [Prod.mk.injEq] at h
      obtain ⟨rfl, rfl⟩ := h
      exact ⟨hc, rfl, fun h => by cases h⟩

theorem zoom_spec (E : Env F X V) (o : Opt F) (d : V) (e0 d0 : F) : ∀ (n : Nat) (fi : Bool) (s : LS F X V) (z : Zm F) (s' : LS F X V)
    (r : Bool), zoom E o d e0 d0 n fi s z = (s', r) → SemiD E d s → SemiD E d s' ∧ (s.errOut = false → s'.errOut = false) ∧
      (Semi E d s → Semi E d s') ∧ (r = true → s'.errOut = false ∧ s'.derrOut = false ∧ le (abs s'.derr) (neg o.c2 * d0) = true) := by
  intro n
  induction n with
  | zero =>
    intro fi s z s' r h hs
    simp only [zoom, Prod.mk.injEq] at h
    obtain ⟨rfl, rfl⟩ := h
    exact ⟨hs, id, id, fun h => by cases h⟩
  | succ n ih =>
    intro fi s z s' r h hs
    simp only [zoom] at h
    have h1 : SemiD E d (updateError E (moveTo E d s (trial fi z))) := (hs.moveTo _).updateError
    have e1 := errOut_updateError E (moveTo E d s (trial fi z))
    have g1 : Semi E d s → Semi E d (updateError E (moveTo E d s (trial fi z))) := fun g => (g.moveTo _).updateError
    split_ifs at h with h2 h3
    · obtain ⟨a, b, c, e⟩ := ih _ _ _ _ _ h h1
      exact ⟨a, fun _ => b e1, fun g => c (g1 g), e⟩
    · simp only [Prod.mk.injEq] at h
      obtain ⟨rfl, rfl⟩ := h
      refine ⟨h1.derivAt, fun _ => by rw [errOut_derivAt]; exact e1, fun g => (g1 g).derivAt, fun _ => ⟨?_, derrOut_derivAt E d _, h3⟩⟩
      rw [errOut_derivAt]; exact e1
    · obtain ⟨a, b, c, e⟩ := ih _ _ _ _ _ h h1.derivAt
      refine ⟨a, fun _ => b (by rw [errOut_derivAt]; exact e1), fun g => c (g1 g).derivAt, e⟩

theorem loop2_spec (E : Env F X V) (o : Opt F) (d : V) (e0 d0 : F) : ∀ (n : Nat) (fi : Bool) (s : LS F X V) (w : W2 F) (s' : LS F X V)
    (r : Bool), loop2 E o d e0 d0 n fi s w = (s', r) → SemiD E d s → s.errOut = false → SemiD E d s' ∧ s'.errOut = false ∧
      (Semi E d s → Semi E d s') ∧ (r = true → s'.derrOut = false ∧ le (abs s'.derr) (neg o.c2 * d0) = true) := by
  intro n
  induction n with
  | zero =>
    intro fi s w s' r h hs he
    simp only [loop2, Prod.mk.injEq] at h
    obtain ⟨rfl, rfl⟩ := h
    exact ⟨hs, he, id, fun h => by cases h⟩
  | succ n ih =>
    intro fi s w s' r h hs he
    simp only [loop2] at h
    split_ifs at h with h1 h2 h3 h4
    · simp only [Prod.mk.injEq] at h
      obtain ⟨rfl, rfl⟩ := h
      exact ⟨hs, he, id, fun h => by cases h⟩
    · obtain ⟨a, b, c, e⟩ := zoom_spec E o d e0 d0 _ _ _ _ _ _ h hs
      exact ⟨a, b he, c, fun hr => (e hr).2⟩
    · simp only [Prod.mk.injEq] at h
      obtain ⟨rfl, rfl⟩ := h
      exact ⟨hs.derivAt, by rw [errOut_derivAt]; exact he, fun g => g.derivAt, fun _ => ⟨derrOut_derivAt E d s, h3⟩⟩
    · obtain ⟨a, b, c, e⟩ := zoom_spec E o d e0 d0 _ _ _ _ _ _ h hs.derivAt
      exact ⟨a, b (by rw [errOut_derivAt]; exact he), fun g => c g.derivAt, fun hr => (e hr).2⟩
    · obtain ⟨a, b, c, e⟩ := ih _ _ _ _ _ h (hs.derivAt.moveTo _).updateError (errOut_updateError E _)
      exact ⟨a, b, fun g => c (g.derivAt.moveTo _).updateError, e⟩

end Verif.LineSearch
