import Verif.SBMOwn.Refine

namespace Verif.SBMOwn
open Verif.MatrixStack (DMat)
open Verif.SBM (Layout sliceLayout)

variable {R : Type} [CommRing R]

/-- The operation neither destroys `x` or `y`, nor assigns to them, nor moves them away, nor deallocates the blocks of `y`. Specification, not code. -/
def Op.Leaves (x y : Nat) : Op R → Prop
  | .moveConstruct _ b => b ≠ x ∧ b ≠ y
  | .assign a _ => a ≠ x ∧ a ≠ y
  | .moveAssign a b => a ≠ x ∧ a ≠ y ∧ b ≠ x ∧ b ≠ y
  | .clear a d => a = y → d = false
  | .destroy a => a ≠ x ∧ a ≠ y
  | _ => True

/-- `y` still owns the blocks it owned, under the same keys. -/
def Grown (p p' : Obj) : Prop := p'.store = p.store ∧ p'.rl = p.rl ∧ p'.cl = p.cl ∧ ∀ k a, find p.ents k = some a → find p'.ents k = some a

theorem Grown.refl (p : Obj) : Grown p p := ⟨rfl, rfl, rfl, fun _ _ h => h⟩

theorem Grown.trans {p q r : Obj} (h : Grown p q) (h' : Grown q r) : Grown p r :=
  ⟨h'.1.trans h.1, h'.2.1.trans h.2.1, h'.2.2.1.trans h.2.2.1, fun k a e => h'.2.2.2 k a (h.2.2.2 k a e)⟩

theorem cloneInto_frame {w w' : World R} (h : Inv w) {x y : Nat} (e : cloneInto w x y = .ok w') (z : Nat) (hz : z ≠ x) : w'.obj z = w.obj z := by
  cases hx : w.obj x with
  | none => simp [cloneInto, get_err hx, bind, Except.bind] at e
  | some o =>
  cases hy : w.obj y with
  | none => simp [cloneInto, get_ok hx, get_err hy, bind, Except.bind] at e
  | some p =>
  by_cases hxy : x = y
  · subst hxy; simp [cloneInto, get_ok hx, bind, Except.bind, pure, Except.pure] at e; rw [e]
  · rw [cloneInto_eq w x y hxy o p hx hy h] at e
    obtain ⟨s1, c1⟩ := clear_post h hx true
    cases e1 : clear w x true with
    | error f => rw [e1] at e; cases e
    | ok w1 =>
      rw [e1] at s1 e
      obtain ⟨f1, o1, ho1, so1, em1⟩ := c1 w1 e1
      by_cases hn : p.rl.n = 0 ∨ p.cl.n = 0
      · simp [hn] at e
      simp only [hn, if_false] at e
      obtain ⟨s2, c2⟩ := clear_post (w := w1) s1 ho1 true
      cases e2 : clear w1 x true with
      | error f => rw [e2] at e; cases e
      | ok w2 =>
        rw [e2] at e
        obtain ⟨f2, _⟩ := c2 w2 e2
        simp only [cloneTail] at e
        split at e
        · cases e
        · cases e
          simp [World.set, hz, f2 z hz, f1 z hz]

/-- Operations that leave a view and its owner in place keep the pointers of the view, and the owner can only gain blocks. -/
theorem leaves_step {w w' : World R} (h : Inv w) {x y : Nat} {o p : Obj} (hx : w.obj x = some o) (hy : w.obj y = some p) (ho : o.store = false)
    {op : Op R} (hop : op.Leaves x y) (e : step w op = .ok w') : w'.obj x = some o ∧ ∃ p', w'.obj y = some p' ∧ Grown p p' := by
  have same : (∀ z, z = x ∨ z = y → w'.obj z = w.obj z) → w'.obj x = some o ∧ ∃ p', w'.obj y = some p' ∧ Grown p p' :=
    fun f => ⟨by rw [f x (Or.inl rfl), hx], p, by rw [f y (Or.inr rfl), hy], Grown.refl p⟩
  have nz : ∀ a, w.obj a = none → ∀ z, z = x ∨ z = y → z ≠ a := by
    rintro a ha z (rfl | rfl) rfl
    · rw [hx] at ha; cases ha
    · rw [hy] at ha; cases ha
  cases op with
  | construct a rl cl st =>
    cases ha : w.obj a with
    | some q => simp [step, fresh_err ha, bind, Except.bind] at e
    | none =>
      simp only [step, fresh_ok ha, bind, Except.bind, pure, Except.pure, Except.ok.injEq] at e
      subst e
      exact same fun z hz => by simp [World.set, nz a ha z hz]
  | copyConstruct a b =>
    cases ha : w.obj a with
    | some q => simp [step, fresh_err ha, bind, Except.bind] at e
    | none =>
      cases hb : w.obj b with
      | none => simp [step, fresh_ok ha, get_err hb, bind, Except.bind] at e
      | some q =>
        simp only [step, fresh_ok ha, get_ok hb, bind, Except.bind] at e
        have i1 : Inv (w.set a ⟨⟨0, fun _ => 0⟩, ⟨0, fun _ => 0⟩, true, []⟩) :=
          h.set0 a (fun o e => by rw [ha] at e; cases e) _ (by rintro p ⟨⟩; simp) (by rintro p ⟨⟩; simp)
        refine same fun z hz => ?_
        rw [cloneInto_frame i1 e z (nz a ha z hz)]
        simp [World.set, nz a ha z hz]
  | moveConstruct a b =>
    cases ha : w.obj a with
    | some q => simp [step, fresh_err ha, bind, Except.bind] at e
    | none =>
      cases hb : w.obj b with
      | none => simp [step, fresh_ok ha, get_err hb, bind, Except.bind] at e
      | some q =>
        simp only [step, fresh_ok ha, get_ok hb, bind, Except.bind, pure, Except.pure, Except.ok.injEq] at e
        subst e
        refine same fun z hz => ?_
        have hb : z ≠ b := by rcases hz with rfl | rfl; exacts [Ne.symm hop.1, Ne.symm hop.2]
        simp [World.set, nz a ha z hz, hb]
  | assign a b =>
    refine same fun z hz => ?_
    have ha : z ≠ a := by rcases hz with rfl | rfl; exacts [Ne.symm hop.1, Ne.symm hop.2]
    exact cloneInto_frame h e z ha
  | moveAssign a b =>
    obtain ⟨h1, h2, h3, h4⟩ := hop
    cases ha : w.obj a with
    | none => simp [step, moveAssign, get_err ha, bind, Except.bind] at e
    | some q =>
    cases hb : w.obj b with
    | none => simp [step, moveAssign, get_ok ha, get_err hb, bind, Except.bind] at e
    | some r =>
    by_cases hab : a = b
    · subst hab; simp [step, moveAssign, get_ok ha, bind, Except.bind, pure, Except.pure] at e; subst e; exact same fun _ _ => rfl
    · simp only [step, moveAssign, get_ok ha, get_ok hb, bind, Except.bind, pure, Except.pure, hab, if_false] at e
      cases e1 : clear w a true with
      | error f => rw [e1] at e; cases e
      | ok w1 =>
        rw [e1] at e
        have f1 := ((clear_post h ha true).2 w1 e1).1
        have hy1 : w1.obj b = some r := by rw [f1 b (Ne.symm hab), hb]
        simp only [get_ok hy1, Except.ok.injEq] at e
        subst e
        refine same fun z hz => ?_
        have hza : z ≠ a := by rcases hz with rfl | rfl; exacts [Ne.symm h1, Ne.symm h2]
        have hzb : z ≠ b := by rcases hz with rfl | rfl; exacts [Ne.symm h3, Ne.symm h4]
        simp [World.set, hza, hzb, f1 z hza]
  | slice a b r0 r1 c0 c1 alloc =>
    cases ha : w.obj a with
    | some q => simp [step, fresh_err ha, bind, Except.bind] at e
    | none =>
      cases hb : w.obj b with
      | none => simp [step, fresh_ok ha, get_err hb, bind, Except.bind] at e
      | some q =>
        simp only [step, fresh_ok ha, get_ok hb, bind, Except.bind, pure, Except.pure, throw, throwThe, MonadExceptOf.throw] at e
        split_ifs at e with hr hal
        · cases e1 : cloneAll w.heap w.next (sliceEnts q.ents r0 r1 c0 c1) with
          | error f => rw [e1] at e; cases e
          | ok r => rw [e1] at e; cases e; exact same fun z hz => by simp [World.set, nz a ha z hz]
        · cases e; exact same fun z hz => by simp [World.set, nz a ha z hz]
  | write a r c B =>
    cases ha : w.obj a with
    | none => simp [step, get_err ha, bind, Except.bind] at e
    | some q =>
      simp only [step, get_ok ha, bind, Except.bind, pure, Except.pure, throw, throwThe, MonadExceptOf.throw] at e
      by_cases hr : r < q.rl.n ∧ c < q.cl.n
      swap
      · rw [if_neg hr] at e; cases e
      rw [if_pos hr] at e
      cases hf : find q.ents (c, r) with
      | some b =>
        simp only [hf] at e
        cases hb : w.heap b with
        | none => simp only [hb] at e; cases e
        | some B' => simp only [hb] at e; cases e; exact same fun _ _ => rfl
      | none =>
        simp only [hf] at e
        split_ifs at e with hs
        cases e
        have hax : x ≠ a := by rintro rfl; rw [hx] at ha; cases ha; rw [ho] at hs; cases hs
        refine ⟨by simp [World.set, hax, hx], ?_⟩
        by_cases hay : y = a
        · subst hay
          rw [hy] at ha; cases ha
          refine ⟨{ p with ents := p.ents ++ [((c, r), w.next)] }, by simp [World.set], rfl, rfl, rfl, ?_⟩
          intro k b hk
          show find (p.ents ++ [((c, r), w.next)]) k = some b
          rw [find_append, hk]; rfl
        · exact ⟨p, by simp [World.set, hay, hy], Grown.refl p⟩
  | scale a s =>
    cases ha : w.obj a with
    | none => simp [step, get_err ha, bind, Except.bind] at e
    | some q =>
      simp only [step, get_ok ha, bind, Except.bind, pure, Except.pure] at e
      cases e1 : mapAll (scaleBlk s) w.heap q.ents with
      | error f => rw [e1] at e; cases e
      | ok H => rw [e1] at e; cases e; exact same fun _ _ => rfl
  | clear a d =>
    cases ha : w.obj a with
    | none => simp [step, clear, get_err ha, bind, Except.bind] at e
    | some q =>
      by_cases hs : (q.store && d) = true
      · have hs' := hs
        simp only [Bool.and_eq_true] at hs
        have hax : x ≠ a := by rintro rfl; rw [hx] at ha; cases ha; rw [ho] at hs; cases hs.1
        have hay : y ≠ a := by rintro rfl; rw [hop rfl] at hs; cases hs.2
        have f1 := ((clear_post h ha d).2 w' e).1
        exact same fun z hz => f1 z (by rcases hz with rfl | rfl <;> assumption)
      · have hs : (q.store && d) = false := by simpa using hs
        rw [step, clear_map ha hs] at e
        split at e
        · cases e
        · cases e; exact same fun _ _ => rfl
  | destroy a =>
    cases ha : w.obj a with
    | none => simp [step, get_err ha, bind, Except.bind] at e
    | some q =>
      simp only [step, get_ok ha, bind, Except.bind, pure, Except.pure] at e
      have hza : ∀ z, z = x ∨ z = y → z ≠ a := by rintro z (rfl | rfl); exacts [Ne.symm hop.1, Ne.symm hop.2]
      by_cases hs : q.store = true
      · simp only [hs, if_true] at e
        cases e1 : clear w a true with
        | error f => rw [e1] at e; cases e
        | ok w1 =>
          rw [e1] at e; cases e
          have f1 := ((clear_post h ha true).2 w1 e1).1
          exact same fun z hz => by simp [hza z hz, f1 z (hza z hz)]
      · simp only [hs] at e
        cases e
        exact same fun z hz => by simp [hza z hz]

theorem leaves_run : ∀ (ops : List (Op R)) {w w' : World R}, Inv w → ∀ {x y : Nat} {o p : Obj}, w.obj x = some o → w.obj y = some p → o.store = false →
    (∀ op ∈ ops, op.Leaves x y) → run w ops = .ok w' → w'.obj x = some o ∧ ∃ p', w'.obj y = some p' ∧ Grown p p'
  | [], w, w', _, x, y, o, p, hx, hy, _, _, e => by
    simp only [run, Except.ok.injEq] at e; subst e; exact ⟨hx, p, hy, Grown.refl p⟩
  | op :: os, w, w', h, x, y, o, p, hx, hy, ho, hl, e => by
    simp only [run] at e
    cases e1 : step w op with
    | error f => rw [e1] at e; cases e
    | ok w1 =>
      rw [e1] at e
      have s := safe_step h op
      rw [e1] at s
      obtain ⟨hx1, p1, hy1, g1⟩ := leaves_step h hx hy ho (hl op (by simp)) e1
      obtain ⟨hx2, p2, hy2, g2⟩ := leaves_run os (w := w1) s hx1 hy1 ho (fun q hq => hl q (by simp [hq])) e
      exact ⟨hx2, p2, hy2, g1.trans g2⟩

end Verif.SBMOwn
