import Verif.SBMOwn.Lemmas

namespace Verif.SBMOwn
open Verif.MatrixStack (DMat)
open Verif.SBM (Layout sliceLayout)

variable {R : Type} [CommRing R]

/-- The invariant if the operation returns; no second deletion if it does not. -/
def Safe (r : Except Fault (World R)) : Prop := match r with
  | .ok w => Inv w
  | .error e => e ≠ .doubleDelete

theorem clear_own {w : World R} (h : Inv w) {x : Nat} {o : Obj} (hx : w.obj x = some o) (hs : o.store = true) :
    clear w x true = .ok ({ w with heap := fun a => if a ∈ addrs o.ents then none else w.heap a }.set x { o with ents := [] }) := by
  simp only [clear, get, hx, hs, Bool.and_self, if_true, deleteAll_ok o.ents w.heap (h.nodup x o hx hs) (h.owned x o hx hs), bind, Except.bind, pure, Except.pure]

theorem clear_map {w : World R} {x : Nat} {o : Obj} {d : Bool} (hx : w.obj x = some o) (hs : (o.store && d) = false) :
    clear w x d = (match mapAll zeroBlk w.heap o.ents with | .error e => .error e | .ok H => .ok { w with heap := H }) := by
  simp only [clear, get, hx, hs, bind, Except.bind, pure, Except.pure]
  rw [if_neg Bool.false_ne_true]
  cases mapAll zeroBlk w.heap o.ents <;> rfl

omit [CommRing R] in
theorem safe_map {w : World R} (h : Inv w) (f : DMat R → DMat R) (es : List (Key × Nat)) :
    Safe (match mapAll f w.heap es with | .error e => .error e | .ok H => .ok { w with heap := H } : Except Fault (World R)) := by
  cases e : mapAll f w.heap es with
  | error x => simp [Safe, mapAll_err f _ _ _ e]
  | ok H => exact h.heap H (mapAll_dom f _ _ _ e)

/-- After `clear(true)` an object owns no blocks. -/
theorem clear_post {w : World R} (h : Inv w) {x : Nat} {o : Obj} (hx : w.obj x = some o) (d : Bool) :
    Safe (clear w x d) ∧ ∀ w', clear w x d = .ok w' → (∀ y, y ≠ x → w'.obj y = w.obj y) ∧
      ∃ o', w'.obj x = some o' ∧ o'.store = o.store ∧ (d = true → o'.store = true → o'.ents = []) := by
  by_cases hs : (o.store && d) = true
  · simp only [Bool.and_eq_true] at hs
    obtain ⟨hs, rfl⟩ := hs
    rw [clear_own h hx hs]
    refine ⟨h.delete x o hx hs, ?_⟩
    intro w' e
    cases e
    exact ⟨fun y hy => by simp [World.set, hy], { o with ents := [] }, by simp [World.set], rfl, fun _ _ => rfl⟩
  · have hs : (o.store && d) = false := by simpa using hs
    rw [clear_map hx hs]
    refine ⟨safe_map h _ _, ?_⟩
    intro w' e
    split at e
    · cases e
    · cases e
      refine ⟨fun _ _ => rfl, o, hx, rfl, ?_⟩
      rintro rfl hst
      simp [hst] at hs

omit [CommRing R] in
theorem get_ok {w : World R} {x : Nat} {o : Obj} (hx : w.obj x = some o) : get w x = .ok o := by simp [get, hx]
omit [CommRing R] in
theorem get_err {w : World R} {x : Nat} (hx : w.obj x = none) : get w x = .error .misuse := by simp [get, hx]
omit [CommRing R] in
theorem fresh_ok {w : World R} {x : Nat} (hx : w.obj x = none) : fresh w x = .ok () := by simp [fresh, hx]
omit [CommRing R] in
theorem fresh_err {w : World R} {x : Nat} {o : Obj} (hx : w.obj x = some o) : fresh w x = .error .misuse := by simp [fresh, hx]

/-- What `cloneInto` does once the destination has been cleared twice. -/
def cloneTail (w : World R) (x : Nat) (p : Obj) : Except Fault (World R) := match cloneAll w.heap w.next p.ents with
  | .error e => .error e
  | .ok (H, n, es) => .ok ((World.mk H n w.obj).set x ⟨p.rl, p.cl, true, es⟩)

theorem cloneInto_eq (w : World R) (x y : Nat) (hxy : x ≠ y) (o p : Obj) (hx : w.obj x = some o) (hy : w.obj y = some p) (h : Inv w) :
    cloneInto w x y = (match clear w x true with
      | .error e => .error e
      | .ok w1 => if p.rl.n = 0 ∨ p.cl.n = 0 then .error .emptyVector else match clear w1 x true with
        | .error e => .error e
        | .ok w2 => cloneTail w2 x p) := by
  unfold cloneInto
  simp only [get_ok hx, get_ok hy, bind, Except.bind, hxy, if_false, throw, throwThe, MonadExceptOf.throw, pure, Except.pure]
  cases e : clear w x true with
  | error _ => rfl
  | ok w1 =>
    have hy1 : w1.obj y = some p := by rw [((clear_post h hx true).2 w1 e).1 y (Ne.symm hxy), hy]
    simp only [get_ok hy1]
    by_cases hn : p.rl.n = 0 ∨ p.cl.n = 0
    · simp [hn]
    · simp only [hn, if_false]
      cases clear w1 x true with
      | error _ => rfl
      | ok w2 => 
        simp only [cloneTail]
        cases cloneAll w2.heap w2.next p.ents with
        | error _ => rfl
        | ok r => rfl

omit [CommRing R] in
theorem safe_cloneTail {w : World R} (h : Inv w) (x : Nat) (hx : ∀ o, w.obj x = some o → o.store = true → o.ents = []) (p : Obj) (hp : ∀ a ∈ addrs p.ents, a < w.next) :
    Safe (cloneTail w x p) := by
  unfold cloneTail
  cases e : cloneAll w.heap w.next p.ents with
  | error f => simp [Safe, cloneAll_err _ _ _ _ e]
  | ok r =>
    obtain ⟨H, n, es⟩ := r
    have C := cloneAll_spec _ _ _ _ _ _ hp e
    exact h.fresh x hx H n es C.le C.keep C.above C.nodup C.mem C.alive p.rl p.cl

theorem safe_cloneInto {w : World R} (h : Inv w) (x y : Nat) : Safe (cloneInto w x y) := by
  cases hx : w.obj x with
  | none => simp [cloneInto, get_err hx, bind, Except.bind, Safe]
  | some o =>
  cases hy : w.obj y with
  | none => simp [cloneInto, get_ok hx, get_err hy, bind, Except.bind, Safe]
  | some p =>
  by_cases hxy : x = y
  · subst hxy; simpa [cloneInto, get_ok hx, bind, Except.bind, Safe, pure, Except.pure] using h
  · rw [cloneInto_eq w x y hxy o p hx hy h]
    obtain ⟨s1, c1⟩ := clear_post h hx true
    cases e1 : clear w x true with
    | error f => rw [e1] at s1; exact s1
    | ok w1 =>
      rw [e1] at s1
      obtain ⟨f1, o1, ho1, so1, em1⟩ := c1 w1 e1
      by_cases hn : p.rl.n = 0 ∨ p.cl.n = 0
      · simp [hn, Safe]
      simp only [hn, if_false]
      obtain ⟨s2, c2⟩ := clear_post (w := w1) s1 ho1 true
      cases e2 : clear w1 x true with
      | error f => rw [e2] at s2; exact s2
      | ok w2 =>
        rw [e2] at s2
        obtain ⟨f2, o2, ho2, so2, em2⟩ := c2 w2 e2
        refine safe_cloneTail s2 x ?_ p ?_
        · intro q hq hqs; rw [ho2] at hq; cases hq; exact em2 rfl hqs
        · exact s2.low y p (by rw [f2 y (Ne.symm hxy), f1 y (Ne.symm hxy), hy])

/-- Every operation keeps the invariant, and none deletes a block a second time. -/
theorem safe_step {w : World R} (h : Inv w) (op : Op R) : Safe (step w op) := by
  have hnone : ∀ x, w.obj x = none → ∀ o, w.obj x = some o → o.store = true → o.ents = [] := by
    intro x e o e'; rw [e] at e'; cases e'
  cases op with
  | construct x rl cl st =>
    cases hx : w.obj x with
    | some o => simp [step, fresh_err hx, bind, Except.bind, Safe]
    | none =>
      simp only [step, fresh_ok hx, bind, Except.bind, pure, Except.pure, Safe]
      exact h.set0 x (hnone x hx) _ (by rintro p ⟨⟩; simp) (by rintro p ⟨⟩; simp)
  | copyConstruct x y =>
    cases hx : w.obj x with
    | some o => simp [step, fresh_err hx, bind, Except.bind, Safe]
    | none =>
      cases hy : w.obj y with
      | none => simp [step, fresh_ok hx, get_err hy, bind, Except.bind, Safe]
      | some p =>
      simp only [step, fresh_ok hx, get_ok hy, bind, Except.bind]
      exact safe_cloneInto (h.set0 x (hnone x hx) _ (by rintro p ⟨⟩; simp) (by rintro p ⟨⟩; simp)) x y
  | moveConstruct x y =>
    cases hx : w.obj x with
    | some o => simp [step, fresh_err hx, bind, Except.bind, Safe]
    | none =>
      cases hy : w.obj y with
      | none => simp [step, fresh_ok hx, get_err hy, bind, Except.bind, Safe]
      | some p =>
        simp only [step, fresh_ok hx, get_ok hy, bind, Except.bind, pure, Except.pure, Safe]
        exact h.move x y (by rintro rfl; rw [hx] at hy; cases hy) (hnone x hx) p hy
  | assign x y => exact safe_cloneInto h x y
  | moveAssign x y =>
    cases hx : w.obj x with
    | none => simp [step, moveAssign, get_err hx, bind, Except.bind, Safe]
    | some o =>
    cases hy : w.obj y with
    | none => simp [step, moveAssign, get_ok hx, get_err hy, bind, Except.bind, Safe]
    | some p =>
    by_cases hxy : x = y
    · subst hxy; simpa [step, moveAssign, get_ok hx, bind, Except.bind, Safe, pure, Except.pure] using h
    · simp only [step, moveAssign, get_ok hx, get_ok hy, bind, Except.bind, pure, Except.pure, hxy, if_false]
      obtain ⟨s1, c1⟩ := clear_post h hx true
      cases e1 : clear w x true with
      | error f => rw [e1] at s1; exact s1
      | ok w1 =>
        rw [e1] at s1
        obtain ⟨f1, o1, ho1, so1, em1⟩ := c1 w1 e1
        have hy1 : w1.obj y = some p := by rw [f1 y (Ne.symm hxy), hy]
        simp only [get_ok hy1]
        exact Inv.move (w := w1) s1 x y hxy (by intro q hq hqs; rw [ho1] at hq; cases hq; exact em1 rfl hqs) p hy1
  | slice x y r0 r1 c0 c1 alloc =>
    cases hx : w.obj x with
    | some o => simp [step, fresh_err hx, bind, Except.bind, Safe]
    | none =>
      cases hy : w.obj y with
      | none => simp [step, fresh_ok hx, get_err hy, bind, Except.bind, Safe]
      | some p =>
        simp only [step, fresh_ok hx, get_ok hy, bind, Except.bind, pure, Except.pure]
        by_cases hr : r0 < r1 ∧ r1 ≤ p.rl.n ∧ c0 < c1 ∧ c1 ≤ p.cl.n
        · rw [if_pos hr]
          have hlow : ∀ a ∈ addrs (sliceEnts p.ents r0 r1 c0 c1), a < w.next := fun a ha => h.low y p hy a (sliceEnts_addrs ha)
          cases alloc with
          | true =>
            simp only [if_true]
            cases e : cloneAll w.heap w.next (sliceEnts p.ents r0 r1 c0 c1) with
            | error f => simp [Safe, cloneAll_err _ _ _ _ e]
            | ok r =>
              obtain ⟨H, n, es⟩ := r
              have C := cloneAll_spec _ _ _ _ _ _ hlow e
              exact h.fresh x (hnone x hx) H n es C.le C.keep C.above C.nodup C.mem C.alive _ _
          | false =>
            simp only [Bool.false_eq_true, if_false]
            exact h.set0 x (hnone x hx) _ (by rintro q ⟨⟩; simp) (by rintro q ⟨⟩; exact hlow)
        · rw [if_neg hr]; simp [throw, throwThe, MonadExceptOf.throw, Safe]
  | write x r c B =>
    cases hx : w.obj x with
    | none => simp [step, get_err hx, bind, Except.bind, Safe]
    | some o =>
      simp only [step, get_ok hx, bind, Except.bind, pure, Except.pure, throw, throwThe, MonadExceptOf.throw]
      by_cases hr : r < o.rl.n ∧ c < o.cl.n
      · rw [if_pos hr]
        cases hf : find o.ents (c, r) with
        | some a =>
          cases ha : w.heap a with
          | none => simp [Safe, ha]
          | some B' =>
            simp only [ha]
            refine h.heap _ fun b => ?_
            by_cases e : b = a
            · subst e; simp [ha]
            · simp [e]
        | none =>
          by_cases hs : o.store = true
          · simp only [hs, if_true]
            have := h.add x o hx hs (c, r) B
            rw [hs] at this
            exact this
          · simp [hs, Safe]
      · rw [if_neg hr]; simp [Safe]
  | scale x s =>
    cases hx : w.obj x with
    | none => simp [step, get_err hx, bind, Except.bind, Safe]
    | some o =>
      have := safe_map h (scaleBlk s) o.ents
      simp only [step, get_ok hx, bind, Except.bind, pure, Except.pure]
      cases e : mapAll (scaleBlk s) w.heap o.ents with
      | error f => rw [e] at this; exact this
      | ok H => rw [e] at this; exact this
  | clear x d =>
    cases hx : w.obj x with
    | none => simp [step, clear, get_err hx, bind, Except.bind, Safe]
    | some o => exact (clear_post h hx d).1
  | destroy x =>
    cases hx : w.obj x with
    | none => simp [step, get_err hx, bind, Except.bind, Safe]
    | some o =>
      simp only [step, get_ok hx, bind, Except.bind, pure, Except.pure]
      by_cases hs : o.store = true
      · simp only [hs, if_true]
        obtain ⟨s1, c1⟩ := clear_post h hx true
        cases e1 : clear w x true with
        | error f => rw [e1] at s1; exact s1
        | ok w1 =>
          rw [e1] at s1
          obtain ⟨f1, o1, ho1, so1, em1⟩ := c1 w1 e1
          exact Inv.set0 (w := w1) s1 x (by intro q hq hqs; rw [ho1] at hq; cases hq; exact em1 rfl hqs) none (by simp) (by simp)
      · have hs : o.store = false := by simpa using hs
        simp only [hs, Bool.false_eq_true, if_false]
        exact h.set0 x (by intro q hq hqs; rw [hx] at hq; cases hq; rw [hs] at hqs; cases hqs) none (by simp) (by simp)

theorem safe_run : ∀ (ops : List (Op R)) (w : World R), Inv w → Safe (run w ops)
  | [], w, h => h
  | o :: os, w, h => by
    have := safe_step h o
    simp only [run]
    cases e : step w o with
    | error f => rw [e] at this; exact this
    | ok w' => rw [e] at this; exact safe_run os w' this

/-- Matrices without storage have no blocks: there are no views. -/
def NV (w : World R) : Prop := ∀ x o, w.obj x = some o → o.store = false → o.ents = []

/-- The value of an object. -/
def val (H : Nat → Option (DMat R)) (o : Obj) : Val R := ⟨o.rl, o.cl, o.store, fun k => (find o.ents k).bind H⟩

/-- The values of all objects. -/
def abs (w : World R) : Vals R := fun x => (w.obj x).map (val w.heap)

omit [CommRing R] in
theorem val_congr {H H' : Nat → Option (DMat R)} {o : Obj} (h : ∀ a ∈ addrs o.ents, H' a = H a) : val H' o = val H o := by
  unfold val
  congr 1; funext k
  cases hf : find o.ents k with
  | none => rfl
  | some a => exact h a (find_mem hf)

/-- The operation on values says the same as the operation on objects. -/
def Agree (r : Except Fault (World R)) (v : Except Fault (Vals R)) : Prop := match r with
  | .ok w => NV w ∧ v = .ok (abs w)
  | .error e => v = .error e ∧ e ≠ .dangling

omit [CommRing R] in
/-- Addresses of different objects differ when there are no views. -/
theorem Inv.sep {w : World R} (h : Inv w) (nv : NV w) {x y : Nat} {o p : Obj} (hx : w.obj x = some o) (hy : w.obj y = some p) (hxy : y ≠ x) {a : Nat}
    (ha : a ∈ addrs p.ents) : a ∉ addrs o.ents := by
  intro hb
  cases ho : o.store with
  | false => rw [nv x o hx ho] at hb; simp at hb
  | true =>
    cases hp : p.store with
    | false => rw [nv y p hy hp] at ha; simp at ha
    | true => exact hxy (h.disj y x p o hy hx hp ho a ha hb)

omit [CommRing R] in
theorem Inv.alive {w : World R} (h : Inv w) (nv : NV w) {x : Nat} {o : Obj} (hx : w.obj x = some o) : ∀ a ∈ addrs o.ents, w.heap a ≠ none := by
  intro a ha
  cases ho : o.store with
  | false => rw [nv x o hx ho] at ha; simp at ha
  | true => exact h.owned x o hx ho a ha

omit [CommRing R] in
theorem Inv.nodup' {w : World R} (h : Inv w) (nv : NV w) {x : Nat} {o : Obj} (hx : w.obj x = some o) : (addrs o.ents).Nodup := by
  cases ho : o.store with
  | false => rw [nv x o hx ho]; simp
  | true => exact h.nodup x o hx ho

omit [CommRing R] in
/-- Only the value of `x` changes if the heap changes at most at blocks no other object has. -/
theorem abs_frame {w : World R} (H : Nat → Option (DMat R)) (n x : Nat) (o' : Option Obj) (hH : ∀ y p, y ≠ x → w.obj y = some p → ∀ a ∈ addrs p.ents, H a = w.heap a) :
    abs (World.mk H n (Function.update w.obj x o')) = Function.update (abs w) x (o'.map (val H)) := by
  funext y
  by_cases e : y = x
  · subst e; simp [abs]
  · simp only [abs, Function.update_of_ne e]
    cases hy : w.obj y with
    | none => rfl
    | some p => simp only [Option.map_some]; rw [val_congr (hH y p e hy)]

omit [CommRing R] in
theorem map_ok {w : World R} (h : Inv w) (nv : NV w) (f : DMat R → DMat R) {x : Nat} {o : Obj} (hx : w.obj x = some o) :
    mapAll f w.heap o.ents = .ok (fun a => if a ∈ addrs o.ents then (w.heap a).map f else w.heap a) ∧
    abs { w with heap := fun a => if a ∈ addrs o.ents then (w.heap a).map f else w.heap a } =
      Function.update (abs w) x (some ⟨o.rl, o.cl, o.store, fun k => ((find o.ents k).bind w.heap).map f⟩) := by
  refine ⟨mapAll_ok f _ _ (h.nodup' nv hx) (h.alive nv hx), ?_⟩
  have := abs_frame (w := w) (fun a => if a ∈ addrs o.ents then (w.heap a).map f else w.heap a) w.next x (some o)
    (fun y p hy hp a ha => by simp [h.sep nv hx hp hy ha])
  rw [show Function.update w.obj x (some o) = w.obj from by rw [← hx]; exact Function.update_eq_self x w.obj] at this
  rw [this]
  congr 2
  simp only [Option.map_some, val, Option.some.injEq, Val.mk.injEq, true_and]
  funext k
  cases hf : find o.ents k with
  | none => rfl
  | some a => simp only [Option.bind_some]; rw [if_pos (find_mem hf)]

theorem clear_nv {w : World R} (h : Inv w) (nv : NV w) {x : Nat} {o : Obj} (hx : w.obj x = some o) (d : Bool) :
    ∃ w', clear w x d = .ok w' ∧ Inv w' ∧ NV w' ∧ (∀ y, y ≠ x → w'.obj y = w.obj y) ∧
      (∃ o', w'.obj x = some o' ∧ o'.store = o.store ∧ (d = true → o'.ents = [])) ∧
      abs w' = Function.update (abs w) x (some ⟨o.rl, o.cl, o.store, fun k => if o.store && d then none else ((find o.ents k).bind w.heap).map zeroBlk⟩) := by
  obtain ⟨s, c⟩ := clear_post h hx d
  by_cases hs : (o.store && d) = true
  · have hs' := hs
    simp only [Bool.and_eq_true] at hs
    obtain ⟨hs, rfl⟩ := hs
    rw [clear_own h hx hs] at s c ⊢
    refine ⟨_, rfl, s, ?_, (c _ rfl).1, ⟨{ o with ents := [] }, by simp [World.set], rfl, fun _ => rfl⟩, ?_⟩
    · intro y p hy hp
      by_cases e : y = x
      · subst e; simp [World.set] at hy; subst hy; rfl
      · simp [World.set, e] at hy; exact nv y p hy hp
    · have := abs_frame (w := w) (fun a => if a ∈ addrs o.ents then none else w.heap a) w.next x (some { o with ents := [] })
        (fun y p hy hp a ha => by simp [h.sep nv hx hp hy ha])
      simp only [World.set]
      rw [this]
      congr 2
      simp [val, find, hs]
  · have hs : (o.store && d) = false := by simpa using hs
    obtain ⟨e, ea⟩ := map_ok h nv zeroBlk hx
    rw [clear_map hx hs, e] at s c ⊢
    refine ⟨_, rfl, s, nv, (c _ rfl).1, ⟨o, hx, rfl, ?_⟩, ?_⟩
    · rintro rfl
      exact nv x o hx (by simpa using hs)
    · rw [ea, hs]; simp

omit [CommRing R] in
theorem abs_some {w : World R} {x : Nat} {o : Obj} (hx : w.obj x = some o) : abs w x = some (val w.heap o) := by simp [abs, hx]
omit [CommRing R] in
theorem abs_none {w : World R} {x : Nat} (hx : w.obj x = none) : abs w x = none := by simp [abs, hx]

omit [CommRing R] in
theorem set_nv {w : World R} (nv : NV w) (H : Nat → Option (DMat R)) (n x : Nat) (o : Option Obj) (ho : ∀ p, o = some p → p.store = false → p.ents = []) :
    NV (World.mk H n (Function.update w.obj x o)) := by
  intro y p hy hp
  by_cases e : y = x
  · subst e; simp at hy; exact ho p hy hp
  · simp [e] at hy; exact nv y p hy hp

omit [CommRing R] in
/-- Copying blocks into a new or emptied object. -/
theorem clone_agree {w : World R} (h : Inv w) (nv : NV w) (x : Nat) (es : List (Key × Nat)) (hl : ∀ a ∈ addrs es, a < w.next) (ha : ∀ a ∈ addrs es, w.heap a ≠ none)
    (rl cl : Layout) :
    ∃ H n es', cloneAll w.heap w.next es = .ok (H, n, es') ∧ NV ((World.mk H n w.obj).set x ⟨rl, cl, true, es'⟩) ∧
      abs ((World.mk H n w.obj).set x ⟨rl, cl, true, es'⟩) = Function.update (abs w) x (some ⟨rl, cl, true, fun k => (find es k).bind w.heap⟩) := by
  obtain ⟨⟨H, n, es'⟩, e⟩ := cloneAll_ok es w.heap w.next hl ha
  have C := cloneAll_spec _ _ _ _ _ _ hl e
  refine ⟨H, n, es', e, set_nv nv H n x _ (by rintro p ⟨⟩; simp), ?_⟩
  simp only [World.set]
  rw [abs_frame H n x _ (fun y p _ hp a ha => C.keep a (h.low y p hp a ha))]
  congr 1
  simp only [Option.map_some, val, Option.some.injEq, Val.mk.injEq, true_and]
  funext k; exact C.val k

omit [CommRing R] in
theorem abs_set (w : World R) (x : Nat) (o : Obj) : abs (w.set x o) = Function.update (abs w) x (some (val w.heap o)) :=
  abs_frame w.heap w.next x (some o) (fun _ _ _ _ _ _ => rfl)

omit [CommRing R] in
theorem move_agree {w : World R} (nv : NV w) (x y : Nat) (p : Obj) (hy : w.obj y = some p) :
    NV ((w.set x p).set y movedObj) ∧ abs ((w.set x p).set y movedObj) = Function.update (Function.update (abs w) x (some (val w.heap p))) y (some movedVal) := by
  refine ⟨set_nv (set_nv nv w.heap w.next x (some p) ?_) w.heap w.next y (some movedObj) (by rintro q ⟨⟩ _; rfl), ?_⟩
  · rintro q ⟨⟩ hq; exact nv y p hy hq
  · rw [abs_set, abs_set]; rfl

theorem cloneInto_agree {w : World R} (h : Inv w) (nv : NV w) {x y : Nat} {o p : Obj} (hx : w.obj x = some o) (hy : w.obj y = some p) (hxy : x ≠ y) :
    Agree (cloneInto w x y) (if p.rl.n = 0 ∨ p.cl.n = 0 then .error .emptyVector else .ok (Function.update (abs w) x (some { val w.heap p with store := true }))) := by
  rw [cloneInto_eq w x y hxy o p hx hy h]
  obtain ⟨w1, e1, i1, n1, f1, ⟨o1, ho1, _, _⟩, a1⟩ := clear_nv h nv hx true
  rw [e1]
  by_cases hn : p.rl.n = 0 ∨ p.cl.n = 0
  · simp [hn, Agree]
  simp only [hn, if_false]
  obtain ⟨w2, e2, i2, n2, f2, _, a2⟩ := clear_nv i1 n1 ho1 true
  rw [e2]
  have hy2 : w2.obj y = some p := by rw [f2 y (Ne.symm hxy), f1 y (Ne.symm hxy), hy]
  obtain ⟨H, n, es', e3, n3, a3⟩ := clone_agree i2 n2 x p.ents (i2.low y p hy2) (i2.alive n2 hy2) p.rl p.cl
  simp only [cloneTail, e3, Agree]
  refine ⟨n3, ?_⟩
  rw [a3, a2, a1]
  simp only [Function.update_idem]
  have hv : val w2.heap p = val w.heap p := by
    have := congrFun a2 y
    rw [Function.update_of_ne (Ne.symm hxy), a1, Function.update_of_ne (Ne.symm hxy), abs_some hy2, abs_some hy] at this
    exact Option.some.inj this
  have hv' : (fun k => (find p.ents k).bind w2.heap) = fun k => (find p.ents k).bind w.heap := congrArg Val.blk hv
  simp only [hv']
  rfl

theorem agree_step {w : World R} (h : Inv w) (nv : NV w) (op : Op R) (hop : op.NoView) : Agree (step w op) (vstep (abs w) op) := by
  cases op with
  | construct x rl cl st =>
    cases hx : w.obj x with
    | some o => simp [step, vstep, fresh_err hx, abs_some hx, bind, Except.bind, Agree]
    | none =>
      simp only [step, vstep, fresh_ok hx, abs_none hx, bind, Except.bind, pure, Except.pure, Agree]
      refine ⟨set_nv nv w.heap w.next x _ (by rintro p ⟨⟩; simp), ?_⟩
      rw [World.set, abs_frame w.heap w.next x _ (fun _ _ _ _ _ _ => rfl)]
      simp [val, find]
  | copyConstruct x y =>
    cases hx : w.obj x with
    | some o => simp [step, vstep, fresh_err hx, abs_some hx, bind, Except.bind, Agree]
    | none =>
      cases hy : w.obj y with
      | none => simp [step, vstep, fresh_ok hx, get_err hy, abs_none hx, abs_none hy, bind, Except.bind, Agree]
      | some p =>
        have hxy : x ≠ y := by rintro rfl; rw [hx] at hy; cases hy
        simp only [step, vstep, fresh_ok hx, get_ok hy, abs_none hx, abs_some hy, bind, Except.bind]
        have i1 : Inv (w.set x ⟨⟨0, fun _ => 0⟩, ⟨0, fun _ => 0⟩, true, []⟩) :=
          h.set0 x (fun o e => by rw [hx] at e; cases e) _ (by rintro p ⟨⟩; simp) (by rintro p ⟨⟩; simp)
        have n1 : NV (w.set x ⟨⟨0, fun _ => 0⟩, ⟨0, fun _ => 0⟩, true, []⟩) := set_nv nv w.heap w.next x _ (by rintro p ⟨⟩; simp)
        have := cloneInto_agree i1 n1 (x := x) (y := y) (o := ⟨⟨0, fun _ => 0⟩, ⟨0, fun _ => 0⟩, true, []⟩) (p := p) (by simp [World.set])
          (by simp [World.set, Ne.symm hxy, hy]) hxy
        rw [abs_set, Function.update_idem] at this
        exact this
  | moveConstruct x y =>
    cases hx : w.obj x with
    | some o => simp [step, vstep, fresh_err hx, abs_some hx, bind, Except.bind, Agree]
    | none =>
      cases hy : w.obj y with
      | none => simp [step, vstep, fresh_ok hx, get_err hy, abs_none hx, abs_none hy, bind, Except.bind, Agree]
      | some p =>
        simp only [step, vstep, fresh_ok hx, get_ok hy, abs_none hx, abs_some hy, bind, Except.bind, pure, Except.pure, Agree]
        obtain ⟨n', e⟩ := move_agree nv x y p hy
        exact ⟨n', by rw [e]⟩
  | assign x y =>
    cases hx : w.obj x with
    | none => simp [step, vstep, cloneInto, get_err hx, abs_none hx, bind, Except.bind, Agree]
    | some o =>
    cases hy : w.obj y with
    | none => simp [step, vstep, cloneInto, get_ok hx, get_err hy, abs_none hy, bind, Except.bind, Agree]
    | some p =>
    by_cases hxy : x = y
    · subst hxy; simpa [step, vstep, cloneInto, get_ok hx, abs_some hx, bind, Except.bind, Agree, pure, Except.pure] using nv
    · simp only [step, vstep, abs_some hx, abs_some hy, hxy, if_false]
      exact cloneInto_agree h nv hx hy hxy
  | moveAssign x y =>
    cases hx : w.obj x with
    | none => simp [step, vstep, moveAssign, get_err hx, abs_none hx, bind, Except.bind, Agree]
    | some o =>
    cases hy : w.obj y with
    | none => simp [step, vstep, moveAssign, get_ok hx, get_err hy, abs_none hy, bind, Except.bind, Agree]
    | some p =>
    by_cases hxy : x = y
    · subst hxy; simpa [step, vstep, moveAssign, get_ok hx, abs_some hx, bind, Except.bind, Agree, pure, Except.pure] using nv
    · simp only [step, vstep, moveAssign, get_ok hx, get_ok hy, abs_some hx, abs_some hy, bind, Except.bind, pure, Except.pure, hxy, if_false]
      obtain ⟨w1, e1, i1, n1, f1, _, a1⟩ := clear_nv h nv hx true
      have hy1 : w1.obj y = some p := by rw [f1 y (Ne.symm hxy), hy]
      simp only [e1, get_ok hy1, Agree]
      obtain ⟨n', e⟩ := move_agree n1 x y p hy1
      refine ⟨n', ?_⟩
      have hv : val w1.heap p = val w.heap p := by
        have := congrFun a1 y
        rw [Function.update_of_ne (Ne.symm hxy), abs_some hy1, abs_some hy] at this
        exact Option.some.inj this
      rw [e, a1, Function.update_idem, hv]
  | slice x y r0 r1 c0 c1 alloc =>
    cases hx : w.obj x with
    | some o => simp [step, vstep, fresh_err hx, abs_some hx, bind, Except.bind, Agree]
    | none =>
      cases hy : w.obj y with
      | none => simp [step, vstep, fresh_ok hx, get_err hy, abs_none hx, abs_none hy, bind, Except.bind, Agree]
      | some p =>
        obtain rfl : alloc = true := hop
        simp only [step, vstep, fresh_ok hx, get_ok hy, abs_none hx, abs_some hy, bind, Except.bind, pure, Except.pure]
        by_cases hr : r0 < r1 ∧ r1 ≤ p.rl.n ∧ c0 < c1 ∧ c1 ≤ p.cl.n
        · rw [if_pos hr, if_pos (show r0 < r1 ∧ r1 ≤ (val w.heap p).rl.n ∧ c0 < c1 ∧ c1 ≤ (val w.heap p).cl.n from hr)]
          obtain ⟨H, n, es', e3, n3, a3⟩ := clone_agree h nv x (sliceEnts p.ents r0 r1 c0 c1) (fun a ha => h.low y p hy a (sliceEnts_addrs ha))
            (fun a ha => h.alive nv hy a (sliceEnts_addrs ha)) (sliceLayout p.rl r0 r1) (sliceLayout p.cl c0 c1)
          simp only [if_true, e3, Agree]
          refine ⟨n3, ?_⟩
          rw [a3]
          congr 3
          simp only [val]
          congr 1
          funext k
          rw [find_slice]
          split_ifs <;> rfl
        · rw [if_neg hr, if_neg (show ¬ (r0 < r1 ∧ r1 ≤ (val w.heap p).rl.n ∧ c0 < c1 ∧ c1 ≤ (val w.heap p).cl.n) from hr)]
          simp [throw, throwThe, MonadExceptOf.throw, Agree]
  | write x r c B =>
    cases hx : w.obj x with
    | none => simp [step, vstep, get_err hx, abs_none hx, bind, Except.bind, Agree]
    | some o =>
      simp only [step, vstep, get_ok hx, abs_some hx, bind, Except.bind, pure, Except.pure, throw, throwThe, MonadExceptOf.throw]
      by_cases hr : r < o.rl.n ∧ c < o.cl.n
      · rw [if_pos hr, if_pos (show r < (val w.heap o).rl.n ∧ c < (val w.heap o).cl.n from hr)]
        cases hf : find o.ents (c, r) with
        | some a =>
          obtain ⟨B', hB⟩ := Option.ne_none_iff_exists'.1 (h.alive nv hx a (find_mem hf))
          have h1 : (val w.heap o).store = true ∨ (val w.heap o).blk (c, r) ≠ none := Or.inr (by simp [val, hf, hB])
          rw [if_pos h1]
          simp only [hB, Agree]
          refine ⟨nv, ?_⟩
          have := abs_frame (w := w) (Function.update w.heap a (some B)) w.next x (some o)
            (fun y p hy hp b hb => by
              have : b ≠ a := by rintro rfl; exact h.sep nv hx hp hy hb (find_mem hf)
              simp [this])
          rw [show Function.update w.obj x (some o) = w.obj from by rw [← hx]; exact Function.update_eq_self x w.obj] at this
          rw [this]
          congr 2
          simp only [Option.map_some, val, Option.some.injEq, Val.mk.injEq, true_and]
          funext k
          by_cases hk : k = (c, r)
          · subst hk; simp [hf]
          · rw [Function.update_of_ne hk]
            cases hf' : find o.ents k with
            | none => rfl
            | some b =>
              have : b ≠ a := by
                rintro rfl
                exact hk (find_inj (h.nodup' nv hx) hf' hf)
              simp [this]
        | none =>
          by_cases hs : o.store = true
          · rw [if_pos hs, if_pos (show (val w.heap o).store = true ∨ (val w.heap o).blk (c, r) ≠ none from Or.inl hs)]
            simp only [Agree]
            refine ⟨set_nv nv _ _ x _ (by rintro p ⟨⟩ hp; rw [show o.store = false from hp] at hs; cases hs), ?_⟩
            simp only [World.set]
            rw [abs_frame (w := w) _ _ x _ (fun y p hy hp b hb => by
              have := h.low y p hp b hb
              rw [Function.update_of_ne (by omega)])]
            congr 2
            simp only [Option.map_some, val, Option.some.injEq, Val.mk.injEq, true_and]
            funext k
            rw [find_append]
            by_cases hk : k = (c, r)
            · subst hk; simp [hf]
            · rw [Function.update_of_ne hk, if_neg (Ne.symm hk)]
              cases hf' : find o.ents k with
              | none => rfl
              | some b =>
                have := h.low x o hx b (find_mem hf')
                simp only [Option.some_or, Option.bind_some]
                rw [Function.update_of_ne (by omega)]
          · have h1 : ¬ ((val w.heap o).store = true ∨ (val w.heap o).blk (c, r) ≠ none) := by
              simp [val, hf]; simpa using hs
            rw [if_neg hs, if_neg h1]
            simp [Agree]
      · rw [if_neg hr, if_neg (show ¬ (r < (val w.heap o).rl.n ∧ c < (val w.heap o).cl.n) from hr)]
        simp [Agree]
  | scale x s =>
    cases hx : w.obj x with
    | none => simp [step, vstep, get_err hx, abs_none hx, bind, Except.bind, Agree]
    | some o =>
      obtain ⟨e, ea⟩ := map_ok h nv (scaleBlk s) hx
      simp only [step, vstep, get_ok hx, abs_some hx, bind, Except.bind, pure, Except.pure, e, Agree]
      refine ⟨nv, ?_⟩
      rw [ea]; rfl
  | clear x d =>
    cases hx : w.obj x with
    | none => simp [step, vstep, clear, get_err hx, abs_none hx, bind, Except.bind, Agree]
    | some o =>
      obtain ⟨w', e, _, n', _, _, ea⟩ := clear_nv h nv hx d
      simp only [step, vstep, e, abs_some hx, Agree]
      exact ⟨n', by rw [ea]; rfl⟩
  | destroy x =>
    cases hx : w.obj x with
    | none => simp [step, vstep, get_err hx, abs_none hx, bind, Except.bind, Agree]
    | some o =>
      simp only [step, vstep, get_ok hx, abs_some hx, bind, Except.bind, pure, Except.pure]
      by_cases hs : o.store = true
      · rw [if_pos hs]
        obtain ⟨w1, e1, i1, n1, f1, _, a1⟩ := clear_nv h nv hx true
        simp only [e1, Agree]
        refine ⟨set_nv n1 _ _ x none (by simp), ?_⟩
        have := abs_frame (w := w1) w1.heap w1.next x none (fun _ _ _ _ _ _ => rfl)
        rw [this, a1, Function.update_idem]; rfl
      · rw [if_neg hs]
        simp only [Agree]
        refine ⟨set_nv nv _ _ x none (by simp), ?_⟩
        have := abs_frame (w := w) w.heap w.next x none (fun _ _ _ _ _ _ => rfl)
        rw [this]; rfl

theorem agree_run : ∀ (ops : List (Op R)) (w : World R), Inv w → NV w → (∀ op ∈ ops, op.NoView) → Agree (run w ops) (vrun (abs w) ops)
  | [], w, _, nv, _ => ⟨nv, rfl⟩
  | o :: os, w, h, nv, ho => by
    have s := safe_step h o
    have a := agree_step h nv o (ho o (by simp))
    simp only [run, vrun]
    cases e : step w o with
    | error f => rw [e] at a; obtain ⟨a, a'⟩ := a; simp only [a]; exact ⟨rfl, a'⟩
    | ok w' =>
      rw [e] at a s
      obtain ⟨n', a⟩ := a
      simp only [a]
      exact agree_run os w' s n' fun op hop => ho op (by simp [hop])

omit [CommRing R] in
theorem read_abs {w : World R} (h : Inv w) (nv : NV w) (x r c : Nat) : read w x r c = vread (abs w) x r c := by
  cases hx : w.obj x with
  | none => simp [read, vread, get_err hx, abs_none hx, bind, Except.bind]
  | some o =>
    simp only [read, vread, get_ok hx, abs_some hx, bind, Except.bind, pure, Except.pure, throw, throwThe, MonadExceptOf.throw]
    by_cases hr : r < o.rl.n ∧ c < o.cl.n
    · rw [if_pos hr, if_pos (show r < (val w.heap o).rl.n ∧ c < (val w.heap o).cl.n from hr)]
      cases hf : find o.ents (c, r) with
      | none => simp [val, hf]
      | some a =>
        obtain ⟨B', hB⟩ := Option.ne_none_iff_exists'.1 (h.alive nv hx a (find_mem hf))
        simp [val, hf, hB]
    · rw [if_neg hr, if_neg (show ¬ (r < (val w.heap o).rl.n ∧ c < (val w.heap o).cl.n) from hr)]

end Verif.SBMOwn
