import Verif.OptObj.Model
import Mathlib.Tactic.Common
import Mathlib.Data.List.Basic

/-! Theorems about `Verif/OptObj/Model.lean`. -/
namespace Verif.OptObj

variable {B' L' : Type} {okB : B' → Bool} {okL : L' → Bool}

/-! ### Specification -/

/-- The options that the calls for object `i` ask for, starting from `o`: the full `setOptions` (BH:67) replaces all, the one of the base class (BH:70) only its part. -/
def asked (i : Nat) (o : Opts B' L') : List (Op B' L') → Opts B' L'
  | [] => o
  | .setOptions j o' :: ops => asked i (if j = i then o' else o) ops
  | .setBase j b :: ops => asked i (if j = i then ⟨b, o.dense, o.ls⟩ else o) ops
  | _ :: ops => asked i o ops

/-- The problem that the calls for object `i` ask for, OptimizerProblemManagerBase.hpp:27. -/
def askedProblem (i : Nat) (p : Option Nat) : List (Op B' L') → Option Nat
  | [] => p
  | .setProblem j q :: ops => askedProblem i (if j = i then some q else p) ops
  | _ :: ops => askedProblem i p ops

/-- The object `i` is there. -/
def World.alive (w : World B' L') (i : Nat) : Prop := ∃ x, w.objs[i]? = some (some x)

/-- A call that uses only objects that are there and makes no copy. -/
def Fair (w : World B' L') : Op B' L' → Prop
  | .make _ => True
  | .setOptions i _ => w.alive i
  | .setBase i _ => w.alive i
  | .setProblem i _ => w.alive i
  | .copy _ => False
  | .destroy i => w.alive i

/-- The same for a program: each call is fair in the world it meets. -/
def FairAll (okB : B' → Bool) (okL : L' → Bool) : World B' L' → List (Op B' L') → Prop
  | _, [] => True
  | w, o :: os => Fair w o ∧ (∀ w', step okB okL w o = .ok w' → FairAll okB okL w' os) ∧ (step okB okL w o = .exc → FairAll okB okL w os)

/-- No world but the empty one before the first call. -/
def World.empty : World B' L' := ⟨[], []⟩

/-! ### Invariant -/

/-- Without copies everybody refers to itself. -/
structure Inv (w : World B' L') : Prop where
  self : ∀ (i : Nat) (x : Obj B' L'), w.objs[i]? = some (some x) → x.target = i ∧ x.registry = i ∧ x.search = x.opts.ls
  freed : ∀ r : Nat, r ∈ w.freed → w.objs[r]? = some none

theorem inv_empty : Inv (World.empty : World B' L') := ⟨fun i x h => by simp [World.empty] at h, fun r h => by simp [World.empty] at h⟩

theorem get_alive {w : World B' L'} {i : Nat} {x : Obj B' L'} (h : w.objs[i]? = some (some x)) : w.get i = .ok x := by
  unfold World.get; rw [h]

theorem put_get {w : World B' L'} {i : Nat} {x y : Obj B' L'} (h : w.objs[i]? = some (some x)) (j : Nat) :
    (w.put i y).objs[j]? = if j = i then some (some y) else w.objs[j]? := by
  have hi : i < w.objs.length := (List.getElem?_eq_some_iff.1 h).1
  simp only [World.put, List.getElem?_set]
  by_cases hj : i = j
  · subst hj; simp [hi]
  · simp [hj, Ne.symm hj]

theorem put_inv {w : World B' L'} (hw : Inv w) {i : Nat} {x y : Obj B' L'} (h : w.objs[i]? = some (some x)) (h1 : y.target = x.target) (h2 : y.registry = x.registry)
    (h3 : y.search = y.opts.ls) : Inv (w.put i y) where
  self j z hz := by
    rw [put_get h] at hz
    by_cases hj : j = i
    · rw [if_pos hj] at hz
      cases hz
      subst hj
      exact ⟨h1.trans (hw.self _ _ h).1, h2.trans (hw.self _ _ h).2.1, h3⟩
    · rw [if_neg hj] at hz
      exact hw.self j z hz
  freed r hr := by
    have := hw.freed r hr
    rw [put_get h, if_neg]
    · exact this
    · rintro rfl; rw [this] at h; cases h

/-- A fair call never meets undefined behaviour, keeps the invariant and does to an object that it does not destroy what it asks for. -/
theorem step_fair {w : World B' L'} (hw : Inv w) {o : Op B' L'} (ho : Fair w o) :
    step okB okL w o = .exc ∨ ∃ w', step okB okL w o = .ok w' ∧ Inv w' ∧
      ∀ i x, o ≠ .destroy i → w.objs[i]? = some (some x) → ∃ y, w'.objs[i]? = some (some y) ∧ y.opts = asked i x.opts [o] ∧ y.problem = askedProblem i x.problem [o] := by
  cases o with
  | make o =>
    simp only [step]
    by_cases h1 : okL o.ls = false
    · exact .inl (if_pos h1)
    · rw [if_neg h1]
      by_cases h2 : okB o.base = false
      · exact .inl (if_pos h2)
      · rw [if_neg h2]
        refine .inr ⟨_, rfl, ⟨fun i x hx => ?_, fun r hr => ?_⟩, fun i x _ hx => ⟨x, ?_, rfl, rfl⟩⟩
        · simp only [List.getElem?_append] at hx
          split_ifs at hx with hi
          · exact hw.self i x hx
          · rcases Nat.lt_or_ge (i - w.objs.length) 1 with hl | hl
            · have : i = w.objs.length := by omega
              subst this
              simp at hx
              subst hx
              exact ⟨rfl, rfl, rfl⟩
            · rw [List.getElem?_eq_none (by simpa using hl)] at hx
              cases hx
        · have := hw.freed r hr
          simp only [List.getElem?_append, (List.getElem?_eq_some_iff.1 this).1, if_true]
          exact this
        · simp only [List.getElem?_append, (List.getElem?_eq_some_iff.1 hx).1, if_true]
          exact hx
  | setOptions i o =>
    obtain ⟨x, hx⟩ := ho
    refine .inr ⟨w.put i { x with opts := o, search := o.ls }, by simp only [step, get_alive hx, Res.bind], put_inv hw hx rfl rfl rfl, fun j z _ hz => ?_⟩
    rw [put_get hx]
    by_cases hj : j = i
    · subst hj
      rw [hx] at hz; cases hz
      exact ⟨_, if_pos rfl, by simp [asked], by simp [askedProblem]⟩
    · exact ⟨z, by rw [if_neg hj]; exact hz, by simp [asked, Ne.symm hj], by simp [askedProblem]⟩
  | setBase i b =>
    obtain ⟨x, hx⟩ := ho
    refine .inr ⟨w.put i { x with opts := { x.opts with base := b } }, by simp only [step, get_alive hx, Res.bind], put_inv hw hx rfl rfl (hw.self i x hx).2.2, fun j z _ hz => ?_⟩
    rw [put_get hx]
    by_cases hj : j = i
    · subst hj
      rw [hx] at hz; cases hz
      exact ⟨_, if_pos rfl, by simp [asked], by simp [askedProblem]⟩
    · exact ⟨z, by rw [if_neg hj]; exact hz, by simp [asked, Ne.symm hj], by simp [askedProblem]⟩
  | setProblem i p =>
    obtain ⟨x, hx⟩ := ho
    refine .inr ⟨w.put i { x with problem := some p }, by simp only [step, get_alive hx, Res.bind], put_inv hw hx rfl rfl (hw.self i x hx).2.2, fun j z _ hz => ?_⟩
    rw [put_get hx]
    by_cases hj : j = i
    · subst hj
      rw [hx] at hz; cases hz
      exact ⟨_, if_pos rfl, by simp [asked], by simp [askedProblem]⟩
    · exact ⟨z, by rw [if_neg hj]; exact hz, by simp [asked], by simp [askedProblem, Ne.symm hj]⟩
  | copy i => exact ho.elim
  | destroy i =>
    obtain ⟨x, hx⟩ := ho
    have hr : x.registry = i := (hw.self i x hx).2.1
    have hf : x.registry ∉ w.freed := by
      intro h
      have := hw.freed _ h
      rw [hr, hx] at this
      cases this
    have hi : i < w.objs.length := (List.getElem?_eq_some_iff.1 hx).1
    refine .inr ⟨⟨w.objs.set i none, x.registry :: w.freed⟩, by simp only [step, get_alive hx, Res.bind]; exact if_neg hf, ⟨fun j z hz => ?_, fun r hr' => ?_⟩, fun j z hj hz => ⟨z, ?_, rfl, rfl⟩⟩
    · simp only [List.getElem?_set] at hz
      split_ifs at hz
      · cases hz
      · exact hw.self j z hz
    · simp only [List.getElem?_set]
      rcases List.mem_cons.1 hr' with rfl | hr'
      · rw [hr]; simp [hi]
      · by_cases h : i = r
        · simp [h, h ▸ hi]
        · rw [if_neg h]; exact hw.freed r hr'
    · have hne : i ≠ j := fun h => hj (by rw [h])
      simp only [List.getElem?_set, if_neg hne]
      exact hz

theorem asked_cons (i : Nat) (o : Opts B' L') (op : Op B' L') (ops : List (Op B' L')) : asked i o (op :: ops) = asked i (asked i o [op]) ops := by
  cases op <;> rfl

theorem askedProblem_cons (i : Nat) (p : Option Nat) (op : Op B' L') (ops : List (Op B' L')) : askedProblem i p (op :: ops) = askedProblem i (askedProblem i p [op]) ops := by
  cases op <;> rfl

theorem run_fair {ops : List (Op B' L')} : ∀ {w : World B' L'}, Inv w → FairAll okB okL w ops →
    ∃ w', run okB okL w ops = .ok w' ∧ Inv w' ∧
      ∀ i x, (∀ o ∈ ops, o ≠ .destroy i) → w.objs[i]? = some (some x) → ∃ y, w'.objs[i]? = some (some y) ∧ y.opts = asked i x.opts ops ∧ y.problem = askedProblem i x.problem ops := by
  induction ops with
  | nil => exact fun {w} hw _ => ⟨w, rfl, hw, fun i x _ hx => ⟨x, hx, rfl, rfl⟩⟩
  | cons o ops ih =>
    intro w hw hf
    obtain ⟨h0, h1, h2⟩ := hf
    rcases step_fair (okB := okB) (okL := okL) hw h0 with he | ⟨w', hs, hw', hk⟩
    · obtain ⟨w2, hr, hw2, hk2⟩ := ih hw (h2 he)
      refine ⟨w2, by rw [run, he]; exact hr, hw2, fun i x hd hx => ?_⟩
      obtain ⟨y, hy, hy1, hy2⟩ := hk2 i x (fun o ho => hd o (List.mem_cons_of_mem _ ho)) hx
      have hm : ∃ c, o = .make c := by
        cases o with
        | make c => exact ⟨c, rfl⟩
        | copy j => exact h0.elim
        | setOptions j c => obtain ⟨z, hz⟩ := h0; simp [step, get_alive hz, Res.bind] at he
        | setBase j c => obtain ⟨z, hz⟩ := h0; simp [step, get_alive hz, Res.bind] at he
        | setProblem j c => obtain ⟨z, hz⟩ := h0; simp [step, get_alive hz, Res.bind] at he
        | destroy j =>
          obtain ⟨z, hz⟩ := h0
          simp only [step, get_alive hz, Res.bind] at he
          split_ifs at he
      obtain ⟨c, rfl⟩ := hm
      exact ⟨y, hy, hy1, hy2⟩
    · obtain ⟨w2, hr, hw2, hk2⟩ := ih hw' (h1 w' hs)
      refine ⟨w2, by rw [run, hs]; exact hr, hw2, fun i x hd hx => ?_⟩
      obtain ⟨y, hy, hy1, hy2⟩ := hk i x (hd o (List.mem_cons_self ..)) hx
      obtain ⟨z, hz, hz1, hz2⟩ := hk2 i y (fun o ho => hd o (List.mem_cons_of_mem _ ho)) hy
      exact ⟨z, hz, by rw [hz1, hy1, ← asked_cons], by rw [hz2, hy2, ← askedProblem_cons]⟩

/-! ### Properties -/

/-- **C147, options in force.** In a program that makes and destroys optimizers, sets their options and problems in any order and copies none of them, nothing is undefined. An optimizer that was made with valid options
runs, as long as it is not destroyed, with the options and the problem that the calls for it asked for, whatever happens to other optimizers: the limits, the options of the line search, and the threads and the Jacobian
container of all evaluations are the current ones, not those at construction. -/
theorem C147_in_force (pre post : List (Op B' L')) (o : Opts B' L') (w0 w1 : World B' L') (hpre : FairAll okB okL World.empty pre) (h0 : run okB okL World.empty pre = .ok w0)
    (h1 : step okB okL w0 (.make o) = .ok w1) (hpost : FairAll okB okL w1 post) (hd : ∀ c ∈ post, c ≠ .destroy w0.objs.length) :
    ∃ w2, run okB okL w1 post = .ok w2 ∧
      setting w2 w0.objs.length = .ok ⟨(asked w0.objs.length o post).base, (asked w0.objs.length o post).ls, askedProblem w0.objs.length none post, (asked w0.objs.length o post).base, (asked w0.objs.length o post).dense⟩ := by
  obtain ⟨w', hw', hi, _⟩ := run_fair (okB := okB) (okL := okL) (ops := pre) inv_empty hpre
  rw [hw'] at h0; cases h0
  have hi1 : Inv w1 := by
    rcases step_fair (okB := okB) (okL := okL) hi (o := .make o) trivial with h | ⟨w2, h, h2, _⟩
    · rw [h] at h1; cases h1
    · rw [h] at h1; cases h1; exact h2
  have hx : w1.objs[w0.objs.length]? = some (some ⟨o, o.ls, w0.objs.length, none, w0.objs.length⟩) := by
    simp only [step] at h1
    split_ifs at h1
    cases h1
    simp
  obtain ⟨w2, hr, hi2, hk⟩ := run_fair (okB := okB) (okL := okL) hi1 hpost
  obtain ⟨y, hy, hy1, hy2⟩ := hk _ _ hd hx
  obtain ⟨s1, _, s3⟩ := hi2.self _ _ hy
  refine ⟨w2, hr, ?_⟩
  simp only [setting, get_alive hy, Res.bind, s1, s3, hy1, hy2]

/-- **C147, checks.** A constructor with options that fail their checks throws and leaves no object; with valid options it succeeds. -/
theorem C147_constructor (w : World B' L') (o : Opts B' L') : (∃ w', step okB okL w (.make o) = .ok w' ∧ w'.objs.length = w.objs.length + 1) ↔ okB o.base = true ∧ okL o.ls = true := by
  simp only [step]
  cases h1 : okL o.ls <;> cases h2 : okB o.base <;> simp

/-- **C147 fails for `setOptions`.** It accepts options that no constructor accepts, and the optimizer runs with them. -/
theorem C147_setOptions_counterexample (o bad : Opts B' L') (h1 : okB o.base = true) (h2 : okL o.ls = true) :
    ∃ w, run okB okL World.empty [.make o, .setOptions 0 bad] = .ok w ∧ setting w 0 = .ok ⟨bad.base, bad.ls, none, bad.base, bad.dense⟩ := by
  refine ⟨⟨[some ⟨bad, bad.ls, 0, none, 0⟩], []⟩, ?_, rfl⟩
  simp [run, step, h1, h2, World.empty, World.get, World.put, Res.bind]

/-- **C147 fails for copies.** A copy of an optimizer stops by its own limits but evaluates the problem of the original, with the threads and containers of the original, whatever is set for the copy. Once the original
is destroyed, running the copy is undefined, and so is destroying it: both own the callback registry. -/
theorem C147_copy_counterexample (o o' : Opts B' L') (h1 : okB o.base = true) (h2 : okL o.ls = true) (p q : Nat) :
    (∃ w, run okB okL World.empty [.make o, .setProblem 0 p, .copy 0, .setOptions 1 o', .setProblem 1 q] = .ok w ∧ setting w 1 = .ok ⟨o'.base, o'.ls, some p, o.base, o.dense⟩) ∧
    (∃ w, run okB okL World.empty [.make o, .setProblem 0 p, .copy 0, .destroy 0] = .ok w ∧ setting w 1 = .ub) ∧
    run okB okL World.empty [.make o, .setProblem 0 p, .copy 0, .destroy 0, .destroy 1] = .ub := by
  refine ⟨⟨⟨[some ⟨o, o.ls, 0, some p, 0⟩, some ⟨o', o'.ls, 0, some q, 0⟩], []⟩, ?_, rfl⟩, ⟨⟨[none, some ⟨o, o.ls, 0, some p, 0⟩], [0]⟩, ?_, rfl⟩, ?_⟩
  all_goals simp [run, step, h1, h2, World.empty, World.get, World.put, Res.bind]

/-- A fair program with two optimizers: the second constructor throws, the third call succeeds. -/
example : FairAll (fun b : Nat => decide (0 < b)) (fun l : Nat => decide (0 < l)) World.empty [.make ⟨1, true, 2⟩, .make ⟨0, true, 2⟩, .make ⟨3, false, 4⟩, .setBase 0 7, .destroy 1, .setProblem 0 5] := by
  simp [FairAll, Fair, step, World.alive, World.empty, World.get, World.put, Res.bind]

example : (run (fun b : Nat => decide (0 < b)) (fun l : Nat => decide (0 < l)) World.empty [.make ⟨1, true, 2⟩, .make ⟨0, true, 2⟩, .make ⟨3, false, 4⟩, .setBase 0 7, .destroy 1, .setProblem 0 5]).bind (setting · 0) =
    .ok ⟨7, 2, some 5, 7, true⟩ := by decide +kernel

end Verif.OptObj
