import Verif.SBMOwn.Spec
import Mathlib.Tactic.SplitIfs
import Mathlib.Tactic.Ring
import Mathlib.Data.List.Nodup

namespace Verif.SBMOwn
open Verif.MatrixStack (DMat)
open Verif.SBM (Layout sliceLayout)

variable {R : Type} [CommRing R]

abbrev addrs (es : List (Key × Nat)) : List Nat := es.map Prod.snd

omit [CommRing R] in
theorem deleteAll_ok : ∀ (es : List (Key × Nat)) (H : Nat → Option (DMat R)), (addrs es).Nodup → (∀ a ∈ addrs es, H a ≠ none) →
    deleteAll H es = .ok fun a => if a ∈ addrs es then none else H a
  | [], H, _, _ => by simp [deleteAll]
  | e :: es, H, hn, ha => by
    simp only [addrs, List.map_cons, List.nodup_cons] at hn
    obtain ⟨B, hB⟩ := Option.ne_none_iff_exists'.1 (ha e.2 (by simp))
    simp only [deleteAll, hB]
    rw [deleteAll_ok es _ hn.2]
    · congr 1; funext a
      by_cases h : a = e.2
      · subst h; simp
      · by_cases h' : a ∈ addrs es <;> simp_all [addrs]
    · intro a h
      have : a ≠ e.2 := fun h' => hn.1 (h' ▸ h)
      simpa [Function.update_of_ne this] using ha a (by simp [addrs] at h ⊢; tauto)

omit [CommRing R] in
theorem mapAll_ok (f : DMat R → DMat R) : ∀ (es : List (Key × Nat)) (H : Nat → Option (DMat R)), (addrs es).Nodup → (∀ a ∈ addrs es, H a ≠ none) →
    mapAll f H es = .ok fun a => if a ∈ addrs es then (H a).map f else H a
  | [], H, _, _ => by simp [mapAll]
  | e :: es, H, hn, ha => by
    simp only [addrs, List.map_cons, List.nodup_cons] at hn
    obtain ⟨B, hB⟩ := Option.ne_none_iff_exists'.1 (ha e.2 (by simp))
    simp only [mapAll, hB]
    rw [mapAll_ok f es _ hn.2]
    · congr 1; funext a
      by_cases h : a = e.2
      · subst h
        have : e.2 ∉ addrs es := hn.1
        simp [hB, this]
      · by_cases h' : a ∈ addrs es <;> simp_all [addrs]
    · intro a h
      have : a ≠ e.2 := fun h' => hn.1 (h' ▸ h)
      simpa [Function.update_of_ne this] using ha a (by simp [addrs] at h ⊢; tauto)

omit [CommRing R] in
/-- In-place loops never allocate or delete. -/
theorem mapAll_dom (f : DMat R → DMat R) : ∀ (es : List (Key × Nat)) (H H' : Nat → Option (DMat R)), mapAll f H es = .ok H' → ∀ a, H' a = none ↔ H a = none
  | [], H, H', h, a => by simp [mapAll] at h; rw [h]
  | e :: es, H, H', h, a => by
    simp only [mapAll] at h
    split at h
    · cases h
    · rename_i B hB
      rw [mapAll_dom f es _ H' h a]
      by_cases h : a = e.2
      · subst h; simp [hB]
      · simp [h]

omit [CommRing R] in
theorem mapAll_err (f : DMat R → DMat R) : ∀ (es : List (Key × Nat)) (H : Nat → Option (DMat R)) (e : Fault), mapAll f H es = .error e → e = .dangling
  | [], H, e, h => by simp [mapAll] at h
  | _ :: es, H, e, h => by
    simp only [mapAll] at h
    split at h
    · cases h; rfl
    · exact mapAll_err f es _ e h

omit [CommRing R] in
theorem cloneAll_err : ∀ (es : List (Key × Nat)) (H : Nat → Option (DMat R)) (n : Nat) (e : Fault), cloneAll H n es = .error e → e = .dangling
  | [], H, n, e, h => by simp [cloneAll] at h
  | _ :: es, H, n, e, h => by
    simp only [cloneAll] at h
    split at h
    · cases h; rfl
    · split at h
      · cases h; exact cloneAll_err es _ _ _ (by assumption)
      · cases h

/-- What copying a list of blocks does, when it succeeds. -/
structure Cloned (H : Nat → Option (DMat R)) (n : Nat) (es : List (Key × Nat)) (H' : Nat → Option (DMat R)) (n' : Nat) (es' : List (Key × Nat)) : Prop where
  le : n ≤ n'
  keep : ∀ a, a < n → H' a = H a
  above : ∀ a, n' ≤ a → H' a = H a
  nodup : (addrs es').Nodup
  mem : ∀ a, a ∈ addrs es' ↔ n ≤ a ∧ a < n'
  alive : ∀ a ∈ addrs es', H' a ≠ none
  val : ∀ k, (find es' k).bind H' = (find es k).bind H

omit [CommRing R] in
theorem find_cons (e : Key × Nat) (es : List (Key × Nat)) (k : Key) : find (e :: es) k = if e.1 = k then some e.2 else find es k := by
  unfold find
  by_cases h : e.1 = k <;> simp [h]

omit [CommRing R] in
theorem find_mem {es : List (Key × Nat)} {k : Key} {a : Nat} (h : find es k = some a) : a ∈ addrs es := by
  unfold find at h
  simp only [Option.map_eq_some_iff] at h
  obtain ⟨e, he, rfl⟩ := h
  exact List.mem_map_of_mem (List.mem_of_find?_eq_some he)

omit [CommRing R] in
theorem find_mem' {es : List (Key × Nat)} {k : Key} {a : Nat} (h : find es k = some a) : (k, a) ∈ es := by
  unfold find at h
  simp only [Option.map_eq_some_iff] at h
  obtain ⟨e, he, rfl⟩ := h
  have := List.find?_some he
  simp at this
  subst this
  exact List.mem_of_find?_eq_some he

omit [CommRing R] in
/-- Different keys have different addresses. -/
theorem find_inj {es : List (Key × Nat)} (hn : (addrs es).Nodup) {k k' : Key} {a : Nat} (h : find es k = some a) (h' : find es k' = some a) : k = k' := by
  have := List.inj_on_of_nodup_map hn (find_mem' h) (find_mem' h') rfl
  exact congrArg Prod.fst this

omit [CommRing R] in
theorem cloneAll_spec : ∀ (es : List (Key × Nat)) (H : Nat → Option (DMat R)) (n : Nat) (H' : Nat → Option (DMat R)) (n' : Nat) (es' : List (Key × Nat)),
    (∀ a ∈ addrs es, a < n) → cloneAll H n es = .ok (H', n', es') → Cloned H n es H' n' es'
  | [], H, n, H', n', es', _, h => by
    simp only [cloneAll, Except.ok.injEq, Prod.mk.injEq] at h
    obtain ⟨rfl, rfl, rfl⟩ := h
    exact ⟨le_refl _, fun _ _ => rfl, fun _ _ => rfl, by simp, by intro a; simp, by simp, fun _ => rfl⟩
  | e :: es, H, n, H', n', es', hb, h => by
    simp only [cloneAll] at h
    split at h
    · cases h
    rename_i B hB
    split at h
    · cases h
    rename_i H1 n1 es1 heq
    simp only [Except.ok.injEq, Prod.mk.injEq] at h
    obtain ⟨rfl, rfl, rfl⟩ := h
    have hb' : ∀ a ∈ addrs es, a < n := fun a ha => hb a (by simp [addrs] at ha ⊢; tauto)
    have C := cloneAll_spec es _ (n + 1) _ _ _ (fun a ha => (hb' a ha).trans (by omega)) heq
    have hle := C.le
    refine ⟨by omega, ?_, ?_, ?_, ?_, ?_, ?_⟩
    · intro a ha; rw [C.keep a (by omega), Function.update_of_ne (by omega)]
    · intro a ha; rw [C.above a ha, Function.update_of_ne (by omega)]
    · simp only [addrs, List.map_cons, List.nodup_cons]
      exact ⟨fun hm => by have := (C.mem n).1 hm; omega, C.nodup⟩
    · intro a
      simp only [addrs, List.map_cons, List.mem_cons]
      rw [show (a ∈ List.map Prod.snd es1 ↔ n + 1 ≤ a ∧ a < n1) from C.mem a]
      omega
    · intro a ha
      simp only [addrs, List.map_cons, List.mem_cons] at ha
      rcases ha with rfl | ha
      · rw [C.keep _ (by omega)]; simp
      · exact C.alive a ha
    · intro k
      rw [find_cons, find_cons]
      by_cases hk : e.1 = k
      · simp only [hk, if_true, Option.bind_some]
        rw [C.keep n (by omega), Function.update_self, hB]
      · simp only [hk, if_false]
        rw [C.val k]
        cases hf : find es k with
        | none => rfl
        | some a =>
          have := hb' a (find_mem hf)
          simp only [Option.bind_some]
          rw [Function.update_of_ne (by omega)]

omit [CommRing R] in
theorem cloneAll_ok : ∀ (es : List (Key × Nat)) (H : Nat → Option (DMat R)) (n : Nat), (∀ a ∈ addrs es, a < n) → (∀ a ∈ addrs es, H a ≠ none) →
    ∃ r, cloneAll H n es = .ok r
  | [], H, n, _, _ => ⟨_, rfl⟩
  | e :: es, H, n, hb, ha => by
    obtain ⟨B, hB⟩ := Option.ne_none_iff_exists'.1 (ha e.2 (by simp))
    have hb' : ∀ a ∈ addrs es, a < n := fun a h => hb a (by simp [addrs] at h ⊢; tauto)
    obtain ⟨⟨H1, n1, es1⟩, h1⟩ := cloneAll_ok es (Function.update H n (some B)) (n + 1) (fun a h => (hb' a h).trans (by omega))
      (fun a h => by
        rw [Function.update_of_ne (by have := hb' a h; omega)]
        exact ha a (by simp [addrs] at h ⊢; tauto))
    exact ⟨_, by simp only [cloneAll, hB, h1]; rfl⟩

omit [CommRing R] in
theorem sliceEnts_addrs {es : List (Key × Nat)} {r0 r1 c0 c1 a : Nat} (h : a ∈ addrs (sliceEnts es r0 r1 c0 c1)) : a ∈ addrs es := by
  simp only [addrs, sliceEnts, List.map_map, List.mem_map, List.mem_filter] at h ⊢
  obtain ⟨e, ⟨he, _⟩, rfl⟩ := h
  exact ⟨e, he, rfl⟩

omit [CommRing R] in
theorem find_slice (r0 r1 c0 c1 : Nat) (k : Key) : ∀ es : List (Key × Nat), find (sliceEnts es r0 r1 c0 c1) k =
    if k.1 < c1 - c0 ∧ k.2 < r1 - r0 then find es (c0 + k.1, r0 + k.2) else none
  | [] => by simp [sliceEnts, find]
  | e :: es => by
    have ih := find_slice r0 r1 c0 c1 k es
    obtain ⟨⟨c, r⟩, a⟩ := e
    obtain ⟨kc, kr⟩ := k
    unfold sliceEnts at ih ⊢
    simp only [List.filter_cons] at ih ⊢
    by_cases hp : c0 ≤ c ∧ c < c1 ∧ r0 ≤ r ∧ r < r1
    · simp only [hp, and_self, decide_true, if_true, List.map_cons, find_cons, ih, Prod.mk.injEq]
      by_cases hk : c - c0 = kc ∧ r - r0 = kr
      · rw [if_pos hk, if_pos (by omega), if_pos (by omega)]
      · rw [if_neg hk]
        split_ifs <;> first | rfl | (exfalso; omega)
    · have : decide (c0 ≤ c ∧ c < c1 ∧ r0 ≤ r ∧ r < r1) = false := by simpa using hp
      simp only [this, Bool.false_eq_true, if_false, ih, find_cons, Prod.mk.injEq]
      split_ifs <;> first | rfl | (exfalso; omega)

omit [CommRing R] in
theorem find_append (es : List (Key × Nat)) (k k' : Key) (a : Nat) : find (es ++ [(k', a)]) k = (find es k).or (if k' = k then some a else none) := by
  induction es with
  | nil => simp [find]
  | cons e es ih =>
    rw [List.cons_append, find_cons, find_cons, ih]
    split_ifs <;> simp

/-- Blocks of matrices with storage: allocated, distinct, in no other matrix with storage; and all allocated blocks are among them. -/
structure Inv (w : World R) : Prop where
  owned : ∀ x o, w.obj x = some o → o.store = true → ∀ a ∈ addrs o.ents, w.heap a ≠ none
  bound : ∀ a, w.heap a ≠ none → a < w.next
  nodup : ∀ x o, w.obj x = some o → o.store = true → (addrs o.ents).Nodup
  disj : ∀ x y o p, w.obj x = some o → w.obj y = some p → o.store = true → p.store = true → ∀ a, a ∈ addrs o.ents → a ∈ addrs p.ents → x = y
  low : ∀ x o, w.obj x = some o → ∀ a ∈ addrs o.ents, a < w.next
  noleak : ∀ a, w.heap a ≠ none → ∃ x o, w.obj x = some o ∧ o.store = true ∧ a ∈ addrs o.ents

omit [CommRing R] in
theorem Inv.init : Inv (init : World R) := ⟨by simp [SBMOwn.init], by simp [SBMOwn.init], by simp [SBMOwn.init], by simp [SBMOwn.init], by simp [SBMOwn.init], by simp [SBMOwn.init]⟩

omit [CommRing R] in
/-- Changing the contents of blocks keeps the invariant. -/
theorem Inv.heap {w : World R} (h : Inv w) (H : Nat → Option (DMat R)) (hd : ∀ a, H a = none ↔ w.heap a = none) : Inv { w with heap := H } :=
  ⟨fun x o ho hs a ha hn => h.owned x o ho hs a ha ((hd a).1 hn), fun a ha => h.bound a fun hn => ha ((hd a).2 hn), h.nodup, h.disj, h.low,
    fun a ha => h.noleak a fun hn => ha ((hd a).2 hn)⟩

omit [CommRing R] in
/-- Replacing an object that owns nothing by another that owns nothing. -/
theorem Inv.set0 {w : World R} (h : Inv w) (x : Nat) (hx : ∀ o, w.obj x = some o → o.store = true → o.ents = []) (o : Option Obj)
    (ho : ∀ p, o = some p → p.store = true → p.ents = []) (hl : ∀ p, o = some p → ∀ a ∈ addrs p.ents, a < w.next) : Inv { w with obj := Function.update w.obj x o } := by
  refine ⟨?_, h.bound, ?_, ?_, ?_, ?_⟩
  · intro y p hy hs a ha
    by_cases e : y = x
    · subst e
      simp at hy
      rw [ho p hy hs] at ha; simp at ha
    · simp [e] at hy; exact h.owned y p hy hs a ha
  · intro y p hy hs
    by_cases e : y = x
    · subst e
      simp at hy
      rw [ho p hy hs]; simp
    · simp [e] at hy; exact h.nodup y p hy hs
  · intro y z p q hy hz hp hq a ha hb
    by_cases e : y = x
    · subst e; simp at hy; rw [ho p hy hp] at ha; simp at ha
    · by_cases e' : z = x
      · subst e'; simp at hz; rw [ho q hz hq] at hb; simp at hb
      · simp [e] at hy; simp [e'] at hz
        exact h.disj y z p q hy hz hp hq a ha hb
  · intro y p hy a ha
    by_cases e : y = x
    · subst e; simp at hy; exact hl p hy a ha
    · simp [e] at hy; exact h.low y p hy a ha
  · intro a ha
    obtain ⟨y, p, hy, hs, hm⟩ := h.noleak a ha
    refine ⟨y, p, ?_, hs, hm⟩
    have : y ≠ x := by rintro rfl; rw [hx p hy hs] at hm; simp at hm
    simpa [this] using hy

omit [CommRing R] in
/-- Deleting the blocks of an object with storage. -/
theorem Inv.delete {w : World R} (h : Inv w) (x : Nat) (o : Obj) (hx : w.obj x = some o) (hs : o.store = true) :
    Inv ({ w with heap := fun a => if a ∈ addrs o.ents then none else w.heap a }.set x { o with ents := [] }) := by
  refine ⟨?_, ?_, ?_, ?_, ?_, ?_⟩
  · intro y p hy hp a ha
    by_cases e : y = x
    · subst e; simp [World.set] at hy; subst hy; simp at ha
    · simp [World.set, e] at hy
      have : a ∉ addrs o.ents := fun hm => e (h.disj y x p o hy hx hp hs a ha hm)
      simp only [World.set, this, if_false]
      exact h.owned y p hy hp a ha
  · intro a ha
    simp only [World.set] at ha
    split_ifs at ha with hm
    · exact absurd rfl ha
    · exact h.bound a ha
  · intro y p hy hp
    by_cases e : y = x
    · subst e; simp [World.set] at hy; subst hy; simp
    · simp [World.set, e] at hy; exact h.nodup y p hy hp
  · intro y z p q hy hz hp hq a ha hb
    by_cases e : y = x
    · subst e; simp [World.set] at hy; subst hy; simp at ha
    · by_cases e' : z = x
      · subst e'; simp [World.set] at hz; subst hz; simp at hb
      · simp [World.set, e] at hy; simp [World.set, e'] at hz
        exact h.disj y z p q hy hz hp hq a ha hb
  · intro y p hy a ha
    by_cases e : y = x
    · subst e; simp [World.set] at hy; subst hy; simp at ha
    · simp [World.set, e] at hy; exact h.low y p hy a ha
  · intro a ha
    simp only [World.set] at ha
    split_ifs at ha with hm
    · exact absurd rfl ha
    · obtain ⟨y, p, hy, hp, hm'⟩ := h.noleak a ha
      refine ⟨y, p, ?_, hp, hm'⟩
      have : y ≠ x := by rintro rfl; rw [hx] at hy; cases hy; exact hm hm'
      simpa [World.set, this] using hy

omit [CommRing R] in
/-- Putting freshly allocated blocks into an object that owns nothing. -/
theorem Inv.fresh {w : World R} (h : Inv w) (x : Nat) (hx : ∀ o, w.obj x = some o → o.store = true → o.ents = []) (H : Nat → Option (DMat R)) (n : Nat)
    (es : List (Key × Nat)) (hle : w.next ≤ n) (keep : ∀ a, a < w.next → H a = w.heap a) (above : ∀ a, n ≤ a → H a = w.heap a) (nd : (addrs es).Nodup)
    (mem : ∀ a, a ∈ addrs es ↔ w.next ≤ a ∧ a < n) (alive : ∀ a ∈ addrs es, H a ≠ none) (rl cl : Layout) :
    Inv ((World.mk H n w.obj).set x ⟨rl, cl, true, es⟩) := by
  have lt : ∀ y p, w.obj y = some p → p.store = true → ∀ a ∈ addrs p.ents, a < w.next := fun y p hy hp a ha => h.bound a (h.owned y p hy hp a ha)
  refine ⟨?_, ?_, ?_, ?_, ?_, ?_⟩
  · intro y p hy hp a ha
    by_cases e : y = x
    · subst e; simp [World.set] at hy; subst hy; exact alive a ha
    · simp [World.set, e] at hy
      show H a ≠ none
      rw [keep a (lt y p hy hp a ha)]
      exact h.owned y p hy hp a ha
  · intro a ha
    show a < n
    by_contra hc
    have : H a = w.heap a := above a (by omega)
    have ha' : w.heap a ≠ none := by rw [← this]; exact ha
    have := h.bound a ha'
    omega
  · intro y p hy hp
    by_cases e : y = x
    · subst e; simp [World.set] at hy; subst hy; exact nd
    · simp [World.set, e] at hy; exact h.nodup y p hy hp
  · intro y z p q hy hz hp hq a ha hb
    by_cases e : y = x
    · by_cases e' : z = x
      · rw [e, e']
      · subst e; simp [World.set] at hy; subst hy; simp [World.set, e'] at hz
        have h1 := lt z q hz hq a hb
        have h2 := (mem a).1 ha
        omega
    · by_cases e' : z = x
      · subst e'; simp [World.set] at hz; subst hz; simp [World.set, e] at hy
        have h1 := lt y p hy hp a ha
        have h2 := (mem a).1 hb
        omega
      · simp [World.set, e] at hy; simp [World.set, e'] at hz
        exact h.disj y z p q hy hz hp hq a ha hb
  · intro y p hy a ha
    by_cases e : y = x
    · subst e; simp [World.set] at hy; subst hy; exact ((mem a).1 ha).2
    · simp [World.set, e] at hy; exact (h.low y p hy a ha).trans_le hle
  · intro a ha
    by_cases hm : a ∈ addrs es
    · exact ⟨x, ⟨rl, cl, true, es⟩, by simp [World.set], rfl, hm⟩
    · have ha' : w.heap a ≠ none := by
        by_cases hc : a < w.next
        · rw [← keep a hc]; exact ha
        · rw [← above a (by rw [mem] at hm; omega)]; exact ha
      obtain ⟨y, p, hy, hp, hm'⟩ := h.noleak a ha'
      refine ⟨y, p, ?_, hp, hm'⟩
      have : y ≠ x := by rintro rfl; rw [hx p hy hp] at hm'; simp at hm'
      simpa [World.set, this] using hy

omit [CommRing R] in
/-- Handing the blocks of one object to another. -/
theorem Inv.move {w : World R} (h : Inv w) (x y : Nat) (hxy : x ≠ y) (hx : ∀ o, w.obj x = some o → o.store = true → o.ents = []) (p : Obj) (hy : w.obj y = some p) :
    Inv ((w.set x p).set y movedObj) := by
  have key : ∀ z q, ((w.set x p).set y movedObj).obj z = some q → q.store = true → (z = x ∧ q = p) ∨ (z ≠ x ∧ z ≠ y ∧ w.obj z = some q) := by
    intro z q hz hq
    by_cases e : z = y
    · subst e; simp [World.set] at hz; subst hz; simp [movedObj] at hq
    · by_cases e' : z = x
      · subst e'; simp [World.set, e] at hz; exact Or.inl ⟨rfl, hz.symm⟩
      · simp [World.set, e, e'] at hz; exact Or.inr ⟨e', e, hz⟩
  refine ⟨?_, h.bound, ?_, ?_, ?_, ?_⟩
  · intro z q hz hq a ha
    rcases key z q hz hq with ⟨_, rfl⟩ | ⟨_, _, hz'⟩
    · exact h.owned y q hy hq a ha
    · exact h.owned z q hz' hq a ha
  · intro z q hz hq
    rcases key z q hz hq with ⟨_, rfl⟩ | ⟨_, _, hz'⟩
    · exact h.nodup y q hy hq
    · exact h.nodup z q hz' hq
  · intro z z' q q' hz hz' hq hq' a ha ha'
    rcases key z q hz hq with ⟨e, e'⟩ | ⟨_, n2, hz1⟩ <;> rcases key z' q' hz' hq' with ⟨f, f'⟩ | ⟨_, m2, hz2⟩
    · rw [e, f]
    · subst e'; exact absurd (h.disj y z' q q' hy hz2 hq hq' a ha ha').symm m2
    · subst f'; exact absurd (h.disj z y q q' hz1 hy hq hq' a ha ha') n2
    · exact h.disj z z' q q' hz1 hz2 hq hq' a ha ha'
  · intro z q hz a ha
    by_cases e : z = y
    · subst e; simp [World.set] at hz; subst hz; simp [movedObj] at ha
    · by_cases e' : z = x
      · subst e'; simp [World.set, e] at hz; subst hz; exact h.low y p hy a ha
      · simp [World.set, e, e'] at hz; exact h.low z q hz a ha
  · intro a ha
    obtain ⟨z, q, hz, hq, hm⟩ := h.noleak a ha
    by_cases e : z = y
    · subst e; rw [hy] at hz; cases hz
      exact ⟨x, p, by simp [World.set, hxy], hq, hm⟩
    · have : z ≠ x := by rintro rfl; rw [hx q hz hq] at hm; simp at hm
      exact ⟨z, q, by simpa [World.set, e, this] using hz, hq, hm⟩

omit [CommRing R] in
/-- Adding one freshly allocated block to an object with storage. -/
theorem Inv.add {w : World R} (h : Inv w) (x : Nat) (o : Obj) (hx : w.obj x = some o) (hs : o.store = true) (k : Key) (B : DMat R) :
    Inv ((World.mk (Function.update w.heap w.next (some B)) (w.next + 1) w.obj).set x { o with ents := o.ents ++ [(k, w.next)] }) := by
  have lt : ∀ y p, w.obj y = some p → p.store = true → ∀ a ∈ addrs p.ents, a < w.next := fun y p hy hp a ha => h.bound a (h.owned y p hy hp a ha)
  have mem : ∀ a, a ∈ addrs (o.ents ++ [(k, w.next)]) ↔ a ∈ addrs o.ents ∨ a = w.next := by intro a; simp [addrs]
  refine ⟨?_, ?_, ?_, ?_, ?_, ?_⟩
  · intro y p hy hp a ha
    show Function.update w.heap w.next (some B) a ≠ none
    by_cases e : a = w.next
    · subst e; simp
    rw [Function.update_of_ne e]
    by_cases e' : y = x
    · subst e'; simp [World.set] at hy; subst hy
      rcases (mem a).1 ha with ha | ha
      · exact h.owned y o hx hs a ha
      · exact absurd ha e
    · simp [World.set, e'] at hy; exact h.owned y p hy hp a ha
  · intro a ha
    show a < w.next + 1
    by_cases e : a = w.next
    · omega
    · have : w.heap a ≠ none := by simpa [World.set, e] using ha
      have := h.bound a this
      omega
  · intro y p hy hp
    by_cases e : y = x
    · subst e; simp [World.set] at hy; subst hy
      have : w.next ∉ addrs o.ents := fun hm => by have := lt y o hx hs _ hm; omega
      have nd := h.nodup y o hx hs
      show (List.map Prod.snd (o.ents ++ [(k, w.next)])).Nodup
      rw [List.map_append, List.nodup_append]
      exact ⟨nd, by simp, by intro a ha b hb; simp at hb; subst hb; rintro rfl; exact this ha⟩
    · simp [World.set, e] at hy; exact h.nodup y p hy hp
  · intro y z p q hy hz hp hq a ha hb
    by_cases e : y = x
    · by_cases e' : z = x
      · rw [e, e']
      · subst e; simp [World.set] at hy; subst hy; simp [World.set, e'] at hz
        have h1 := lt z q hz hq a hb
        rcases (mem a).1 ha with ha | ha
        · exact h.disj y z o q hx hz hs hq a ha hb
        · omega
    · by_cases e' : z = x
      · subst e'; simp [World.set] at hz; subst hz; simp [World.set, e] at hy
        have h1 := lt y p hy hp a ha
        rcases (mem a).1 hb with hb | hb
        · exact h.disj y z p o hy hx hp hs a ha hb
        · omega
      · simp [World.set, e] at hy; simp [World.set, e'] at hz
        exact h.disj y z p q hy hz hp hq a ha hb
  · intro y p hy a ha
    show a < w.next + 1
    by_cases e : y = x
    · subst e; simp [World.set] at hy; subst hy
      rcases (mem a).1 ha with ha | ha
      · have := h.low y o hx a ha; omega
      · omega
    · simp [World.set, e] at hy; have := h.low y p hy a ha; omega
  · intro a ha
    by_cases e : a = w.next
    · exact ⟨x, { o with ents := o.ents ++ [(k, w.next)] }, by simp [World.set], hs, (mem a).2 (Or.inr e)⟩
    · have ha' : w.heap a ≠ none := by simpa [World.set, e] using ha
      obtain ⟨y, p, hy, hp, hm⟩ := h.noleak a ha'
      by_cases e' : y = x
      · subst e'; rw [hx] at hy; cases hy
        exact ⟨y, { o with ents := o.ents ++ [(k, w.next)] }, by simp [World.set], hs, (mem a).2 (Or.inl hm)⟩
      · exact ⟨y, p, by simpa [World.set, e'] using hy, hp, hm⟩

end Verif.SBMOwn
