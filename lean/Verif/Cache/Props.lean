import Verif.Cache.Model
import Mathlib.Tactic.NoncommRing
import Mathlib.Algebra.Ring.Int.Defs

/-! C56: cached expressions. -/
namespace Verif.Cache

variable {V R : Type}

/-- The value of the expression, whatever is cached. -/
def T.val (env : Nat → V) : T V R → V
  | .const v => v
  | .dv i => env i
  | .un f _ a => f (a.val env)
  | .bin f _ _ a b => f (a.val env) (b.val env)
  | .pw p a b => if p env then a.val env else b.val env
  | .cache _ a => a.val env

/-- The Jacobians of the expression for a container with chain rule factor `c`, whatever is cached. -/
def T.jac [Ring R] (env : Nat → V) (act : Nat → Bool) : T V R → R → Nat → R
  | .const _, _ => fun _ => 0
  | .dv i, c => fun k => if k = i ∧ act i then c else 0
  | .un _ df a, c => a.jac env act (c * df (a.val env))
  | .bin _ dl dr a b, c => fun k => a.jac env act (c * dl (a.val env) (b.val env)) k + b.jac env act (c * dr (a.val env) (b.val env)) k
  | .pw p a b, c => if p env then a.jac env act c else b.jac env act c
  | .cache _ a, c => a.jac env act c

/-- No piecewise node. -/
def T.NoPw : T V R → Prop
  | .const _ => True
  | .dv _ => True
  | .un _ _ a => a.NoPw
  | .bin _ _ _ a b => a.NoPw ∧ b.NoPw
  | .pw _ _ _ => False
  | .cache _ a => a.NoPw

/-- Every cache node wraps the expression it was made for. -/
def T.Made (defs : Nat → T V R) : T V R → Prop
  | .const _ => True
  | .dv _ => True
  | .un _ _ a => a.Made defs
  | .bin _ _ _ a b => a.Made defs ∧ b.Made defs
  | .pw _ a b => a.Made defs ∧ b.Made defs
  | .cache id a => a = defs id ∧ a.Made defs

theorem dvs_const (env env' : Nat → V) : ∀ t : T V R, t.NoPw → t.dvs env = t.dvs env'
  | .const _, _ => rfl
  | .dv _, _ => rfl
  | .un _ _ a, h => dvs_const env env' a h
  | .bin _ _ _ a b, h => by rw [T.dvs, T.dvs, dvs_const env env' a h.1, dvs_const env env' b h.2]
  | .pw _ _ _, h => h.elim
  | .cache _ a, h => dvs_const env env' a h

theorem val_congr (env env' : Nat → V) : ∀ t : T V R, t.NoPw → (∀ i ∈ t.dvs env, env i = env' i) → t.val env = t.val env'
  | .const _, _, _ => rfl
  | .dv i, _, h => h i (by simp [T.dvs])
  | .un f _ a, hp, h => by rw [T.val, T.val, val_congr env env' a hp h]
  | .bin f _ _ a b, hp, h => by
    rw [T.val, T.val, val_congr env env' a hp.1 fun i hi => h i (List.mem_append_left _ hi),
      val_congr env env' b hp.2 fun i hi => h i (List.mem_append_right _ hi)]
  | .pw _ _ _, hp, _ => hp.elim
  | .cache _ a, hp, h => val_congr env env' a hp h

variable [Ring R]

theorem jac_congr (env env' : Nat → V) (act act' : Nat → Bool) : ∀ (t : T V R) (c : R), t.NoPw → (∀ i ∈ t.dvs env, env i = env' i) →
    (∀ i ∈ t.dvs env, act i = act' i) → t.jac env act c = t.jac env' act' c
  | .const _, _, _, _, _ => rfl
  | .dv i, c, _, _, h => by simp only [T.jac, h i (by simp [T.dvs])]
  | .un f _ a, c, hp, h, h' => by rw [T.jac, T.jac, val_congr env env' a hp h, jac_congr env env' act act' a _ hp h h']
  | .bin f _ _ a b, c, hp, h, h' => by
    have e1 := val_congr env env' a hp.1 fun i hi => h i (List.mem_append_left _ hi)
    have e2 := val_congr env env' b hp.2 fun i hi => h i (List.mem_append_right _ hi)
    rw [T.jac, T.jac, e1, e2, jac_congr env env' act act' a _ hp.1 (fun i hi => h i (List.mem_append_left _ hi))
      (fun i hi => h' i (List.mem_append_left _ hi)), jac_congr env env' act act' b _ hp.2 (fun i hi => h i (List.mem_append_right _ hi))
      (fun i hi => h' i (List.mem_append_right _ hi))]
  | .pw _ _ _, _, hp, _, _ => hp.elim
  | .cache _ a, c, hp, h, h' => jac_congr env env' act act' a c hp h h'

theorem jac_mul (env : Nat → V) (act : Nat → Bool) : ∀ (t : T V R) (c d : R) (k : Nat), t.jac env act (c * d) k = c * t.jac env act d k
  | .const _, _, _, _ => (mul_zero _).symm
  | .dv i, c, d, k => by simp only [T.jac]; split <;> simp
  | .un _ _ a, c, d, k => by rw [T.jac, T.jac, mul_assoc, jac_mul env act a]
  | .bin _ _ _ a b, c, d, k => by
    simp only [T.jac]
    rw [mul_assoc, mul_assoc, jac_mul env act a, jac_mul env act b, mul_add]
  | .pw p a b, c, d, k => by
    simp only [T.jac]
    split
    · exact jac_mul env act a c d k
    · exact jac_mul env act b c d k
  | .cache _ a, c, d, k => jac_mul env act a c d k

/-- What the caches hold, where `stale` are the design variables activated or deactivated since they last changed. -/
structure Inv (defs : Nat → T V R) (stale : Nat → Prop) (s : St V R) : Prop where
  v : ∀ id x, s.cv id = some x → x = (defs id).val s.env
  j : ∀ id x, s.cj id = some x → (∀ i ∈ (defs id).dvs s.env, ¬stale i) → x = (defs id).jac s.env s.act 1
  reg : ∀ i id, s.reg i id = ((defs id).dvs s.env).contains i

variable {defs : Nat → T V R} {stale : Nat → Prop}

theorem evalV_ok : ∀ (t : T V R) (s : St V R), t.Made defs → Inv defs stale s →
    (t.evalV s).1 = t.val s.env ∧ Inv defs stale (t.evalV s).2 ∧ (t.evalV s).2.env = s.env ∧ (t.evalV s).2.act = s.act
  | .const _, s, _, hi => ⟨rfl, hi, rfl, rfl⟩
  | .dv _, s, _, hi => ⟨rfl, hi, rfl, rfl⟩
  | .un f _ a, s, hm, hi => by
    obtain ⟨h1, h2, h3, h4⟩ := evalV_ok a s hm hi
    exact ⟨congrArg f h1, h2, h3, h4⟩
  | .bin f _ _ a b, s, hm, hi => by
    obtain ⟨h1, h2, h3, h4⟩ := evalV_ok a s hm.1 hi
    obtain ⟨k1, k2, k3, k4⟩ := evalV_ok b (a.evalV s).2 hm.2 h2
    refine ⟨?_, k2, k3.trans h3, k4.trans h4⟩
    simp only [T.evalV, T.val, h1, k1, h3]
  | .pw p a b, s, hm, hi => by
    simp only [T.evalV, T.val]
    split
    · exact evalV_ok a s hm.1 hi
    · exact evalV_ok b s hm.2 hi
  | .cache id a, s, hm, hi => by
    simp only [T.evalV, T.val]
    cases hc : s.cv id with
    | some x =>
      refine ⟨?_, hi, rfl, rfl⟩
      rw [hm.1]
      exact hi.v id x hc
    | none =>
      obtain ⟨h1, h2, h3, h4⟩ := evalV_ok a s hm.2 hi
      refine ⟨h1, ⟨fun k x hx => ?_, h2.j, h2.reg⟩, h3, h4⟩
      by_cases hk : k = id
      · simp only [if_pos hk] at hx
        cases hx
        change (a.evalV s).1 = (defs k).val (a.evalV s).2.env
        rw [h1, h3, hk, hm.1]
      · simp only [if_neg hk] at hx
        exact h2.v k x hx

theorem evalJ_ok : ∀ (t : T V R) (c : R) (s : St V R), t.Made defs → Inv defs stale s →
    ((∀ i ∈ t.dvs s.env, ¬stale i) → (t.evalJ c s).1 = t.jac s.env s.act c) ∧ Inv defs stale (t.evalJ c s).2 ∧
      (t.evalJ c s).2.env = s.env ∧ (t.evalJ c s).2.act = s.act
  | .const _, c, s, _, hi => ⟨fun _ => rfl, hi, rfl, rfl⟩
  | .dv _, c, s, _, hi => ⟨fun _ => rfl, hi, rfl, rfl⟩
  | .un f df a, c, s, hm, hi => by
    obtain ⟨h1, h2, h3, h4⟩ := evalV_ok a s hm hi
    obtain ⟨k1, k2, k3, k4⟩ := evalJ_ok a (c * df (a.evalV s).1) (a.evalV s).2 hm h2
    refine ⟨fun hs => ?_, k2, k3.trans h3, k4.trans h4⟩
    simp only [T.evalJ, T.jac]
    rw [k1 (by rw [h3]; exact hs), h3, h4, h1]
  | .bin f dl dr a b, c, s, hm, hi => by
    obtain ⟨h1, h2, h3, h4⟩ := evalV_ok a s hm.1 hi
    obtain ⟨k1, k2, k3, k4⟩ := evalV_ok b (a.evalV s).2 hm.2 h2
    obtain ⟨l1, l2, l3, l4⟩ := evalJ_ok a (c * dl (a.evalV s).1 (b.evalV (a.evalV s).2).1) (b.evalV (a.evalV s).2).2 hm.1 k2
    obtain ⟨m1, m2, m3, m4⟩ := evalJ_ok b (c * dr (a.evalV s).1 (b.evalV (a.evalV s).2).1) _ hm.2 l2
    refine ⟨fun hs => ?_, m2, m3.trans (l3.trans (k3.trans h3)), m4.trans (l4.trans (k4.trans h4))⟩
    simp only [T.evalJ, T.jac]
    rw [l1 (by rw [k3, h3]; exact fun i hi => hs i (List.mem_append_left _ hi)),
      m1 (by rw [l3, k3, h3]; exact fun i hi => hs i (List.mem_append_right _ hi)), l3, l4, k3, k4, h3, h4, h1, k1, h3]
  | .pw p a b, c, s, hm, hi => by
    by_cases hp : p s.env = true
    · simp only [T.evalJ, T.jac, T.dvs, if_pos hp]
      exact evalJ_ok a c s hm.1 hi
    · simp only [T.evalJ, T.jac, T.dvs, if_neg hp]
      exact evalJ_ok b c s hm.2 hi
  | .cache id a, c, s, hm, hi => by
    simp only [T.evalJ, T.jac, T.dvs]
    cases hc : s.cj id with
    | some x =>
      refine ⟨fun hs => ?_, hi, rfl, rfl⟩
      rw [hm.1] at hs ⊢
      rw [hi.j id x hc hs]
      funext k
      change c * (defs id).jac s.env s.act 1 k = _
      rw [← jac_mul, mul_one]
    | none =>
      obtain ⟨h1, h2, h3, h4⟩ := evalJ_ok a 1 s hm.2 hi
      refine ⟨fun hs => ?_, ⟨h2.v, fun k x hx hs => ?_, h2.reg⟩, h3, h4⟩
      · funext k
        simp only [h1 hs]
        rw [← jac_mul, mul_one]
      · by_cases hk : k = id
        · simp only [if_pos hk] at hx
          cases hx
          have e : (a.evalJ 1 s).2.env = s.env := h3
          change (a.evalJ 1 s).1 = (defs k).jac (a.evalJ 1 s).2.env (a.evalJ 1 s).2.act 1
          change ∀ i ∈ (defs k).dvs (a.evalJ 1 s).2.env, ¬stale i at hs
          rw [h3, h4, hk, ← hm.1]
          rw [h3, hk, ← hm.1] at hs
          exact h1 hs
        · simp only [if_neg hk] at hx
          exact h2.j k x hx hs

/-- The expressions evaluated in a history are built from the caches that were made. -/
def Op.Fits (defs : Nat → T V R) : Op V R → Prop
  | .evalV t => t.Made defs
  | .evalJ t _ => t.Made defs
  | _ => True

/-- The call tells the caches about a change of value. -/
def Op.Tells : Op V R → Prop
  | .poke _ _ => False
  | _ => True

/-- The design variables activated or deactivated since they last changed. -/
def staleAfter (stale : Nat → Prop) : List (Op V R) → Nat → Prop
  | [] => stale
  | .activate i _ :: os => staleAfter (fun k => k = i ∨ stale k) os
  | .change i _ :: os => staleAfter (fun k => k ≠ i ∧ stale k) os
  | _ :: os => staleAfter stale os

theorem run_inv (hp : ∀ id, (defs id).NoPw) : ∀ (ops : List (Op V R)) (stale : Nat → Prop) (s : St V R), Inv defs stale s → (∀ o ∈ ops, o.Fits defs) →
    (∀ o ∈ ops, o.Tells) → Inv defs (staleAfter stale ops) (run s ops)
  | [], _, s, hi, _, _ => hi
  | .change i v :: os, stale, s, hi, hf, ht => by
    refine run_inv hp os _ _ ?_ (fun o ho => hf o (by simp [ho])) (fun o ho => ht o (by simp [ho]))
    have hdv : ∀ id, (defs id).dvs (fun k => if k = i then v else s.env k) = (defs id).dvs s.env := fun id => dvs_const _ _ _ (hp id)
    have hne : ∀ id, s.reg i id = false → ∀ k ∈ (defs id).dvs s.env, k ≠ i := by
      rintro id hr k hk rfl
      rw [hi.reg] at hr
      simp [hk] at hr
    refine ⟨fun id x hx => ?_, fun id x hx hs => ?_, fun k id => ?_⟩
    · simp only [step] at hx ⊢
      cases hr : s.reg i id with
      | true => simp [hr] at hx
      | false =>
        simp only [hr, Bool.false_eq_true, if_false] at hx
        rw [hi.v id x hx]
        exact val_congr _ _ _ (hp id) fun k hk => by simp [hne id hr k hk]
    · simp only [step] at hx hs ⊢
      cases hr : s.reg i id with
      | true => simp [hr] at hx
      | false =>
        simp only [hr, Bool.false_eq_true, if_false] at hx
        rw [hdv id] at hs
        rw [hi.j id x hx fun k hk hst => hs k hk ⟨hne id hr k hk, hst⟩]
        exact jac_congr _ _ _ _ _ _ (hp id) (fun k hk => by simp [hne id hr k hk]) fun _ _ => rfl
    · simp only [step, hdv]
      exact hi.reg k id
  | .poke i v :: os, stale, s, hi, hf, ht => (ht (.poke i v) (by simp)).elim
  | .activate i b :: os, stale, s, hi, hf, ht => by
    refine run_inv hp os _ _ ?_ (fun o ho => hf o (by simp [ho])) (fun o ho => ht o (by simp [ho]))
    refine ⟨hi.v, fun id x hx hs => ?_, hi.reg⟩
    simp only [step] at hx hs ⊢
    rw [hi.j id x hx fun k hk hst => hs k hk (Or.inr hst)]
    refine jac_congr _ _ _ _ _ _ (hp id) (fun _ _ => rfl) fun k hk => ?_
    have : k ≠ i := fun h => hs k hk (Or.inl h)
    simp [this]
  | .evalV t :: os, stale, s, hi, hf, ht =>
    run_inv hp os _ _ (evalV_ok t s (hf (.evalV t) (by simp)) hi).2.1 (fun o ho => hf o (by simp [ho])) (fun o ho => ht o (by simp [ho]))
  | .evalJ t c :: os, stale, s, hi, hf, ht =>
    run_inv hp os _ _ (evalJ_ok t c s (hf (.evalJ t c) (by simp)) hi).2.1 (fun o ho => hf o (by simp [ho])) (fun o ho => ht o (by simp [ho]))

theorem start_inv (defs : Nat → T V R) (env : Nat → V) (act : Nat → Bool) : Inv defs (fun _ => False) (start defs env act) :=
  ⟨fun _ _ h => (nomatch h), fun _ _ h => (nomatch h), fun _ _ => rfl⟩

/-- Caches do not change values: after any history of updates, reverts, parameter settings, (de)activations and evaluations of
any expressions, cached, nested and shared in any way, an expression evaluates to the value of the same expression without
caches.  Partial: the cached expressions contain no piecewise nodes and values change only through the design variable's
functions (see the counterexamples). -/
theorem C56_value_partial (defs : Nat → T V R) (hp : ∀ id, (defs id).NoPw) (env : Nat → V) (act : Nat → Bool) (ops : List (Op V R))
    (hf : ∀ o ∈ ops, o.Fits defs) (ht : ∀ o ∈ ops, o.Tells) (t : T V R) (hm : t.Made defs) :
    (t.evalV (run (start defs env act) ops)).1 = t.val (run (start defs env act) ops).env :=
  (evalV_ok t _ hm (run_inv hp ops _ _ (start_inv defs env act) hf ht)).1

/-- Caches do not change Jacobians, for containers with any chain rule, provided no design variable of the expression was
activated or deactivated since it last changed. -/
theorem C56_jacobian_partial (defs : Nat → T V R) (hp : ∀ id, (defs id).NoPw) (env : Nat → V) (act : Nat → Bool) (ops : List (Op V R))
    (hf : ∀ o ∈ ops, o.Fits defs) (ht : ∀ o ∈ ops, o.Tells) (t : T V R) (hm : t.Made defs) (c : R)
    (hs : ∀ i ∈ t.dvs (run (start defs env act) ops).env, ¬staleAfter (fun _ => False) ops i) :
    (t.evalJ c (run (start defs env act) ops)).1 = t.jac (run (start defs env act) ops).env (run (start defs env act) ops).act c :=
  (evalJ_ok t c _ hm (run_inv hp ops _ _ (start_inv defs env act) hf ht)).1 hs

/-- The design variables have the values they were given last. -/
theorem C56_env (defs : Nat → T V R) (env : Nat → V) (act : Nat → Bool) (ops : List (Op V R)) (i : Nat) (v : V) :
    (run (start defs env act) (ops ++ [.change i v])).env i = v := by
  suffices H : ∀ (ops : List (Op V R)) (s : St V R), (run s (ops ++ [.change i v])).env i = v from H ops _
  intro ops
  induction ops with
  | nil => intro s; simp [run, step]
  | cons o os ih => intro s; exact ih _

/-- The square of variable 0 (cache 0) and the sum of that and variable 1 (cache 1). -/
def exDefs : Nat → T ℤ ℤ
  | 0 => .un (fun x => x * x) (fun x => 2 * x) (.dv 0)
  | _ => .bin (fun x y => x + y) (fun _ _ => 1) (fun _ _ => 1) (.cache 0 (.un (fun x => x * x) (fun x => 2 * x) (.dv 0))) (.dv 1)

def exT : T ℤ ℤ := .un (fun x => 3 * x) (fun _ => 3) (.cache 1 (exDefs 1))

/-- Nested caches; variable 1 is deactivated, then updated. -/
example : (∀ id, (exDefs id).NoPw) ∧ exT.Made exDefs ∧
    (let ops : List (Op ℤ ℤ) := [.evalJ exT 1, .change 0 5, .evalV exT, .activate 1 false, .evalJ exT 1, .change 1 7]
     (∀ o ∈ ops, o.Fits exDefs) ∧ (∀ o ∈ ops, o.Tells) ∧
      ∀ i ∈ exT.dvs (run (start exDefs (fun _ => 2) fun _ => true) ops).env, ¬staleAfter (fun _ => False) ops i) := by
  have hm : exT.Made exDefs := ⟨rfl, ⟨rfl, trivial⟩, trivial⟩
  refine ⟨fun id => ?_, hm, ?_, ?_, ?_⟩
  · match id with
    | 0 => trivial
    | _ + 1 => exact ⟨trivial, trivial⟩
  · intro o ho
    simp only [List.mem_cons, List.not_mem_nil, or_false] at ho
    rcases ho with rfl | rfl | rfl | rfl | rfl | rfl <;> first | exact hm | trivial
  · intro o ho
    simp only [List.mem_cons, List.not_mem_nil, or_false] at ho
    rcases ho with rfl | rfl | rfl | rfl | rfl | rfl <;> trivial
  · intro i _ hst
    simp [staleAfter] at hst

/-- A design variable activated after the Jacobians were cached: its Jacobian is missing although the expression has one. -/
theorem C56_activate_counterexample :
    let t : T ℤ ℤ := .cache 0 (exDefs 0)
    let s := run (start exDefs (fun _ => 2) fun _ => false) [.evalJ t 1, .activate 0 true]
    (t.evalJ 1 s).1 0 = 0 ∧ t.jac s.env s.act 1 0 = 4 := by
  decide

/-- A value changed without the design variable's functions (mapped memory, `GenericScalar::setValue`): the cache keeps the old
value. -/
theorem C56_poke_counterexample :
    let t : T ℤ ℤ := .cache 0 (exDefs 0)
    let s := run (start exDefs (fun _ => 2) fun _ => false) [.evalV t, .poke 0 3]
    (t.evalV s).1 = 4 ∧ t.val s.env = 9 := by
  decide

/-- A piecewise expression: the cache is registered with the variables of the branch that was active when it was made, so it
misses updates of the others. -/
theorem C56_piecewise_counterexample :
    let a : T ℤ ℤ := .pw (fun e => decide (0 < e 2)) (.dv 0) (.dv 1)
    let t : T ℤ ℤ := .cache 0 a
    let s := run (start (fun _ => a) (fun _ => 1) fun _ => true) [.evalV t, .change 2 (-1), .change 1 8]
    (t.evalV s).1 = 1 ∧ t.val s.env = 8 := by
  decide

/-! Concurrent readers. -/

/-- What holds between any two steps. -/
structure Con.Inv (value : V) (s : Con V) : Prop where
  flag : s.flag = true → s.v = some value
  read : ∀ t, (s.pc t = .read ∨ s.pc t = .unlock) → s.flag = true
  held : ∀ t, (s.pc t = .check2 ∨ s.pc t = .compute ∨ s.pc t = .writing ∨ s.pc t = .setFlag ∨ s.pc t = .unlock) → s.holder = some t
  unset : ∀ t, (s.pc t = .compute ∨ s.pc t = .writing ∨ s.pc t = .setFlag) → s.flag = false
  written : ∀ t, s.pc t = .setFlag → s.v = some value
  done : ∀ t r, s.pc t = .done r → r = some value

theorem Con.step_inv {value : V} {s s' : Con V} {t : Nat} (hi : s.Inv value) (h : s.step value t = some s') : s'.Inv value := by
  obtain ⟨h1, h2, h3, h4, h5, h6⟩ := hi
  have other : ∀ (p : Pc V) (u : Nat), u ≠ t → (s.set t p).pc u = s.pc u := fun p u hu => by simp [Con.set, hu]
  have own : ∀ p : Pc V, (s.set t p).pc t = p := fun p => by simp [Con.set]
  unfold Con.step at h
  cases hpc : s.pc t with
  | check =>
    simp only [hpc, Option.some.injEq] at h
    subst h
    cases hf : s.flag with
    | true =>
      refine ⟨h1, fun u hu => hf, fun u hu => ?_, fun u hu => ?_, fun u hu => ?_, fun u r hu => ?_⟩ <;>
        by_cases hut : u = t <;> simp only [Con.set, hut, if_true, if_false, reduceCtorEq, or_self, hf] at hu ⊢
      · exact h3 u hu
      · exact absurd (h4 u hu) (by simp [hf])
      · exact h5 u hu
      · exact h6 u r hu
    | false =>
      refine ⟨fun h => absurd h (by simp [Con.set, hf]), fun u hu => ?_, fun u hu => ?_, fun u hu => hf, fun u hu => ?_, fun u r hu => ?_⟩ <;>
        by_cases hut : u = t <;> simp only [Con.set, hut, if_true, if_false, reduceCtorEq, or_self, hf, Bool.false_eq_true] at hu ⊢
      · exact absurd (h2 u hu) (by simp [hf])
      · exact h3 u hu
      · exact h5 u hu
      · exact h6 u r hu
  | lock =>
    simp only [hpc] at h
    split at h
    · rename_i hh
      simp only [Option.some.injEq] at h
      subst h
      refine ⟨h1, fun u hu => ?_, fun u hu => ?_, fun u hu => ?_, fun u hu => ?_, fun u r hu => ?_⟩ <;>
        by_cases hut : u = t <;> simp only [Con.set, hut, if_true, if_false, reduceCtorEq, or_self] at hu ⊢
      · exact h2 u hu
      · exact absurd (h3 u hu) (by simp [hh])
      · exact h4 u hu
      · exact h5 u hu
      · exact h6 u r hu
    · cases h
  | check2 =>
    have hh : s.holder = some t := h3 t (Or.inl hpc)
    have alone : ∀ u, u ≠ t → ¬(s.pc u = .check2 ∨ s.pc u = .compute ∨ s.pc u = .writing ∨ s.pc u = .setFlag ∨ s.pc u = .unlock) := by
      intro u hu hc
      have := h3 u hc
      rw [hh] at this
      exact hu (Option.some.inj this).symm
    simp only [hpc, Option.some.injEq] at h
    subst h
    cases hf : s.flag with
    | true =>
      refine ⟨h1, fun u hu => hf, fun u hu => ?_, fun u hu => ?_, fun u hu => ?_, fun u r hu => ?_⟩ <;>
        by_cases hut : u = t <;> simp only [Con.set, hut, if_true, if_false, reduceCtorEq, or_self, hf] at hu ⊢
      · exact hh
      · exact absurd hu (alone u hut)
      · exact absurd (h4 u hu) (by simp [hf])
      · exact h5 u hu
      · exact h6 u r hu
    | false =>
      refine ⟨fun h => absurd h (by simp [Con.set, hf]), fun u hu => ?_, fun u hu => ?_, fun u hu => hf, fun u hu => ?_, fun u r hu => ?_⟩ <;>
        by_cases hut : u = t <;> simp only [Con.set, hut, if_true, if_false, reduceCtorEq, or_self, hf, Bool.false_eq_true] at hu ⊢
      · exact absurd (h2 u hu) (by simp [hf])
      · exact hh
      · exact absurd hu (alone u hut)
      · exact h5 u hu
      · exact h6 u r hu
  | compute =>
    have hh : s.holder = some t := h3 t (Or.inr (Or.inl hpc))
    have alone : ∀ u, u ≠ t → ¬(s.pc u = .check2 ∨ s.pc u = .compute ∨ s.pc u = .writing ∨ s.pc u = .setFlag ∨ s.pc u = .unlock) := by
      intro u hu hc
      have := h3 u hc
      rw [hh] at this
      exact hu (Option.some.inj this).symm
    have hf : s.flag = false := h4 t (Or.inl hpc)
    simp only [hpc, Option.some.injEq] at h
    subst h
    refine ⟨fun h => absurd h (by simp [Con.set, hf]), fun u hu => ?_, fun u hu => ?_, fun u hu => hf, fun u hu => ?_, fun u r hu => ?_⟩ <;>
      by_cases hut : u = t <;> simp only [Con.set, hut, if_true, if_false, reduceCtorEq, or_self, hf, Bool.false_eq_true] at hu ⊢
    · exact absurd (h2 u hu) (by simp [hf])
    · exact hh
    · exact absurd hu (alone u hut)
    · exact absurd (Or.inr (Or.inr (Or.inr (Or.inl hu)))) (alone u hut)
    · exact h6 u r hu
  | writing =>
    have hh : s.holder = some t := h3 t (Or.inr (Or.inr (Or.inl hpc)))
    have alone : ∀ u, u ≠ t → ¬(s.pc u = .check2 ∨ s.pc u = .compute ∨ s.pc u = .writing ∨ s.pc u = .setFlag ∨ s.pc u = .unlock) := by
      intro u hu hc
      have := h3 u hc
      rw [hh] at this
      exact hu (Option.some.inj this).symm
    have hf : s.flag = false := h4 t (Or.inr (Or.inl hpc))
    simp only [hpc, Option.some.injEq] at h
    subst h
    refine ⟨fun h => rfl, fun u hu => ?_, fun u hu => ?_, fun u hu => hf, fun u hu => rfl, fun u r hu => ?_⟩ <;>
      by_cases hut : u = t <;> simp only [Con.set, hut, if_true, if_false, reduceCtorEq, or_self, hf, Bool.false_eq_true] at hu ⊢
    · exact absurd (h2 u hu) (by simp [hf])
    · exact hh
    · exact absurd hu (alone u hut)
    · exact h6 u r hu
  | setFlag =>
    have hh : s.holder = some t := h3 t (Or.inr (Or.inr (Or.inr (Or.inl hpc))))
    have alone : ∀ u, u ≠ t → ¬(s.pc u = .check2 ∨ s.pc u = .compute ∨ s.pc u = .writing ∨ s.pc u = .setFlag ∨ s.pc u = .unlock) := by
      intro u hu hc
      have := h3 u hc
      rw [hh] at this
      exact hu (Option.some.inj this).symm
    have hv : s.v = some value := h5 t hpc
    simp only [hpc, Option.some.injEq] at h
    subst h
    refine ⟨fun h => hv, fun u hu => rfl, fun u hu => ?_, fun u hu => ?_, fun u hu => hv, fun u r hu => ?_⟩ <;>
      by_cases hut : u = t <;> simp only [Con.set, hut, if_true, if_false, reduceCtorEq, or_self] at hu ⊢
    · exact hh
    · exact absurd hu (alone u hut)
    · refine absurd ?_ (alone u hut)
      rcases hu with h | h | h
      · exact Or.inr (Or.inl h)
      · exact Or.inr (Or.inr (Or.inl h))
      · exact Or.inr (Or.inr (Or.inr (Or.inl h)))
    · exact h6 u r hu
  | unlock =>
    have hh : s.holder = some t := h3 t (Or.inr (Or.inr (Or.inr (Or.inr hpc))))
    have alone : ∀ u, u ≠ t → ¬(s.pc u = .check2 ∨ s.pc u = .compute ∨ s.pc u = .writing ∨ s.pc u = .setFlag ∨ s.pc u = .unlock) := by
      intro u hu hc
      have := h3 u hc
      rw [hh] at this
      exact hu (Option.some.inj this).symm
    have hf : s.flag = true := h2 t (Or.inr hpc)
    simp only [hpc, Option.some.injEq] at h
    subst h
    refine ⟨h1, fun u hu => hf, fun u hu => ?_, fun u hu => ?_, fun u hu => ?_, fun u r hu => ?_⟩ <;>
      by_cases hut : u = t <;> simp only [Con.set, hut, if_true, if_false, reduceCtorEq, or_self] at hu ⊢
    · exact absurd hu (alone u hut)
    · exact h4 u hu
    · exact h5 u hu
    · exact h6 u r hu
  | read =>
    have hf : s.flag = true := h2 t (Or.inl hpc)
    simp only [hpc, Option.some.injEq] at h
    subst h
    refine ⟨h1, fun u hu => hf, fun u hu => ?_, fun u hu => ?_, fun u hu => ?_, fun u r hu => ?_⟩ <;>
      by_cases hut : u = t <;> simp only [Con.set, hut, if_true, if_false, reduceCtorEq, or_self] at hu ⊢
    · exact h3 u hu
    · exact h4 u hu
    · exact h5 u hu
    · cases hu
      exact h1 hf
    · exact h6 u r hu
  | done r => simp only [hpc, reduceCtorEq] at h

theorem Con.run_inv {value : V} : ∀ (ts : List Nat) (s : Con V), s.Inv value → (s.run value ts).Inv value
  | [], _, hi => hi
  | t :: ts, s, hi => by
    rw [Con.run]
    cases h : s.step value t with
    | none => exact Con.run_inv ts s hi
    | some s' => exact Con.run_inv ts s' (Con.step_inv hi h)

theorem Con.start_inv {value : V} {cached : Option V} (hc : ∀ x, cached = some x → x = value) : (Con.start cached).Inv value := by
  refine ⟨fun h => ?_, fun u hu => ?_, fun u hu => ?_, fun u hu => ?_, fun u hu => ?_, fun u r hu => ?_⟩
  · cases cached with
    | none => cases h
    | some x => exact congrArg some (hc x rfl)
  all_goals simp [Con.start] at hu

/-- Any number of threads evaluating a cached expression at once, interleaved in any way: every thread that returns has the
value of the expression, never a value being written; and only one thread computes it at a time.  Partial: accesses to
the members are taken to be atomic and sequentially consistent (see the counterexample). -/
theorem C56_concurrent_partial (value : V) (cached : Option V) (hc : ∀ x, cached = some x → x = value) (schedule : List Nat) :
    (∀ t r, ((Con.start cached).run value schedule).pc t = .done r → r = some value) ∧
    ∀ t u, ((Con.start cached).run value schedule).pc t = .writing → ((Con.start cached).run value schedule).pc u = .writing → t = u := by
  have hi := Con.run_inv schedule _ (Con.start_inv hc)
  refine ⟨hi.done, fun t u ht hu => ?_⟩
  have h1 := hi.held t (Or.inr (Or.inr (Or.inl ht)))
  have h2 := hi.held u (Or.inr (Or.inr (Or.inl hu)))
  rw [h1] at h2
  exact Option.some.inj h2

/-- While a thread writes the value no thread reads it. -/
theorem C56_concurrent_exclusive_partial (value : V) (cached : Option V) (hc : ∀ x, cached = some x → x = value) (schedule : List Nat)
    (t u : Nat) (ht : ((Con.start cached).run value schedule).pc t = .writing ∨ ((Con.start cached).run value schedule).pc t = .compute) :
    ((Con.start cached).run value schedule).pc u ≠ .read := by
  have hi := Con.run_inv schedule _ (Con.start_inv hc)
  intro hu
  have h1 := hi.unset t (by rcases ht with h | h; exacts [Or.inr (Or.inl h), Or.inl h])
  rw [hi.read u (Or.inl hu)] at h1
  cases h1

/-- The thread is between acquiring and releasing the lock. -/
def Pc.Inside : Pc V → Prop
  | .check2 => True
  | .compute => True
  | .writing => True
  | .setFlag => True
  | .unlock => True
  | _ => False

theorem Con.step_inside {value : V} {s s' : Con V} {t : Nat} (hi : ∀ u, s.holder = some u → (s.pc u).Inside) (h : s.step value t = some s') :
    ∀ u, s'.holder = some u → (s'.pc u).Inside := by
  intro u hu
  unfold Con.step at h
  by_cases hut : u = t
  · subst hut
    cases hpc : s.pc u <;> simp only [hpc] at h
    case lock =>
      split at h
      · cases h
        simp [Con.set, Pc.Inside]
      · cases h
    case check2 =>
      cases h
      cases hf : s.flag <;> simp [Con.set, Pc.Inside]
    case done => cases h
    all_goals
      cases h
      first
        | simp [Con.set, Pc.Inside]; done
        | (have := hi u hu; rw [hpc] at this; exact this.elim)
        | (simp [Con.set] at hu; done)
  · have hpc : s'.pc u = s.pc u := by
      cases hpt : s.pc t <;> simp only [hpt] at h
      case lock =>
        split at h
        · cases h
          simp [Con.set, hut]
        · cases h
      case done => cases h
      all_goals
        cases h
        simp [Con.set, hut]
    rw [hpc]
    refine hi u ?_
    cases hpt : s.pc t <;> simp only [hpt] at h
    case lock =>
      split at h
      · cases h
        simp only [Con.set, Option.some.injEq] at hu
        exact absurd hu.symm hut
      · cases h
    case unlock =>
      cases h
      simp [Con.set] at hu
    case done => cases h
    all_goals
      cases h
      exact hu

/-- No schedule ends in a deadlock: as long as some thread has not returned some thread can move, and when a thread holds the
lock it is still inside. -/
theorem C56_concurrent_progress (value : V) (cached : Option V) (schedule : List Nat) (t : Nat)
    (ht : ∀ r, ((Con.start cached).run value schedule).pc t ≠ .done r) :
    ∃ u s', ((Con.start cached).run value schedule).step value u = some s' := by
  have key : ∀ (ts : List Nat) (s : Con V), (∀ u, s.holder = some u → (s.pc u).Inside) →
      ∀ u, (s.run value ts).holder = some u → ((s.run value ts).pc u).Inside := by
    intro ts
    induction ts with
    | nil => exact fun s h => h
    | cons t ts ih =>
      intro s h
      rw [Con.run]
      cases hs : s.step value t with
      | none => exact ih s h
      | some s' => exact ih s' (Con.step_inside h hs)
  have hh := key schedule (Con.start cached) (fun u hu => by simp [Con.start] at hu)
  generalize (Con.start cached).run value schedule = s at ht hh
  cases hpc : s.pc t with
  | lock =>
    cases hho : s.holder with
    | none => exact ⟨t, _, by simp only [Con.step, hpc, hho, if_true]; rfl⟩
    | some u =>
      have hin := hh u hho
      cases hu : s.pc u with
      | check2 => exact ⟨u, _, by simp only [Con.step, hu]; rfl⟩
      | compute => exact ⟨u, _, by simp only [Con.step, hu]; rfl⟩
      | writing => exact ⟨u, _, by simp only [Con.step, hu]; rfl⟩
      | setFlag => exact ⟨u, _, by simp only [Con.step, hu]; rfl⟩
      | unlock => exact ⟨u, _, by simp only [Con.step, hu]; rfl⟩
      | _ => rw [hu] at hin; exact hin.elim
  | done r => exact absurd hpc (ht r)
  | _ => exact ⟨t, _, by simp only [Con.step, hpc]; rfl⟩

/-- Two threads: both find the cache invalid, the first computes, the second waits for the lock and then finds it valid. -/
example : ((Con.start (none : Option Nat)).run 7 [0, 1, 0, 1, 0, 0, 0, 0, 0, 1, 1, 1, 1, 0]).pc 0 = .done (some 7) ∧
    ((Con.start (none : Option Nat)).run 7 [0, 1, 0, 1, 0, 0, 0, 0, 0, 1, 1, 1, 1, 0]).pc 1 = .done (some 7) := ⟨rfl, rfl⟩

/-- The flag is a plain `bool` read outside the lock: two threads reach a state in which one is about to write it while the other
is about to read it, with nothing to order the two accesses.  That is a data race, so undefined behaviour in C++. -/
theorem C56_race_counterexample (value : V) : ∃ schedule : List Nat,
    let s := (Con.start (none : Option V)).run value schedule
    s.pc 0 = .setFlag ∧ s.pc 1 = .check := ⟨[0, 0, 0, 0, 0], rfl, rfl⟩

end Verif.Cache
