import Verif.Text.Model
import Mathlib.Data.Real.Basic
import Mathlib.LinearAlgebra.CrossProduct

/-!
C101: the text of an expression can be read back.
-/
namespace Verif.Text
open Verif.Expr (Node Ty Val)

/-! ### The grammar -/

mutual
/-- The text of one node: `<>`, a string, `name=value` or `name(args)=value`. -/
def spell : Vis → List Char
  | .null => ['<', '>']
  | .str s => s
  | .node name [] value => name ++ '=' :: value
  | .node name (a :: as) value => name ++ '(' :: (spells (a :: as) ++ ')' :: '=' :: value)
/-- Arguments separated by comma and space. -/
def spells : List Vis → List Char
  | [] => []
  | [a] => spell a
  | a :: b :: as => spell a ++ ',' :: ' ' :: spells (b :: as)
end

/-- The characters that structure the text. -/
def special (c : Char) : Prop := c = '(' ∨ c = ')' ∨ c = '=' ∨ c = ','

/-- The characters that end a value. -/
def ending (c : Char) : Prop := c = ')' ∨ c = ','

mutual
/-- Names without structuring characters, values without the characters that end them, and no string that looks like a null pointer. -/
def Clean : Vis → Prop
  | .null => True
  | .str s => (∀ c ∈ s, ¬special c) ∧ s ≠ ['<', '>']
  | .node name args value => (∀ c ∈ name, ¬special c) ∧ (∀ c ∈ value, ¬ending c) ∧ Cleans args
def Cleans : List Vis → Prop
  | [] => True
  | a :: as => Clean a ∧ Cleans as
end

mutual
theorem write_spell (text : List Char) : ∀ t, write text t = text ++ spell t
  | .null => rfl
  | .str s => rfl
  | .node name [] value => by simp [write, spell]
  | .node name (a :: as) value => by
    have := writeArgs_spells (text ++ name ++ ['(']) (a :: as)
    simp only [write, List.isEmpty_cons, Bool.false_eq_true, if_false, this]; simp [spell]
theorem writeArgs_spells (text : List Char) : ∀ ts, writeArgs text ts = text ++ spells ts
  | [] => by simp [writeArgs, spells]
  | [a] => by simp [writeArgs, spells, write_spell text a]
  | a :: b :: as => by
    have := writeArgs_spells (write text a ++ [',', ' ']) (b :: as)
    rw [writeArgs]
    simp only [List.isEmpty_cons, Bool.false_eq_true, if_false]
    rw [this, write_spell text a]
    simp [spells]
end

/-- **C101, stream.** After any number of expressions the text is the concatenation of their texts: a visitor that is used twice shows both, without
separator. -/
theorem C101_stream (ts : List Vis) : getText ts = (ts.map spell).flatten := by
  unfold getText
  suffices h : ∀ text, ts.foldl write text = text ++ (ts.map spell).flatten by simpa using h []
  induction ts with
  | nil => simp
  | cons t ts ih => intro text; simp [ih, write_spell]

/-- **C101, arguments.** Argument number `i` of a node is the one given at position `i`; other numbers raise an exception. -/
theorem C101_arguments (args : List Vis) (i : Nat) : argument args i = if h : i < args.length then .ok (some args[i]) else .exc := by
  have key : ∀ I, I ≤ args.length → visitArg args i I = if i < I then args[i]? else none := by
    intro I
    induction I with
    | zero => intro _; rfl
    | succ I ih =>
      intro hI
      rw [visitArg]
      by_cases h : I = i
      · subst h; simp
      · rw [if_neg h, ih (by omega)]
        by_cases h' : i < I
        · rw [if_pos h', if_pos (by omega)]
        · rw [if_neg h', if_neg (by omega)]
  unfold argument
  by_cases h : i < args.length
  · rw [if_neg (by omega), key _ (le_refl _), if_pos h, dif_pos h, List.getElem?_eq_getElem h]
  · rw [if_pos (by omega), dif_neg h]

/-! ### Reading back -/

theorem split {p : Char → Prop} {s₁ s₂ r₁ r₂ : List Char} (h₁ : ∀ c ∈ s₁, ¬p c) (h₂ : ∀ c ∈ s₂, ¬p c) (hr₁ : ∀ c, r₁.head? = some c → p c)
    (hr₂ : ∀ c, r₂.head? = some c → p c) (h : s₁ ++ r₁ = s₂ ++ r₂) : s₁ = s₂ ∧ r₁ = r₂ := by
  induction s₁ generalizing s₂ with
  | nil =>
    cases s₂ with
    | nil => exact ⟨rfl, h⟩
    | cons c s₂ =>
      simp only [List.nil_append, List.cons_append] at h
      exact absurd (hr₁ c (by rw [h]; rfl)) (h₂ c (List.mem_cons_self ..))
  | cons c s₁ ih =>
    cases s₂ with
    | nil =>
      simp only [List.nil_append, List.cons_append] at h
      exact absurd (hr₂ c (by rw [← h]; rfl)) (h₁ c (List.mem_cons_self ..))
    | cons c' s₂ =>
      simp only [List.cons_append, List.cons.injEq] at h
      obtain ⟨rfl, h⟩ := h
      obtain ⟨rfl, hr⟩ := ih (fun c hc => h₁ c (List.mem_cons_of_mem _ hc)) (fun c hc => h₂ c (List.mem_cons_of_mem _ hc)) h
      exact ⟨rfl, hr⟩

/-- The text ends here or goes on with an ending character. -/
def Stop (r : List Char) : Prop := ∀ c, r.head? = some c → ending c

theorem Stop.special {r : List Char} (h : Stop r) : ∀ c, r.head? = some c → special c := fun c hc => by
  rcases h c hc with rfl | rfl <;> simp [Text.special]

/-- The name part. -/
def hd : Vis → List Char
  | .null => ['<', '>']
  | .str s => s
  | .node name _ _ => name

/-- The rest. -/
def tl : Vis → List Char
  | .node _ [] value => '=' :: value
  | .node _ (a :: as) value => '(' :: (spells (a :: as) ++ ')' :: '=' :: value)
  | _ => []

theorem spell_eq (t : Vis) : spell t = hd t ++ tl t := by
  rcases t with _ | s | ⟨name, args, value⟩
  · rfl
  · simp [spell, hd, tl]
  · cases args <;> simp [spell, hd, tl]

theorem hd_clean {t : Vis} (h : Clean t) : ∀ c ∈ hd t, ¬special c := by
  rcases t with _ | s | ⟨name, args, value⟩
  · intro c hc
    simp only [hd, List.mem_cons, List.not_mem_nil, or_false] at hc
    rcases hc with rfl | rfl <;> simp [special]
  · exact h.1
  · exact h.1

theorem tl_special {t : Vis} {r : List Char} (hr : Stop r) : ∀ c, (tl t ++ r).head? = some c → special c := by
  intro c hc
  rcases t with _ | s | ⟨name, args, value⟩
  · exact hr.special c hc
  · exact hr.special c hc
  · cases args <;> (simp [tl] at hc; subst hc; simp [special])

mutual
theorem read : ∀ (t u : Vis) (r₁ r₂ : List Char), Clean t → Clean u → Stop r₁ → Stop r₂ → spell t ++ r₁ = spell u ++ r₂ → t = u ∧ r₁ = r₂
  | t, u, r₁, r₂, ht, hu, h₁, h₂, h => by
    rw [spell_eq, spell_eq, List.append_assoc, List.append_assoc] at h
    obtain ⟨hh, hr⟩ := split (hd_clean ht) (hd_clean hu) (tl_special h₁) (tl_special h₂) h
    match t, u with
    | .null, .null => exact ⟨rfl, hr⟩
    | .null, .str s => exact absurd hh.symm hu.2
    | .str s, .null => exact absurd hh ht.2
    | .str s, .str s' => exact ⟨congrArg _ hh, hr⟩
    | .null, .node _ [] _ => exact absurd (h₁ '=' (by simp only [tl, List.nil_append] at hr; rw [hr]; rfl)) (by simp [ending])
    | .null, .node _ (_ :: _) _ => exact absurd (h₁ '(' (by simp only [tl, List.nil_append] at hr; rw [hr]; rfl)) (by simp [ending])
    | .str _, .node _ [] _ => exact absurd (h₁ '=' (by simp only [tl, List.nil_append] at hr; rw [hr]; rfl)) (by simp [ending])
    | .str _, .node _ (_ :: _) _ => exact absurd (h₁ '(' (by simp only [tl, List.nil_append] at hr; rw [hr]; rfl)) (by simp [ending])
    | .node _ [] _, .null => exact absurd (h₂ '=' (by simp only [tl, List.nil_append] at hr; rw [← hr]; rfl)) (by simp [ending])
    | .node _ (_ :: _) _, .null => exact absurd (h₂ '(' (by simp only [tl, List.nil_append] at hr; rw [← hr]; rfl)) (by simp [ending])
    | .node _ [] _, .str _ => exact absurd (h₂ '=' (by simp only [tl, List.nil_append] at hr; rw [← hr]; rfl)) (by simp [ending])
    | .node _ (_ :: _) _, .str _ => exact absurd (h₂ '(' (by simp only [tl, List.nil_append] at hr; rw [← hr]; rfl)) (by simp [ending])
    | .node n [] v, .node n' [] v' =>
      simp only [hd] at hh
      simp only [tl, List.cons_append, List.cons.injEq, true_and] at hr
      obtain ⟨hv, hrr⟩ := split ht.2.1 hu.2.1 h₁ h₂ hr
      exact ⟨by rw [hh, hv], hrr⟩
    | .node n [] v, .node n' (b :: bs) v' => simp [tl] at hr
    | .node n (a :: as) v, .node n' [] v' => simp [tl] at hr
    | .node n (a :: as) v, .node n' (b :: bs) v' =>
      simp only [hd] at hh
      simp only [tl, List.cons_append, List.cons.injEq, true_and, List.append_assoc] at hr
      obtain ⟨hab, hr⟩ := reads (a :: as) (b :: bs) _ _ (by simp) (by simp) ht.2.2 hu.2.2 hr
      simp only [List.cons.injEq, true_and] at hr
      obtain ⟨hv, hrr⟩ := split ht.2.1 hu.2.1 h₁ h₂ hr
      exact ⟨by rw [hh, hab, hv], hrr⟩

theorem reads : ∀ (as bs : List Vis) (x y : List Char), as ≠ [] → bs ≠ [] → Cleans as → Cleans bs → spells as ++ ')' :: x = spells bs ++ ')' :: y → as = bs ∧ x = y
  | [], _, _, _, h, _, _, _, _ => absurd rfl h
  | _ :: _, [], _, _, _, h, _, _, _ => absurd rfl h
  | [a], [b], x, y, _, _, ha, hb, h => by
    obtain ⟨hab, hk⟩ := read a b _ _ ha.1 hb.1 (by intro c hc; cases hc; exact .inl rfl) (by intro c hc; cases hc; exact .inl rfl) h
    exact ⟨by rw [hab], by simpa using hk⟩
  | [a], b :: b' :: bs, x, y, _, _, ha, hb, h => by
    simp only [spells, List.append_assoc, List.cons_append] at h
    obtain ⟨hab, hk⟩ := read a b _ _ ha.1 hb.1 (by intro c hc; cases hc; exact .inl rfl) (by intro c hc; cases hc; exact .inr rfl) h
    simp at hk
  | a :: a' :: as, [b], x, y, _, _, ha, hb, h => by
    simp only [spells, List.append_assoc, List.cons_append] at h
    obtain ⟨hab, hk⟩ := read a b _ _ ha.1 hb.1 (by intro c hc; cases hc; exact .inr rfl) (by intro c hc; cases hc; exact .inl rfl) h
    simp at hk
  | a :: a' :: as, b :: b' :: bs, x, y, _, _, ha, hb, h => by
    simp only [spells, List.append_assoc, List.cons_append] at h
    obtain ⟨hab, hk⟩ := read a b _ _ ha.1 hb.1 (by intro c hc; cases hc; exact .inr rfl) (by intro c hc; cases hc; exact .inr rfl) h
    simp only [List.cons.injEq, true_and] at hk
    obtain ⟨he, hx⟩ := reads (a' :: as) (b' :: bs) x y (by simp) (by simp) ha.2 hb.2 hk
    exact ⟨by rw [hab, he], hx⟩
end

/-- **C101, reading back** (partial: names and values without structuring characters). Two trees with the same text have the same names, the same arguments in
the same order, the same null pointers and the same values at every node. -/
theorem C101_unique_partial (t u : Vis) (ht : Clean t) (hu : Clean u) (h : getText [t] = getText [u]) : t = u := by
  simp only [C101_stream, List.map_cons, List.map_nil, List.flatten_cons, List.flatten_nil] at h
  exact (read t u [] [] ht hu (by intro c hc; cases hc) (by intro c hc; cases hc) h).1

/-- `+(#=3, TB(C=r, <>)=t)=8` is clean. -/
theorem exClean : Clean (.node ['+'] [.node ['#'] [] ['3'], .node ['T', 'B'] [.node ['C'] [] ['r'], .null] ['t']] ['8']) := by
  simp [Clean, Cleans, special, ending]

example := C101_unique_partial _ _ exClean exClean rfl

example : getText [.node ['+'] [.node ['#'] [] ['3'], .node ['T', 'B'] [.node ['C'] [] ['r'], .null] ['t']] ['8']] = "+(#=3, TB(C=r, <>)=t)=8".toList := by
  simp [C101_stream, spell, spells]

/-- **C101, reading back with any names.** Names and values are written as they are, without quotes. A sum of two nodes called `a=2, b` and `c` shows the
same text as a sum of nodes called `a` and `b=2, c` and as a sum of three. -/
theorem C101_delimiters_counterexample : ∃ t u w : Vis, t ≠ u ∧ t ≠ w ∧ u ≠ w ∧ getText [t] = getText [u] ∧ getText [t] = getText [w] := by
  refine ⟨.node ['+'] [.node "a=2, b".toList [] ['2'], .node ['c'] [] ['3']] ['5'], .node ['+'] [.node ['a'] [] ['2'], .node "b=2, c".toList [] ['3']] ['5'],
    .node ['+'] [.node ['a'] [] ['2'], .node ['b'] [] ['2'], .node ['c'] [] ['3']] ['5'], by simp, by simp, by simp, ?_, ?_⟩ <;>
    simp [C101_stream, spell, spells]

/-! ### Expressions -/

/-- The value that ends the text of a node. -/
def valueOf : Vis → Option (List Char)
  | .node _ _ v => some v
  | _ => none

theorem shown_ok {P : Printer} {ty : Ty} {name : String} {v : Res (Val ty)} {args : List Vis} {t : Vis} (h : shown P name v args = .ok t) :
    ∃ x, v = .ok x ∧ valueOf t = some (P.value ty x) := by
  unfold shown at h
  cases v with
  | ok x =>
    simp only [bind, Res.bind, Res.ok.injEq] at h
    exact ⟨x, rfl, by rw [← h]; rfl⟩
  | exc => cases h
  | ub => cases h

theorem bind_ok {α β : Type} {x : Res α} {f : α → Res β} {y : β} (h : (x >>= f) = .ok y) : ∃ a, x = .ok a ∧ f a = .ok y := by
  cases x with
  | ok a => exact ⟨a, rfl, h⟩
  | exc => cases h
  | ub => cases h

/-- **C101, values.** The text of an expression ends with the printed value of that expression at the moment of the visit, or the node shows no value at all. -/
theorem C101_value (P : Printer) (env : Expr.Env) {ty : Ty} (e : Node ty) (t : Vis) (h : tree P env e = .ok t) (p : List Char) (hp : valueOf t = some p) :
    ∃ x, Expr.val env e = .ok x ∧ p = P.value ty x := by
  have fin : ∀ {name : String} {args : List Vis}, shown P name (Expr.val env e) args = .ok t → ∃ x, Expr.val env e = .ok x ∧ p = P.value ty x := by
    intro name args hs
    obtain ⟨x, hx, hv⟩ := shown_ok hs
    exact ⟨x, hx, Option.some.inj (hp.symm.trans hv)⟩
  have none : ∀ {s : List Char}, Res.ok (Vis.str s) = .ok t → ∃ x, Expr.val env e = .ok x ∧ p = P.value ty x := by
    intro s hs; cases hs; cases hp
  have none' : Res.ok Vis.null = .ok t → ∃ x, Expr.val env e = .ok x ∧ p = P.value ty x := by
    intro hs; cases hs; cases hp
  cases e
  case sun f a =>
    cases f
    case neg => rw [tree] at h; obtain ⟨_, _, h⟩ := bind_ok h; exact fin h
    all_goals (rw [tree] at h <;> first | exact none h | (intros; contradiction) | (intro _ hx; simp at hx))
  all_goals first
    | (rw [tree] at h <;> first | exact fin h | exact none h | exact none' h | (intros; contradiction))
    | (rw [tree] at h; obtain ⟨_, _, h⟩ := bind_ok h; exact fin h)
    | (rw [tree] at h; obtain ⟨_, _, h⟩ := bind_ok h; obtain ⟨_, _, h⟩ := bind_ok h; exact fin h)
    | (rw [tree] at h; obtain ⟨_, _, h⟩ := bind_ok h; obtain ⟨_, _, h⟩ := bind_ok h; obtain ⟨_, _, h⟩ := bind_ok h; exact fin h)

/-! ### What the text says -/

/-- The value that the notation gives to a tree: signs are operators, `#` with three arguments is the vector of them, `TB` is a pose of a rotation and a translation where `<>` stands for the one that
changes nothing; nodes without arguments have the value they print and every other node prints the value of its operator. A plain string can be any number. -/
inductive Means (P : Printer) : (ty : Ty) → Vis → Val ty → Prop
  | str (s : List Char) (x : ℝ) : Means P .S (.str s) x
  | leaf {ty : Ty} (name : List Char) (x : Val ty) : Means P ty (.node name [] (P.value ty x)) x
  | mul {t u : Vis} {x y : ℝ} : Means P .S t x → Means P .S u y → Means P .S (.node ['*'] [t, u] (P.value .S (x * y : ℝ))) (x * y : ℝ)
  | div {t u : Vis} {x y : ℝ} : Means P .S t x → Means P .S u y → Means P .S (.node ['/'] [t, u] (P.value .S (x / y : ℝ))) (x / y : ℝ)
  | add {t u : Vis} {x y : ℝ} : Means P .S t x → Means P .S u y → Means P .S (.node ['+'] [t, u] (P.value .S (x + y : ℝ))) (x + y : ℝ)
  | neg {t : Vis} {x : ℝ} : Means P .S t x → Means P .S (.node ['-'] [t] (P.value .S (-x : ℝ))) (-x : ℝ)
  | vec {t u v : Vis} {x y z : ℝ} : Means P .S t x → Means P .S u y → Means P .S v z → Means P .E (.node ['#'] [t, u, v] (P.value .E ![x, y, z])) ![x, y, z]
  | sum {t u : Vis} {x y : Geo.V3} : Means P .E t x → Means P .E u y → Means P .E (.node ['+'] [t, u] (P.value .E (x + y))) (x + y)
  | cross {t u : Vis} {x y : Geo.V3} : Means P .E t x → Means P .E u y → Means P .E (.node ['x'] [t, u] (P.value .E (crossProduct x y))) (crossProduct x y)
  | rotate {t u : Vis} {C : Geo.M3} {x : Geo.V3} : Means P .R t C → Means P .E u x → Means P .E (.node ['*'] [t, u] (P.value .E (C.mulVec x))) (C.mulVec x)
  | pose {t u : Vis} {C : Geo.M3} {x : Geo.V3} : Means P .R t C → Means P .E u x → Means P .T (.node ['T', 'B'] [t, u] (P.value .T ⟨C, x⟩)) ⟨C, x⟩
  | rotation {t : Vis} {C : Geo.M3} : Means P .R t C → Means P .T (.node ['T', 'B'] [t, .null] (P.value .T ⟨C, 0⟩)) ⟨C, 0⟩
  | translation {u : Vis} {x : Geo.V3} : Means P .E u x → Means P .T (.node ['T', 'B'] [.null, u] (P.value .T ⟨1, x⟩)) ⟨1, x⟩
  | comp {t u : Vis} {A B : Expr.Pose} : Means P .T t A → Means P .T u B →
      Means P .T (.node ['*'] [t, u] (P.value .T ⟨A.C * B.C, A.C.mulVec B.t + A.t⟩)) ⟨A.C * B.C, A.C.mulVec B.t + A.t⟩
  | inverse {t : Vis} {A : Expr.Pose} : Means P .T t A → Means P .T (.node ['^', '-', '1'] [t] (P.value .T ⟨A.C⁻¹, -A.C⁻¹.mulVec A.t⟩)) ⟨A.C⁻¹, -A.C⁻¹.mulVec A.t⟩

/-- No difference of scalars in the part of the expression that is shown. -/
def Plain : {ty : Ty} → Node ty → Prop
  | _, .smul a b => Plain a ∧ Plain b
  | _, .sdiv a b => Plain a ∧ Plain b
  | _, .sadd a b k => Plain a ∧ Plain b ∧ k = 1
  | _, .sun _ a => Plain a
  | _, .estack a b c => Plain a ∧ Plain b ∧ Plain c
  | _, .eadd a b => Plain a ∧ Plain b
  | _, .ecross a b => Plain a ∧ Plain b
  | _, .erot _ a b => Plain a ∧ Plain b
  | _, .tbasic a b => Plain a ∧ Plain b
  | _, .tbasicR a => Plain a
  | _, .tbasicE b => Plain b
  | _, .tmul _ a b => Plain a ∧ Plain b
  | _, .tinv _ a => Plain a
  | _, _ => True

/-- **C101, meaning** (partial: expressions without differences of scalars, see `C101_difference_counterexample`). The text of an expression, read as a formula, means the value of the expression: its
signs are the operations of the nodes and its arguments are their operands, in their order. -/
theorem C101_meaning_partial (P : Printer) (env : Expr.Env) {ty : Ty} (e : Node ty) (hp : Plain e) (hty : ty ≠ .H ∧ ty ≠ .M) (t : Vis) (h : tree P env e = .ok t)
    (x : Val ty) (hx : Expr.val env e = .ok x) : Means P ty t x := by
  have S : ∀ {ty : Ty} {name : String} {v : Res (Val ty)} {args : List Vis} {t : Vis} {x : Val ty}, shown P name v args = .ok t → v = .ok x → t = .node name.toList args (P.value ty x) := by
    intro ty name v args t x h hv
    rw [hv] at h
    cases h
    rfl
  induction e generalizing t
  case sun f a iha =>
    cases f
    case neg =>
      rw [tree] at h
      obtain ⟨u, hu, h⟩ := bind_ok h
      have := S h hx
      rw [Expr.val] at hx
      obtain ⟨y, hy, hx⟩ := bind_ok hx
      cases hx
      rw [this]
      exact .neg (iha hp (by simp) u hu y hy)
    all_goals (rw [tree] at h <;> first | (cases h; exact .str _ _) | (intros; contradiction) | (intro _ hx; simp at hx))
  case smul a b iha ihb =>
    rw [tree] at h
    obtain ⟨u, hu, h⟩ := bind_ok h
    obtain ⟨v, hv, h⟩ := bind_ok h
    have := S h hx
    rw [Expr.val] at hx
    obtain ⟨y, hy, hx⟩ := bind_ok hx
    obtain ⟨z, hz, hx⟩ := bind_ok hx
    cases hx
    rw [this]
    exact .mul (iha hp.1 (by simp) u hu y hy) (ihb hp.2 (by simp) v hv z hz)
  case sdiv a b iha ihb =>
    rw [tree] at h
    obtain ⟨u, hu, h⟩ := bind_ok h
    obtain ⟨v, hv, h⟩ := bind_ok h
    have := S h hx
    rw [Expr.val] at hx
    obtain ⟨y, hy, hx⟩ := bind_ok hx
    obtain ⟨z, hz, hx⟩ := bind_ok hx
    split_ifs at hx
    cases hx
    rw [this]
    exact .div (iha hp.1 (by simp) u hu y hy) (ihb hp.2 (by simp) v hv z hz)
  case sadd a b k iha ihb =>
    rw [tree] at h
    obtain ⟨u, hu, h⟩ := bind_ok h
    obtain ⟨v, hv, h⟩ := bind_ok h
    have := S h hx
    rw [Expr.val] at hx
    obtain ⟨y, hy, hx⟩ := bind_ok hx
    obtain ⟨z, hz, hx⟩ := bind_ok hx
    obtain ⟨h1, h2, rfl⟩ := hp
    rw [one_mul] at hx
    cases hx
    rw [this]
    exact .add (iha h1 (by simp) u hu y hy) (ihb h2 (by simp) v hv z hz)
  case estack a b c iha ihb ihc =>
    rw [tree] at h
    obtain ⟨u, hu, h⟩ := bind_ok h
    obtain ⟨v, hv, h⟩ := bind_ok h
    obtain ⟨w, hw, h⟩ := bind_ok h
    have := S h hx
    rw [Expr.val] at hx
    obtain ⟨x1, h1, hx⟩ := bind_ok hx
    obtain ⟨x2, h2, hx⟩ := bind_ok hx
    obtain ⟨x3, h3, hx⟩ := bind_ok hx
    cases hx
    rw [this]
    exact .vec (iha hp.1 (by simp) u hu x1 h1) (ihb hp.2.1 (by simp) v hv x2 h2) (ihc hp.2.2 (by simp) w hw x3 h3)
  case eadd a b iha ihb =>
    rw [tree] at h
    obtain ⟨u, hu, h⟩ := bind_ok h
    obtain ⟨v, hv, h⟩ := bind_ok h
    have := S h hx
    rw [Expr.val] at hx
    obtain ⟨y, hy, hx⟩ := bind_ok hx
    obtain ⟨z, hz, hx⟩ := bind_ok hx
    cases hx
    rw [this]
    exact .sum (iha hp.1 (by simp) u hu y hy) (ihb hp.2 (by simp) v hv z hz)
  case ecross a b iha ihb =>
    rw [tree] at h
    obtain ⟨u, hu, h⟩ := bind_ok h
    obtain ⟨v, hv, h⟩ := bind_ok h
    have := S h hx
    rw [Expr.val] at hx
    obtain ⟨y, hy, hx⟩ := bind_ok hx
    obtain ⟨z, hz, hx⟩ := bind_ok hx
    rw [Geo.crossMx_mulVec] at hx
    cases hx
    rw [this]
    exact .cross (iha hp.1 (by simp) u hu y hy) (ihb hp.2 (by simp) v hv z hz)
  case erot i a b iha ihb =>
    rw [tree] at h
    obtain ⟨u, hu, h⟩ := bind_ok h
    obtain ⟨v, hv, h⟩ := bind_ok h
    have := S h hx
    rw [Expr.val] at hx
    obtain ⟨y, hy, hx⟩ := bind_ok hx
    obtain ⟨z, hz, hx⟩ := bind_ok hx
    cases hx
    rw [this]
    exact .rotate (iha hp.1 (by simp) u hu y hy) (ihb hp.2 (by simp) v hv z hz)
  case tbasic a b iha ihb =>
    rw [tree] at h
    obtain ⟨u, hu, h⟩ := bind_ok h
    obtain ⟨v, hv, h⟩ := bind_ok h
    have := S h hx
    rw [Expr.val] at hx
    obtain ⟨y, hy, hx⟩ := bind_ok hx
    obtain ⟨z, hz, hx⟩ := bind_ok hx
    cases hx
    rw [this]
    exact .pose (iha hp.1 (by simp) u hu y hy) (ihb hp.2 (by simp) v hv z hz)
  case tbasicR a iha =>
    rw [tree] at h
    obtain ⟨u, hu, h⟩ := bind_ok h
    have := S h hx
    rw [Expr.val] at hx
    obtain ⟨y, hy, hx⟩ := bind_ok hx
    cases hx
    rw [this]
    exact .rotation (iha hp (by simp) u hu y hy)
  case tbasicE a iha =>
    rw [tree] at h
    obtain ⟨u, hu, h⟩ := bind_ok h
    have := S h hx
    rw [Expr.val] at hx
    obtain ⟨y, hy, hx⟩ := bind_ok hx
    cases hx
    rw [this]
    exact .translation (iha hp (by simp) u hu y hy)
  case tmul i a b iha ihb =>
    rw [tree] at h
    obtain ⟨u, hu, h⟩ := bind_ok h
    obtain ⟨v, hv, h⟩ := bind_ok h
    have := S h hx
    rw [Expr.val] at hx
    obtain ⟨y, hy, hx⟩ := bind_ok hx
    obtain ⟨z, hz, hx⟩ := bind_ok hx
    cases hx
    rw [this]
    exact .comp (iha hp.1 (by simp) u hu y hy) (ihb hp.2 (by simp) v hv z hz)
  case tinv i a iha =>
    rw [tree] at h
    obtain ⟨u, hu, h⟩ := bind_ok h
    have := S h hx
    rw [Expr.val] at hx
    obtain ⟨y, hy, hx⟩ := bind_ok hx
    unfold Expr.Pose.inv at hx
    split_ifs at hx
    cases hx
    rw [this]
    exact .inverse (iha hp (by simp) u hu y hy)
  all_goals first
    | exact absurd rfl hty.1
    | exact absurd rfl hty.2
    | (rw [tree] at h <;> first | (have := S h hx; rw [this]; exact .leaf _ _) | (cases h; exact .str _ _) | (intros; contradiction))

/-- **C101, differences.** A difference is shown as a sum: `a - b` has the sign `+` and only its value tells that it is a difference; if `b` has the value zero
the texts of `a - b` and `a + b` are equal. -/
theorem C101_difference_counterexample (P : Printer) (env : Expr.Env) (a b : ℝ) :
    tree P env (.sadd (.sconst a) (.sconst b) (-1)) =
        .ok (.node ['+'] [.node ['#'] [] (P.value .S a), .node ['#'] [] (P.value .S b)] (P.value .S (a - b))) ∧
      tree P env (.sadd (.sconst a) (.sconst 0) (-1)) = tree P env (.sadd (.sconst a) (.sconst 0) 1) := by
  constructor
  · simp [tree, shown, Expr.val, bind, Res.bind, sub_eq_add_neg]
  · simp [tree, shown, Expr.val, bind, Res.bind]

/-- A visit of `a * b` shows the product. -/
example (P : Printer) (env : Expr.Env) (a b : ℝ) :=
  C101_value P env (.smul (.sconst a) (.sconst b)) (.node ['*'] [.node ['#'] [] (P.value .S a), .node ['#'] [] (P.value .S b)] (P.value .S (a * b)))
    (by simp [tree, shown, Expr.val, bind, Res.bind]) _ rfl

/-- A cross product of a stack, with a quotient and a design variable in it, and a constant. -/
example (P : Printer) (env : Expr.Env) (b : ℝ) (hb : b ≠ 0) (v : Geo.V3) : ∃ t, tree P env (.ecross (.estack (.sdiv (.sconst 1) (.sconst b)) (.svar 0) (.sconst 2)) (.econst v)) = .ok t ∧
    Means P .E t (crossProduct ![1 / b, env.sc 0, 2] v) := by
  have h : Expr.val env (.ecross (.estack (.sdiv (.sconst 1) (.sconst b)) (.svar 0) (.sconst 2)) (.econst v)) = .ok (crossProduct ![1 / b, env.sc 0, 2] v) := by
    simp [Expr.val, bind, Res.bind, hb, Geo.crossMx_mulVec]
  have ht : ∃ t, tree P env (.ecross (.estack (.sdiv (.sconst 1) (.sconst b)) (.svar 0) (.sconst 2)) (.econst v)) = .ok t := by
    simp [tree, shown, Expr.val, bind, Res.bind, hb]
  obtain ⟨t, ht⟩ := ht
  exact ⟨t, ht, C101_meaning_partial P env _ (by simp [Plain]) (by simp) t ht _ h⟩

end Verif.Text
