import Verif.FiniteDiff.Model
import Mathlib.Analysis.Calculus.MeanValue
import Mathlib.Analysis.Calculus.Deriv.Pow
import Mathlib.Analysis.SpecialFunctions.Pow.Deriv

/-!
C87: Jacobians by finite differences. C88: the numerical check of Jacobians.
-/
namespace Verif.FiniteDiff

variable {X : Type} {K : Kit X}

/-- The value of each design variable when `dr` is applied to those in the list, from `off` on. -/
def moved (K : Kit X) (dr : Nat → ℝ) : List Nat → Nat → (Nat → X) → Nat → X
  | [], _, cur => cur
  | d :: ds, off, cur => fun e => if e = d then K.plus d (cur d) (part K d off dr) else moved K dr ds (off + K.dim d) cur e

theorem moved_not_mem (dr : Nat → ℝ) {l : List Nat} {off : Nat} {cur : Nat → X} {e : Nat} (h : e ∉ l) : moved K dr l off cur e = cur e := by
  induction l generalizing off with
  | nil => rfl
  | cons d ds ih =>
    simp only [List.mem_cons, not_or] at h
    simp [moved, h.1, ih h.2]

theorem moved_update (dr : Nat → ℝ) {l : List Nat} {off : Nat} {cur : Nat → X} {d e : Nat} {x : X} (h : d ∉ l) (he : e ≠ d) :
    moved K dr l off (Function.update cur d x) e = moved K dr l off cur e := by
  induction l generalizing off with
  | nil => simp [moved, he]
  | cons a as ih =>
    simp only [List.mem_cons, not_or] at h
    simp only [moved]
    split
    · rw [Function.update_of_ne (Ne.symm h.1)]
    · exact ih h.2

theorem updAll_eq (dr : Nat → ℝ) {l : List Nat} {off : Nat} {cur prev : Nat → X} (h : l.Nodup) :
    updAll K dr l off (cur, prev) = (moved K dr l off cur, fun e => if e ∈ l then cur e else prev e) := by
  induction l generalizing off cur prev with
  | nil => simp [updAll, moved]
  | cons d ds ih =>
    obtain ⟨h1, h2⟩ := List.nodup_cons.1 h
    rw [updAll, ih h2]
    refine Prod.ext (funext fun e => ?_) (funext fun e => ?_)
    · simp only [moved]
      split
      · next he => subst he; rw [moved_not_mem _ h1]; simp
      · next he => exact moved_update dr h1 he
    · simp only [List.mem_cons]
      by_cases he : e = d
      · subst he; simp [h1]
      · simp [he]

theorem revAll_eq {l : List Nat} {cur prev : Nat → X} : revAll l (cur, prev) = fun e => if e ∈ l then prev e else cur e := by
  induction l generalizing cur with
  | nil => simp [revAll]
  | cons d ds ih =>
    rw [revAll, ih]
    funext e
    by_cases he : e = d
    · subst he; simp
    · simp [he]

/-- One evaluation of the functor: the error at the moved values; the values are put back. -/
theorem functor_eq (t : Term X) (h : t.dvs.Nodup) (dr : Nat → ℝ) (s : St X) : ∃ prev,
    functor K t dr s = (t.err (moved K dr t.dvs 0 s.cur), ⟨s.cur, prev, t.err (moved K dr t.dvs 0 s.cur)⟩) := by
  refine ⟨fun e => if e ∈ t.dvs then s.cur e else s.prev e, ?_⟩
  simp only [functor, updAll_eq dr h, revAll_eq]
  congr 2
  funext e
  by_cases he : e ∈ t.dvs
  · simp [he]
  · simp [he, moved_not_mem _ he]

theorem columns_eq (t : Term X) (h : t.dvs.Nodup) (η : ℝ) (n : Nat) (s : St X) : ∃ prev e,
    columns K t η n s = (fun r q => if q < n then (t.err (moved K (single q η) t.dvs 0 s.cur) r - t.err (moved K (single q (-η)) t.dvs 0 s.cur) r) / (2 * η) else 0,
      ⟨s.cur, prev, e⟩) := by
  induction n with
  | zero =>
    obtain ⟨p, hp⟩ := functor_eq (K := K) t h (fun _ => 0) s
    exact ⟨p, t.err (moved K (fun _ => 0) t.dvs 0 s.cur), by rw [columns, hp]; simp⟩
  | succ n ih =>
    obtain ⟨p, e, hp⟩ := ih
    obtain ⟨p1, h1⟩ := functor_eq (K := K) t h (single n η) ⟨s.cur, p, e⟩
    obtain ⟨p2, h2⟩ := functor_eq (K := K) t h (single n (-η)) ⟨s.cur, p1, t.err (moved K (single n η) t.dvs 0 s.cur)⟩
    refine ⟨p2, t.err (moved K (single n (-η)) t.dvs 0 s.cur), ?_⟩
    rw [columns, hp]
    simp only at h1 h2 ⊢
    rw [h1]
    simp only
    rw [h2]
    refine Prod.ext (funext fun r => funext fun q => ?_) rfl
    simp only
    by_cases hq : q = n
    · subst hq; simp
    · by_cases hl : q < n
      · simp [hq, hl, Nat.lt_succ_of_lt hl]
      · simp [hq, hl, show ¬ q < n + 1 by omega]

/-- The error when one design variable only is moved, by `τ` along its coordinate `k`. -/
def along (K : Kit X) (t : Term X) (cur : Nat → X) (d k : Nat) (τ : ℝ) : Nat → ℝ := t.err (Function.update cur d (K.plus d (cur d) (single k τ)))

theorem part_single_other {d off c : Nat} (h : c < off ∨ off + K.dim d ≤ c) (τ : ℝ) : part K d off (single c τ) = fun _ => 0 := by
  funext k
  simp only [part, single]
  split
  · rw [if_neg (by omega)]
  · rfl

theorem moved_below (hz : ∀ d x, K.plus d x (fun _ => 0) = x) {l : List Nat} {off c : Nat} (h : c < off) (τ : ℝ) (cur : Nat → X) :
    moved K (single c τ) l off cur = cur := by
  induction l generalizing off with
  | nil => rfl
  | cons d ds ih =>
    funext e
    simp only [moved]
    split
    · next he => rw [part_single_other (Or.inl h), hz, he]
    · rw [ih (by omega)]

theorem part_single_self {d off k : Nat} (hk : k < K.dim d) (τ : ℝ) : part K d off (single (off + k) τ) = single k τ := by
  funext q
  simp only [part, single]
  by_cases hq : q = k
  · subst hq; simp [hk]
  · simp [hq]

theorem moved_single (hz : ∀ d x, K.plus d x (fun _ => 0) = x) {l m : List Nat} {d off k : Nat} (hn : (l ++ d :: m).Nodup) (hk : k < K.dim d) (τ : ℝ)
    (cur : Nat → X) : moved K (single (off + (l.map K.dim).sum + k) τ) (l ++ d :: m) off cur = Function.update cur d (K.plus d (cur d) (single k τ)) := by
  induction l generalizing off with
  | nil =>
    funext e
    simp only [List.nil_append, moved, List.map_nil, List.sum_nil, Nat.add_zero]
    split
    · next he => subst he; rw [part_single_self hk]; simp
    · next he => rw [moved_below hz (by omega), Function.update_of_ne he]
  | cons a as ih =>
    obtain ⟨h1, h2⟩ := List.nodup_cons.1 hn
    funext e
    simp only [List.cons_append, moved, List.map_cons, List.sum_cons]
    split
    · next he =>
      rw [part_single_other (Or.inr (by omega)), hz, he, Function.update_of_ne]
      rintro rfl
      simp at h1
    · have := ih (off := off + K.dim a) h2
      rw [show off + (K.dim a + (as.map K.dim).sum) + k = off + K.dim a + (as.map K.dim).sum + k by omega, this]

theorem blocks_eq (J : Nat → Nat → ℝ) (f : Nat → Nat → Nat → ℝ) (l m : List Nat)
    (h : ∀ a d b, m = a ++ d :: b → ∀ r k, k < K.dim d → J r (inputSize K (l ++ a) + k) = f d r k) :
    blocks K J m (inputSize K l) = m.map fun d => (d, fun r k => if k < K.dim d then f d r k else 0) := by
  induction m generalizing l with
  | nil => rfl
  | cons d ds ih =>
    simp only [blocks, List.map_cons]
    congr 1
    · congr 1
      funext r k
      split
      · next hk => simpa using h [] d ds rfl r k hk
      · rfl
    · have e : inputSize K l + K.dim d = inputSize K (l ++ [d]) := by simp [inputSize]
      rw [e]
      refine ih (l ++ [d]) fun a d' b hab r k hk => ?_
      have := h (d :: a) d' b (by rw [hab]; rfl) r k hk
      simpa using this

theorem estimate_blocks (hz : ∀ d x, K.plus d x (fun _ => 0) = x) (t : Term X) (h : t.dvs.Nodup) (η : ℝ) (s : St X) :
    blocks K (columns K t η (inputSize K t.dvs) s).1 t.dvs 0 =
      t.dvs.map fun d => (d, fun r k => if k < K.dim d then (along K t s.cur d k η r - along K t s.cur d k (-η) r) / (2 * η) else 0) := by
  obtain ⟨p, e, hc⟩ := columns_eq (K := K) t h η (inputSize K t.dvs) s
  rw [hc]
  refine blocks_eq _ _ [] t.dvs fun a d b hab r k hk => ?_
  simp only [List.nil_append]
  rw [if_pos (by rw [hab]; simp [inputSize]; omega)]
  have h1 := moved_single hz (off := 0) (hab ▸ h) hk η s.cur
  have h2 := moved_single hz (off := 0) (hab ▸ h) hk (-η) s.cur
  simp only [Nat.zero_add] at h1 h2
  rw [along, along, ← h1, ← h2, ← hab]
  rfl

/-- Integrating a bound on a derivative: `|f| ≤ B` on `[0, h]`. -/
theorem bound_step {f f' B B' : ℝ → ℝ} {h : ℝ} (hf : ∀ x, |x| ≤ h → HasDerivAt f (f' x) x) (hB : ∀ x, HasDerivAt B (B' x) x) (h0 : f 0 = 0) (hB0 : B 0 = 0)
    (hb : ∀ x, 0 ≤ x → x ≤ h → |f' x| ≤ B' x) : ∀ x, 0 ≤ x → x ≤ h → |f x| ≤ B x := by
  intro x hx hxh
  have ha : ∀ y, y ∈ Set.Icc 0 h → |y| ≤ h := fun y hy => by rw [abs_of_nonneg hy.1]; exact hy.2
  have := image_norm_le_of_norm_deriv_right_le_deriv_boundary (f := f) (f' := f') (a := 0) (b := h) (B := B) (B' := B')
    (fun y hy => (hf y (ha y hy)).continuousAt.continuousWithinAt)
    (fun y hy => (hf y (ha y ⟨hy.1, hy.2.le⟩)).hasDerivWithinAt) (by rw [h0, hB0]; simp) hB
    (fun y hy => hb y hy.1 hy.2.le) (x := x) ⟨hx, hxh⟩
  exact this

/-- Central differences of a function with a bounded third derivative. -/
theorem central {φ φ1 φ2 φ3 : ℝ → ℝ} {M h : ℝ} (h0 : 0 < h) (d1 : ∀ x, |x| ≤ h → HasDerivAt φ (φ1 x) x) (d2 : ∀ x, |x| ≤ h → HasDerivAt φ1 (φ2 x) x)
    (d3 : ∀ x, |x| ≤ h → HasDerivAt φ2 (φ3 x) x) (hM : ∀ x, |x| ≤ h → |φ3 x| ≤ M) : |(φ h - φ (-h)) / (2 * h) - φ1 0| ≤ M * h ^ 2 / 6 := by
  have neg : ∀ {f f' : ℝ → ℝ}, (∀ x, |x| ≤ h → HasDerivAt f (f' x) x) → ∀ x, |x| ≤ h → HasDerivAt (fun y => f (-y)) (-f' (-x)) x := by
    intro f f' hf x hx
    have := (hf (-x) (by rwa [abs_neg])).comp x (hasDerivAt_neg x)
    exact this.congr_deriv (by ring)
  have b3 : ∀ x, 0 ≤ x → x ≤ h → |φ3 x + φ3 (-x)| ≤ 2 * M := by
    intro x hx hxh
    have e : |x| ≤ h := by rwa [abs_of_nonneg hx]
    calc |φ3 x + φ3 (-x)| ≤ |φ3 x| + |φ3 (-x)| := abs_add_le _ _
      _ ≤ M + M := add_le_add (hM x e) (hM (-x) (by rwa [abs_neg]))
      _ = 2 * M := by ring
  have b2 := bound_step (f := fun x => φ2 x - φ2 (-x)) (f' := fun x => φ3 x + φ3 (-x)) (B := fun x => 2 * M * x) (B' := fun _ => 2 * M) (h := h)
    (fun x hx => ((d3 x hx).sub (neg d3 x hx)).congr_deriv (by ring)) (fun x => by simpa using (hasDerivAt_id x).const_mul (2 * M)) (by simp) (by simp) b3
  have b1 := bound_step (f := fun x => φ1 x + φ1 (-x) - 2 * φ1 0) (f' := fun x => φ2 x - φ2 (-x)) (B := fun x => M * x ^ 2) (B' := fun x => 2 * M * x) (h := h)
    (fun x hx => (((d2 x hx).add (neg d2 x hx)).sub_const (2 * φ1 0)).congr_deriv (by ring))
    (fun x => ((hasDerivAt_pow 2 x).const_mul M).congr_deriv (by simp; ring)) (by simp; ring) (by simp) b2
  have b0 := bound_step (f := fun x => φ x - φ (-x) - 2 * φ1 0 * x) (f' := fun x => φ1 x + φ1 (-x) - 2 * φ1 0) (B := fun x => M * x ^ 3 / 3) (B' := fun x => M * x ^ 2) (h := h)
    (fun x hx => (((d1 x hx).sub (neg d1 x hx)).sub ((hasDerivAt_id x).const_mul (2 * φ1 0))).congr_deriv (by ring))
    (fun x => (((hasDerivAt_pow 3 x).const_mul M).div_const 3).congr_deriv (by simp; ring)) (by simp) (by simp) b1 h h0.le le_rfl
  have e : (φ h - φ (-h)) / (2 * h) - φ1 0 = (φ h - φ (-h) - 2 * φ1 0 * h) / (2 * h) := by field_simp
  rw [e, abs_div, abs_of_pos (show 0 < 2 * h by linarith), div_le_iff₀ (by linarith)]
  calc _ ≤ M * h ^ 3 / 3 := b0
    _ = M * h ^ 2 / 6 * (2 * h) := by ring

/-! ### C87 -/

/-- The values of all design variables, of the term or not, are as before, if no variable occurs twice in the term; with a repeated variable this is false, see
the counterexample. -/
theorem C87_values_restored_partial (t : Term X) (h : t.dvs.Nodup) (s : St X) : (finiteDifference K t s).2.cur = s.cur := by
  obtain ⟨p, e, hc⟩ := columns_eq (K := K) t h (1 / 10 ^ 6) (inputSize K t.dvs) s
  simp only [finiteDifference, hc]

/-- Each design variable of the term gets one block, made of the central differences of the error when this variable only is moved along each of its coordinates. -/
theorem C87_blocks_partial (hz : ∀ d x, K.plus d x (fun _ => 0) = x) (t : Term X) (h : t.dvs.Nodup) (s : St X) :
    (finiteDifference K t s).1 = t.dvs.map fun d => (d, fun r k => if k < K.dim d then
      (t.err (Function.update s.cur d (K.plus d (s.cur d) (single k (1 / 10 ^ 6)))) r -
       t.err (Function.update s.cur d (K.plus d (s.cur d) (single k (-(1 / 10 ^ 6))))) r) / (2 * (1 / 10 ^ 6)) else 0) :=
  estimate_blocks hz t h (1 / 10 ^ 6) s

/-- The entries differ from the derivatives of the error by at most `M/6 · 10⁻¹²`, `M` being a bound on the third derivatives within a distance of `10⁻⁶`. -/
theorem C87_accuracy_partial (hz : ∀ d x, K.plus d x (fun _ => 0) = x) (t : Term X) (h : t.dvs.Nodup) (s : St X) {d : Nat} {B : Nat → Nat → ℝ}
    (hB : (d, B) ∈ (finiteDifference K t s).1) {r k : Nat} (hk : k < K.dim d) {φ1 φ2 φ3 : ℝ → ℝ} {M : ℝ}
    (d1 : ∀ x, |x| ≤ 1 / 10 ^ 6 → HasDerivAt (fun τ => t.err (Function.update s.cur d (K.plus d (s.cur d) (single k τ))) r) (φ1 x) x)
    (d2 : ∀ x, |x| ≤ 1 / 10 ^ 6 → HasDerivAt φ1 (φ2 x) x) (d3 : ∀ x, |x| ≤ 1 / 10 ^ 6 → HasDerivAt φ2 (φ3 x) x)
    (hM : ∀ x, |x| ≤ 1 / 10 ^ 6 → |φ3 x| ≤ M) : |B r k - φ1 0| ≤ M / 6 * (1 / 10 ^ 12) := by
  rw [C87_blocks_partial hz t h s, List.mem_map] at hB
  obtain ⟨d', _, he⟩ := hB
  obtain ⟨rfl, hb⟩ := Prod.mk.inj he
  rw [← hb]
  simp only [if_pos hk]
  refine (central (by norm_num) d1 d2 d3 hM).trans_eq ?_
  norm_num
  ring

/-- Numbers as design variables; odd ones have dimension 1, the others are pairs of numbers added together. -/
noncomputable def exKit : Kit ℝ := ⟨fun d => if d % 2 = 1 then 1 else 2, fun d x δ => if d % 2 = 1 then x + δ 0 else x + δ 0 + 2 * δ 1⟩

/-- Two rows: the product of two variables, and the cube of one. -/
noncomputable def exTerm : Term ℝ := ⟨[1, 2], 2, fun x r => if r = 0 then x 1 * x 2 else x 1 ^ 3⟩

theorem exKit_zero : ∀ d x, exKit.plus d x (fun _ => 0) = x := by intro d x; simp [exKit]

example : ∀ d x, exKit.plus d x (fun _ => 0) = x := exKit_zero
example : exTerm.dvs.Nodup := by simp [exTerm]

example (s : St ℝ) (B : Nat → Nat → ℝ) (hB : (1, B) ∈ (finiteDifference exKit exTerm s).1) : |B 1 0 - 3 * s.cur 1 ^ 2| ≤ 6 / 6 * (1 / 10 ^ 12) := by
  have h := C87_accuracy_partial exKit_zero exTerm (by simp [exTerm]) s hB (r := 1) (k := 0) (by simp [exKit]) (φ1 := fun x => 3 * (s.cur 1 + x) ^ 2)
    (φ2 := fun x => 6 * (s.cur 1 + x)) (φ3 := fun _ => 6) (M := 6)
    (fun x _ => by
      have : (fun τ => exTerm.err (Function.update s.cur 1 (exKit.plus 1 (s.cur 1) (single 0 τ))) 1) = fun τ => (s.cur 1 + τ) ^ 3 := by
        funext τ; simp [exTerm, exKit, single]
      rw [this]
      exact (((hasDerivAt_id x).const_add (s.cur 1)).pow 3).congr_deriv (by simp))
    (fun x _ => (((hasDerivAt_id x).const_add (s.cur 1)).pow 2 |>.const_mul 3).congr_deriv (by simp; ring))
    (fun x _ => (((hasDerivAt_id x).const_add (s.cur 1)).const_mul 6).congr_deriv (by simp)) (fun x _ => by norm_num)
  simpa using h

/-- A term given the same variable twice with the error `x`: the two blocks, which should be the same, are 1/2 and 1. -/
theorem C87_repeated_variable_counterexample : ∃ B B' : Nat → Nat → ℝ,
    (finiteDifference (X := ℝ) ⟨fun _ => 1, fun _ x δ => x + δ 0⟩ ⟨[0, 0], 1, fun x _ => x 0⟩ ⟨fun _ => 0, fun _ => 0, fun _ => 0⟩).1 = [(0, B), (0, B')] ∧
    B 0 0 = 1 / 2 ∧ B' 0 0 = 1 := by
  refine ⟨_, _, rfl, ?_, ?_⟩
  · simp [functor, updAll, revAll, part, single]
    norm_num
  · simp [functor, updAll, revAll, part, single]
    norm_num

/-- Afterwards the term holds the error at moved values, not the one at the current values: error `x` at `x = 0`. -/
theorem C87_stored_error_counterexample :
    let s := (finiteDifference (X := ℝ) ⟨fun _ => 1, fun _ x δ => x + δ 0⟩ ⟨[0], 1, fun x _ => x 0⟩ ⟨fun _ => 0, fun _ => 0, fun _ => 0⟩).2
    s.cur 0 = 0 ∧ s.stored 0 = -(1 / 10 ^ 6) := by
  constructor <;> simp [finiteDifference, columns, inputSize, functor, updAll, revAll, part, single]

theorem updAll_zero (hz : ∀ d x, K.plus d x (fun _ => 0) = x) {dr : Nat → ℝ} {l : List Nat} {off : Nat} {cur prev : Nat → X}
    (h : ∀ q, off ≤ q → q < off + inputSize K l → dr q = 0) : updAll K dr l off (cur, prev) = (cur, fun e => if e ∈ l then cur e else prev e) := by
  induction l generalizing off prev with
  | nil => simp [updAll]
  | cons d ds ih =>
    have hp : part K d off dr = fun _ => 0 := by
      funext k
      simp only [part]
      split
      · next hk => exact h _ (by omega) (by simp [inputSize]; omega)
      · rfl
    rw [updAll, hp, hz, Function.update_eq_self, ih fun q h1 h2 => h q (by omega) (by simp [inputSize] at h2 ⊢; omega)]
    refine Prod.ext rfl (funext fun e => ?_)
    by_cases he : e = d
    · subst he; simp
    · simp [he]

theorem updAll_single (hz : ∀ d x, K.plus d x (fun _ => 0) = x) {l m : List Nat} {d off k : Nat} (hk : k < K.dim d) (τ : ℝ) {cur prev : Nat → X} :
    updAll K (single (off + inputSize K l + k) τ) (l ++ d :: m) off (cur, prev) =
      (Function.update cur d (K.plus d (cur d) (single k τ)),
       fun e => if e ∈ m then Function.update cur d (K.plus d (cur d) (single k τ)) e else if e = d ∨ e ∈ l then cur e else prev e) := by
  induction l generalizing off prev with
  | nil =>
    have e0 : inputSize K ([] : List Nat) = 0 := rfl
    rw [List.nil_append, updAll, e0, Nat.add_zero, part_single_self hk, updAll_zero hz (fun q h1 h2 => by simp [single]; omega)]
    refine Prod.ext rfl (funext fun e => ?_)
    by_cases he : e = d
    · subst he; simp
    · simp [he]
  | cons a as ih =>
    have e1 : off + inputSize K (a :: as) + k = off + K.dim a + inputSize K as + k := by simp [inputSize]; omega
    rw [List.cons_append, updAll, part_single_other (Or.inr (by rw [e1]; omega)), hz, Function.update_eq_self, e1, ih]
    refine Prod.ext rfl (funext fun e => ?_)
    simp only [List.mem_cons]
    by_cases hm : e ∈ m
    · simp [hm]
    · by_cases he : e = a
      · subst he; simp [hm]
      · simp [hm, he]

/-- Moving one coordinate and reverting: the move stays if the variable occurs again further on. -/
theorem functor_single (hz : ∀ d x, K.plus d x (fun _ => 0) = x) {t : Term X} {l m : List Nat} {d k : Nat} (hl : t.dvs = l ++ d :: m) (hk : k < K.dim d) (τ : ℝ)
    (s : St X) : (functor K t (single (inputSize K l + k) τ) s).2.cur = if d ∈ m then Function.update s.cur d (K.plus d (s.cur d) (single k τ)) else s.cur := by
  have := updAll_single hz (off := 0) (l := l) (m := m) hk τ (cur := s.cur) (prev := s.prev)
  rw [Nat.zero_add] at this
  simp only [functor, hl, this, revAll_eq]
  funext e
  by_cases he : e = d
  · subst he
    by_cases hm : e ∈ m <;> simp [hm]
  · by_cases hm : e ∈ m
    · by_cases hd : d ∈ m <;> simp [hm, he, hd]
    · by_cases hl' : e ∈ l
      · by_cases hd : d ∈ m <;> simp [hm, he, hd, hl']
      · by_cases hd : d ∈ m <;> simp [hm, he, hd, hl']

theorem find_column (l : List Nat) (c : Nat) (h : c < inputSize K l) : ∃ a d b k, l = a ++ d :: b ∧ k < K.dim d ∧ c = inputSize K a + k := by
  induction l generalizing c with
  | nil => simp [inputSize] at h
  | cons d ds ih =>
    by_cases hc : c < K.dim d
    · exact ⟨[], d, ds, c, rfl, hc, by simp [inputSize]⟩
    · obtain ⟨a, d', b, k, h1, h2, h3⟩ := ih (c - K.dim d) (by simp [inputSize] at h ⊢; omega)
      exact ⟨d :: a, d', b, k, by rw [h1]; rfl, h2, by simp [inputSize] at h3 ⊢; omega⟩

theorem columns_cur (hz : ∀ d x, K.plus d x (fun _ => 0) = x) (hi : ∀ d x k τ, K.plus d (K.plus d x (single k τ)) (single k (-τ)) = x) (t : Term X) (η : ℝ)
    (n : Nat) (hn : n ≤ inputSize K t.dvs) (s : St X) : (columns K t η n s).2.cur = s.cur := by
  induction n with
  | zero =>
    simp only [columns, functor, updAll_zero hz (dr := fun _ => 0) (fun _ _ _ => rfl), revAll_eq]
    funext e
    by_cases he : e ∈ t.dvs <;> simp [he]
  | succ n ih =>
    have ih := ih (by omega)
    obtain ⟨a, d, b, k, h1, h2, h3⟩ := find_column (K := K) t.dvs n (by omega)
    simp only [columns]
    generalize hs : (columns K t η n s).2 = s1 at *
    have f1 := functor_single hz h1 h2 η s1
    have f2 := functor_single hz h1 h2 (-η) (functor K t (single (inputSize K a + k) η) s1).2
    rw [h3, f2, f1, ← ih]
    by_cases hd : d ∈ b
    · simp [hd, hi]
    · simp [hd]

/-- Whatever the list of variables (repeated or not), if opposite updates along a coordinate cancel, as they do for numbers, points and rotations, the values of all
design variables are as before. -/
theorem C87_values_restored (hz : ∀ d x, K.plus d x (fun _ => 0) = x) (hi : ∀ d x k τ, K.plus d (K.plus d x (single k τ)) (single k (-τ)) = x) (t : Term X)
    (s : St X) : (finiteDifference K t s).2.cur = s.cur := by
  simp only [finiteDifference]
  exact columns_cur hz hi t _ _ le_rfl s

example : ∀ d x k τ, exKit.plus d (exKit.plus d x (single k τ)) (single k (-τ)) = x := by
  intro d x k τ
  simp only [exKit, single]
  split <;> (try split) <;> (try split) <;> ring

/-! ### C88 -/

theorem compare_ok {rows : Nat} {tol : ℝ} {ana : Nat → Option (Nat → Nat → ℝ)} {l : List (Nat × (Nat → Nat → ℝ))} (h : compare K rows tol ana l = .ok ()) :
    ∀ p ∈ l, ∃ A, ana p.1 = some A ∧ ∀ r < rows, ∀ k < K.dim p.1, |A r k - p.2 r k| ≤ tol := by
  induction l with
  | nil => simp
  | cons p l ih =>
    obtain ⟨d, B⟩ := p
    simp only [compare] at h
    cases ha : ana d with
    | none => simp [ha] at h
    | some A =>
      simp only [ha] at h
      split at h
      · next hb =>
        intro q hq
        rcases List.mem_cons.1 hq with rfl | hq
        · exact ⟨A, ha, hb⟩
        · exact ih h q hq
      · simp at h

/-- When the check passes, every design variable of the term has a Jacobian, and its entries differ from the derivatives of the error by no more than the tolerance
plus a sixth of its square times a bound on the third derivatives. -/
theorem C88_sound_partial (hz : ∀ d x, K.plus d x (fun _ => 0) = x) (t : Term X) (h : t.dvs.Nodup) (ana : (Nat → X) → Nat → Option (Nat → Nat → ℝ)) {tol : ℝ}
    (ht0 : 0 ≤ tol) (s s' : St X) (hc : checkFs K t ana tol s = .ok s') {d : Nat} (hd : d ∈ t.dvs) : s'.cur = s.cur ∧ ∃ A, ana s.cur d = some A ∧
      ∀ r < t.rows, ∀ k < K.dim d, ∀ (φ1 φ2 φ3 : ℝ → ℝ) (M : ℝ),
        (∀ x, |x| ≤ tol → HasDerivAt (fun τ => t.err (Function.update s.cur d (K.plus d (s.cur d) (single k τ))) r) (φ1 x) x) →
        (∀ x, |x| ≤ tol → HasDerivAt φ1 (φ2 x) x) → (∀ x, |x| ≤ tol → HasDerivAt φ2 (φ3 x) x) → (∀ x, |x| ≤ tol → |φ3 x| ≤ M) →
        |A r k - φ1 0| ≤ tol + M * tol ^ 2 / 6 := by
  have ht : 0 < tol := by
    refine lt_of_le_of_ne ht0 fun h0 => ?_
    simp [checkFs, ← h0] at hc
  simp only [checkFs, if_neg ht.ne'] at hc
  cases hcmp : compare K t.rows tol (ana s.cur) (blocks K (columns K t tol (inputSize K t.dvs) s).1 t.dvs 0) with
  | exc => simp [hcmp] at hc
  | ub => simp [hcmp] at hc
  | ok u =>
    simp only [hcmp, Res.bind_ok, Res.ok.injEq] at hc
    have hs : s'.cur = s.cur := by
      obtain ⟨p, e, hcol⟩ := columns_eq (K := K) t h tol (inputSize K t.dvs) s
      rw [← hc, hcol]
    refine ⟨hs, ?_⟩
    rw [estimate_blocks hz t h] at hcmp
    obtain ⟨A, h1, h2⟩ := compare_ok hcmp _ (List.mem_map.2 ⟨d, hd, rfl⟩)
    refine ⟨A, h1, fun r hr k hk φ1 φ2 φ3 M d1 d2 d3 hM => ?_⟩
    have h3 := h2 r hr k hk
    simp only [if_pos hk] at h3
    have h4 := central ht d1 d2 d3 hM
    calc |A r k - φ1 0| ≤ |A r k - _| + |_ - φ1 0| := abs_sub_le _ _ _
      _ ≤ tol + M * tol ^ 2 / 6 := add_le_add h3 h4

/-- The error `2 x` with the Jacobian 2 passes. -/
example : ∃ s', checkFs (X := ℝ) ⟨fun _ => 1, fun _ x δ => x + δ 0⟩ ⟨[0], 1, fun x _ => 2 * x 0⟩ (fun _ _ => some fun _ _ => 2) (1 / 10 ^ 6)
    ⟨fun _ => 5, fun _ => 0, fun _ => 0⟩ = .ok s' := by
  simp [checkFs, blocks, compare, columns, inputSize, functor, updAll, revAll, part, single]
  norm_num

/-- A variable which is not active has no Jacobian: the check of a right term throws. -/
theorem C88_inactive_counterexample (tol : ℝ) (ht : tol ≠ 0) :
    checkFs (X := ℝ) ⟨fun _ => 1, fun _ x δ => x + δ 0⟩ ⟨[0, 1], 1, fun x _ => x 0 + x 1⟩ (fun _ d => if d = 0 then some fun _ _ => 1 else none) tol
      ⟨fun _ => 0, fun _ => 0, fun _ => 0⟩ = .exc := by
  simp [checkFs, ht, blocks, compare]

/-- Terms of dynamic size: nothing is ever written into the container which is compared, so the check of any term with design variables throws. -/
theorem C88_dynamic_counterexample (t : Term X) (tol : ℝ) (ht : tol ≠ 0) (hne : t.dvs ≠ []) (s : St X) : checkDs K t tol s = .exc := by
  unfold checkDs checkFs
  cases hd : t.dvs with
  | nil => exact absurd hd hne
  | cons d ds => simp [ht, blocks, compare]

/-- A right Jacobian is rejected: the tolerance is also the step, so the error of the differences may exceed it. Error `10⁷ x³` at 0 with the default tolerance. -/
theorem C88_false_alarm_counterexample :
    checkFs (X := ℝ) ⟨fun _ => 1, fun _ x δ => x + δ 0⟩ ⟨[0], 1, fun x _ => 10 ^ 7 * x 0 ^ 3⟩ (fun x d => some fun _ _ => 3 * 10 ^ 7 * x d ^ 2) (1 / 10 ^ 6)
      ⟨fun _ => 0, fun _ => 0, fun _ => 0⟩ = .exc := by
  simp [checkFs, blocks, compare, columns, inputSize, functor, updAll, revAll, part, single]
  rw [if_neg]
  · rfl
  · norm_num

end Verif.FiniteDiff
