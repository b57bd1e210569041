import Verif.GenExpr.Spec
import Verif.Quat.Deriv
import Mathlib.Analysis.Calculus.Deriv.Mul

namespace Verif.GenExpr
open Verif.Geo (VDeriv MDeriv)
open Verif.Quat (Mode Geometry Q4)
open Matrix

@[simp] theorem col_ofCol {n : Nat} (v : Fin n → ℝ) : col (ofCol v) = v := rfl
@[simp] theorem ofCol_col {n : Nat} (A : Mat n 1) : ofCol (col A) = A := by
  funext i j; rw [Subsingleton.elim j 0]; rfl
theorem col_add {n : Nat} (A B : Mat n 1) : col (A + B) = col A + col B := rfl
theorem col_smul {n : Nat} (x : ℝ) (A : Mat n 1) : col (x • A) = x • col A := rfl
theorem ofCol_add {n : Nat} (v w : Fin n → ℝ) : ofCol (v + w) = ofCol v + ofCol w := rfl
theorem ofCol_smul {n : Nat} (x : ℝ) (v : Fin n → ℝ) : ofCol (x • v) = x • ofCol v := rfl
theorem col_mul {p n : Nat} (M : Mat p n) (A : Mat n 1) : col (M * A) = M *ᵥ col A := rfl
theorem mul_ofCol {p n : Nat} (M : Mat p n) (v : Fin n → ℝ) : M * ofCol v = ofCol (M *ᵥ v) := rfl

/-- Linear maps between matrices. -/
structure IsLin {r c r' c' : Nat} (f : Mat r c → Mat r' c') : Prop where
  add : ∀ a b, f (a + b) = f a + f b
  smul : ∀ (x : ℝ) a, f (x • a) = x • f a

/-- All maps of a differential are linear. -/
def Diff.Lin : {r c m : Nat} → Diff r c m → Prop
  | _, _, _, .id => True
  | _, _, _, .mat _ => True
  | _, _, _, .comp f next => IsLin f ∧ next.Lin
  | _, _, _, .compMat _ next => next.Lin

theorem Diff.apply_add : ∀ {r c m : Nat} (d : Diff r c m), d.Lin → ∀ a b, d.apply (a + b) = d.apply a + d.apply b
  | _, _, _, .id, _, a, b => rfl
  | _, _, _, .mat M, _, a, b => by simp only [Diff.apply, col_add, Matrix.mulVec_add]
  | _, _, _, .comp f next, h, a, b => by simp only [Diff.apply, h.1.add, next.apply_add h.2]
  | _, _, _, .compMat M next, h, a, b => by simp only [Diff.apply, Matrix.mul_add, next.apply_add h]

theorem Diff.apply_smul : ∀ {r c m : Nat} (d : Diff r c m), d.Lin → ∀ (x : ℝ) a, d.apply (x • a) = x • d.apply a
  | _, _, _, .id, _, a, b => rfl
  | _, _, _, .mat M, _, a, b => by simp only [Diff.apply, col_smul, Matrix.mulVec_smul]
  | _, _, _, .comp f next, h, a, b => by simp only [Diff.apply, h.1.smul, next.apply_smul h.2]
  | _, _, _, .compMat M next, h, a, b => by simp only [Diff.apply, Matrix.mul_smul, next.apply_smul h]

theorem Diff.apply_zero {r c m : Nat} (d : Diff r c m) (h : d.Lin) : d.apply 0 = 0 := by
  have := d.apply_smul h 0 0
  simpa using this

theorem Diff.applyBasis_eq : ∀ {n m : Nat} (d : Diff n 1 m) (i : Fin n), d.applyBasis i = d.apply (basis i)
  | _, _, .id, i => rfl
  | _, _, .mat M, i => by
    funext k
    simp [Diff.applyBasis, Diff.apply, Matrix.mulVec, dotProduct, col, basis]
  | _, _, .comp f next, i => rfl
  | _, _, .compMat M next, i => by
    simp only [Diff.applyBasis, Diff.apply]
    congr 1
    funext k j
    simp [Matrix.mul_apply, basis]

theorem Diff.apply_sum {r c m : Nat} (d : Diff r c m) (h : d.Lin) {ι : Type} (s : Finset ι) (f : ι → Mat r c) :
    d.apply (∑ i ∈ s, f i) = ∑ i ∈ s, d.apply (f i) := by
  classical
  induction s using Finset.induction_on with
  | empty => simp [d.apply_zero h]
  | insert a s ha ih => rw [Finset.sum_insert ha, Finset.sum_insert ha, d.apply_add h, ih]

/-- The Jacobian found column by column is the matrix of the differential. -/
theorem Diff.calc_mulVec {n m : Nat} (d : Diff n 1 m) (h : d.Lin) (v : Fin n → ℝ) : d.calc *ᵥ v = d.apply (ofCol v) := by
  have e : ofCol v = ∑ i, v i • basis i := by
    funext k j
    simp [Matrix.sum_apply, Matrix.smul_apply, basis, ofCol]
  rw [e, d.apply_sum h]
  funext k
  simp [Matrix.mulVec, dotProduct, Diff.calc, d.apply_smul h, Diff.applyBasis_eq, mul_comm]

/-! ### Chain rules -/

@[simp] theorem Chain.get_some {R q : Nat} (B : Mat R q) : Chain.get (some ⟨q, B⟩) q = some B := by
  simp [Chain.get]

theorem Chain.get_none {R : Nat} : Chain.get (none : Chain R) R = some 1 := by
  simp only [Chain.get, dif_pos]
  congr 1

theorem Chain.push_ok {R m q : Nat} {ch : Chain R} {A : Mat R m} (h : ch.get m = some A) (M : Mat m q) :
    ch.push M = .ok (some ⟨q, A * M⟩) := by simp [Chain.push, h]

theorem Chain.get_rows {R m : Nat} {A : Mat R m} (h : Chain.get (none : Chain R) m = some A) : R = m := by
  unfold Chain.get at h
  by_contra hn
  simp [hn] at h

theorem Chain.get_pushScalar {R m : Nat} {ch : Chain R} {A : Mat R m} (h : ch.get m = some A) (s : ℝ) :
    (ch.pushScalar s).get m = some (s • A) := by
  cases ch with
  | none =>
    obtain rfl := Chain.get_rows h
    rw [Chain.get_none] at h
    cases h
    simp [Chain.pushScalar]
  | some p =>
    obtain ⟨k, B⟩ := p
    simp only [Chain.get] at h
    split at h
    · rename_i hk
      subst hk
      cases h
      simp [Chain.pushScalar]
    · cases h

theorem total_append {R : Nat} (δ : Delta) (L M : List (Contr R)) : total δ (L ++ M) = total δ L + total δ M := by
  induction L with
  | nil => simp [total]
  | cons c L ih => simp [total, ih, add_assoc]

theorem addId_ok {R : Nat} {ch : Chain R} {v : Var} {A : Mat R v.dim} (h : ch.get v.dim = some A) (δ : Delta) :
    ∃ L, addId ch v = .ok L ∧ total δ L = A *ᵥ δ v := ⟨_, by simp only [addId, h]; rfl, by simp [total]⟩

theorem addJ_ok {R k : Nat} {ch : Chain R} {v : Var} {A : Mat R k} (h : ch.get k = some A) (J : Mat k v.dim) (δ : Delta) :
    ∃ L, addJ ch v J = .ok L ∧ total δ L = A *ᵥ (J *ᵥ δ v) :=
  ⟨_, by simp only [addJ, h]; rfl, by simp [total, Matrix.mulVec_mulVec]⟩

/-- The place a differential stands for. -/
def Diff.shape : {r c m : Nat} → Diff r c m → Shape
  | _, _, _, .id => .free
  | _, _, _, .mat _ => .free
  | _, _, _, .comp _ _ => .comp
  | _, _, _, .compMat _ .id => .mat
  | _, _, _, .compMat _ _ => .bad

def Diff.isId : {r c m : Nat} → Diff r c m → Bool
  | _, _, _, .id => true
  | _, _, _, _ => false

def Diff.place {r c m : Nat} (d : Diff r c m) : Place := ⟨m, d.shape, d.isId⟩

theorem place_comp {r c r' c' m : Nat} (f : Mat r c → Mat r' c') (d : Diff r' c' m) :
    (Diff.comp f d).place = ⟨m, .comp, false⟩ := rfl

theorem place_compMat {p n m : Nat} (M : Mat p n) (d : Diff p 1 m) :
    (Diff.compMat M d).place = ⟨m, d.shape.under d.isId, false⟩ := by
  cases d <;> simp [Diff.place, Diff.shape, Diff.isId, Shape.under]

theorem addTo_ok {R m : Nat} {ch : Chain R} {v : Var} (d : Diff v.dim 1 m) (hl : d.Lin) {A : Mat R m} (h : ch.get m = some A)
    (hs : d.shape = .free ∨ R = m) (δ : Delta) : ∃ L, Diff.addTo ch v d = .ok L ∧ total δ L = A *ᵥ d.apply (ofCol (δ v)) := by
  have main : R = m → ∃ L, addByApplication ch v d = .ok L ∧ total δ L = A *ᵥ d.apply (ofCol (δ v)) := by
    intro e
    obtain ⟨L, h1, h2⟩ := addJ_ok h d.calc δ
    exact ⟨L, by rw [addByApplication, if_pos e, h1], by rw [h2, d.calc_mulVec hl]⟩
  unfold Diff.addTo
  split
  · obtain ⟨L, hL, hL'⟩ := addId_ok h δ
    exact ⟨L, hL, hL'⟩
  · obtain ⟨L, hL, hL'⟩ := addJ_ok h ‹Mat m v.dim› δ
    exact ⟨L, hL, hL'⟩
  · exact main (by simpa [Diff.shape] using hs)
  · refine main (hs.resolve_left ?_)
    rename_i M next
    cases next <;> simp [Diff.shape]

theorem addToJ_ok {R n m : Nat} {ch : Chain R} {v : Var} (d : Diff n 1 m) (hl : d.Lin) {A : Mat R m} (h : ch.get m = some A)
    (hs : d.shape = .free ∨ R = m) (J : Mat n v.dim) (δ : Delta) :
    ∃ L, Diff.addToJ ch v d J = .ok L ∧ total δ L = A *ᵥ d.apply (ofCol (J *ᵥ δ v)) := by
  have main : R = m → ∀ d' : Diff v.dim 1 m, d'.Lin → d'.apply (ofCol (δ v)) = d.apply (ofCol (J *ᵥ δ v)) →
      ∃ L, addByApplication ch v d' = .ok L ∧ total δ L = A *ᵥ d.apply (ofCol (J *ᵥ δ v)) := by
    intro e d' hl' hd
    obtain ⟨L, h1, h2⟩ := addJ_ok h d'.calc δ
    exact ⟨L, by rw [addByApplication, if_pos e, h1], by rw [h2, d'.calc_mulVec hl', hd]⟩
  unfold Diff.addToJ
  split
  · exact addJ_ok h J δ
  · rename_i M
    obtain ⟨L, hL, hL'⟩ := addJ_ok h (M * J) δ
    exact ⟨L, hL, by rw [hL', ← Matrix.mulVec_mulVec]; rfl⟩
  · exact main (by simpa [Diff.shape] using hs) _ hl (by simp [Diff.apply, mul_ofCol])
  · rename_i M next
    refine main (hs.resolve_left ?_) _ hl (by simp [Diff.apply, mul_ofCol, Matrix.mulVec_mulVec])
    cases next <;> simp [Diff.shape]

theorem applyTo_ok {R n m : Nat} {ch : Chain R} (d : Diff n 1 m) (hl : d.Lin) {A : Mat R m} (h : ch.get m = some A)
    (hs : d.shape ≠ .bad) : ∃ B : Mat R n, Diff.applyTo ch d = .ok (some ⟨n, B⟩) ∧ ∀ v, B *ᵥ v = A *ᵥ d.apply (ofCol v) := by
  unfold Diff.applyTo
  split
  · simp only [h]
    exact ⟨_, rfl, fun v => rfl⟩
  · simp only [h]
    exact ⟨_, rfl, fun v => by rw [← Matrix.mulVec_mulVec]; rfl⟩
  · simp only [h]
    exact ⟨_, rfl, fun v => by rw [← Matrix.mulVec_mulVec, Diff.calc_mulVec _ hl]⟩
  · rename_i M next
    cases next with
    | id =>
      simp only [h]
      exact ⟨_, rfl, fun v => by rw [← Matrix.mulVec_mulVec]; rfl⟩
    | _ => simp [Diff.shape] at hs

theorem cat_ok {α : Type} {x y : Res (List α)} {L M : List α} (h : x = .ok L) (h' : y = .ok M) : cat x y = .ok (L ++ M) := by
  subst h; subst h'; rfl

theorem catAll_ok {R : Nat} (δ : Delta) {ι : Type} (l : List ι) (f : ι → Res (List (Contr R))) (w : ι → Fin R → ℝ)
    (h : ∀ i, ∃ L, f i = .ok L ∧ total δ L = w i) : ∃ L, catAll (l.map f) = .ok L ∧ total δ L = (l.map w).sum := by
  induction l with
  | nil => exact ⟨[], rfl, rfl⟩
  | cons i l ih =>
    obtain ⟨L, h1, h2⟩ := ih
    obtain ⟨M, h3, h4⟩ := h i
    exact ⟨M ++ L, by simp only [List.map_cons, catAll]; exact cat_ok h3 h1, by rw [total_append, h4, h2]; simp⟩

/-! ### Derivatives -/

theorem mderiv_col {n : Nat} {f : ℝ → Mat n 1} {f' : Mat n 1} {t : ℝ} (h : MDeriv f f' t) : VDeriv (fun s => col (f s)) (col f') t :=
  fun i => h i 0

theorem vderiv_ofCol {n : Nat} {f : ℝ → Fin n → ℝ} {f' : Fin n → ℝ} {t : ℝ} (h : VDeriv f f' t) :
    MDeriv (fun s => ofCol (f s)) (ofCol f') t := fun i _ => h i

theorem differentiableAt_det {n : Type} [Fintype n] [DecidableEq n] {f : ℝ → Matrix n n ℝ} {t : ℝ}
    (h : ∀ i j, DifferentiableAt ℝ (fun s => f s i j) t) : DifferentiableAt ℝ (fun s => (f s).det) t := by
  simp only [Matrix.det_apply]
  refine DifferentiableAt.fun_sum fun σ _ => ?_
  refine DifferentiableAt.const_smul ?_ _
  exact DifferentiableAt.fun_finset_prod fun i _ => h _ _

theorem mderiv_inv {n : Nat} {f : ℝ → Mat n n} {f' : Mat n n} {t : ℝ} (h : MDeriv f f' t) (h0 : (f t).det ≠ 0) :
    MDeriv (fun s => (f s)⁻¹) (-(f t)⁻¹ * f' * (f t)⁻¹) t := by
  have hd : DifferentiableAt ℝ (fun s => (f s).det) t := differentiableAt_det fun i j => (h i j).differentiableAt
  have ha : ∀ i j, DifferentiableAt ℝ (fun s => (f s).adjugate i j) t := by
    intro i j
    simp only [Matrix.adjugate_apply]
    refine differentiableAt_det fun a b => ?_
    by_cases e : a = j
    · subst e
      simp only [Matrix.updateRow_self]
      exact differentiableAt_const _
    · simp only [Matrix.updateRow_ne e]
      exact (h a b).differentiableAt
  have hi : ∀ i j, DifferentiableAt ℝ (fun s => (f s)⁻¹ i j) t := by
    intro i j
    simp only [Matrix.inv_def, Matrix.smul_apply, Ring.inverse_eq_inv', smul_eq_mul]
    exact (hd.inv h0).mul (ha i j)
  have hG : MDeriv (fun s => (f s)⁻¹) (fun i j => deriv (fun s => (f s)⁻¹ i j) t) t := fun i j => (hi i j).hasDerivAt
  generalize hGdef : (fun i j => deriv (fun s => (f s)⁻¹ i j) t) = G at hG
  change Mat n n at G
  have hp := h.mul hG
  have hev : ∀ᶠ s in nhds t, (f s).det ≠ 0 := hd.continuousAt.eventually_ne h0
  have hone : MDeriv (fun s => f s * (f s)⁻¹) 0 t := by
    intro i j
    refine (hasDerivAt_const t ((1 : Mat n n) i j)).congr_of_eventuallyEq ?_
    filter_upwards [hev] with s hs
    rw [Matrix.mul_nonsing_inv _ (isUnit_iff_ne_zero.mpr hs)]
  have hz : f' * (f t)⁻¹ + f t * G = 0 := by
    funext i j
    exact (hp i j).unique (hone i j)
  have hu : IsUnit (f t).det := isUnit_iff_ne_zero.mpr h0
  have hGe : G = -(f t)⁻¹ * f' * (f t)⁻¹ := by
    have e : f t * G = -(f' * (f t)⁻¹) := by
      rw [add_comm] at hz; exact eq_neg_of_add_eq_zero_left hz
    calc G = (f t)⁻¹ * (f t * G) := by rw [← Matrix.mul_assoc, Matrix.nonsing_inv_mul _ hu, Matrix.one_mul]
      _ = _ := by rw [e, Matrix.mul_neg, Matrix.neg_mul, Matrix.neg_mul, Matrix.mul_assoc]
  rw [← hGe]
  exact hG

theorem mderiv_crossCols {c : Nat} {f : ℝ → Fin 3 → ℝ} {f' : Fin 3 → ℝ} {g : ℝ → Mat 3 c} {g' : Mat 3 c} {t : ℝ} (hf : VDeriv f f' t)
    (hg : MDeriv g g' t) : MDeriv (fun s => crossCols (f s) (g s)) (crossCols f' (g t) + crossCols (f t) g') t := by
  intro i j
  exact (hf.cross (g := fun s k => g s k j) (g' := fun k => g' k j) fun k => hg k j) i

theorem mderiv_colsCross {c : Nat} {f : ℝ → Fin 3 → ℝ} {f' : Fin 3 → ℝ} {g : ℝ → Mat 3 c} {g' : Mat 3 c} {t : ℝ} (hf : VDeriv f f' t)
    (hg : MDeriv g g' t) : MDeriv (fun s => colsCross (g s) (f s)) (colsCross g' (f t) + colsCross (g t) f') t := by
  intro i j
  have h : VDeriv (fun s k => g s k j) (fun k => g' k j) t := fun k => hg k j
  exact (h.cross hf) i

/-! ### Linearity of the differentials of the nodes -/

section Q
open Verif.Quat
variable (m : Mode)
theorem q_add_mult (a b c : Q4 ℝ) : mult m (a + b) c = mult m a c + mult m b c := toH_injective m (by simp [toH_mult, toH_add, add_prod])
theorem q_smul_mult (x : ℝ) (b c : Q4 ℝ) : mult m (x • b) c = x • mult m b c := toH_injective m (by simp [toH_mult, toH_smul, smul_prod])
theorem q_mult_add (a b c : Q4 ℝ) : mult m a (b + c) = mult m a b + mult m a c := toH_injective m (by simp [toH_mult, toH_add, prod_add])
theorem q_mult_smul (x : ℝ) (b c : Q4 ℝ) : mult m b (x • c) = x • mult m b c := toH_injective m (by simp [toH_mult, toH_smul, prod_smul])
theorem q_add_multPR (a b : Q4 ℝ) (c : Fin 3 → ℝ) : multPR m (a + b) c = multPR m a c + multPR m b c :=
  toH_injective m (by simp [toH_multPR, toH_add, add_prod])
theorem q_smul_multPR (x : ℝ) (b : Q4 ℝ) (c : Fin 3 → ℝ) : multPR m (x • b) c = x • multPR m b c :=
  toH_injective m (by simp [toH_multPR, toH_smul, smul_prod])
theorem q_multPR_add (a : Q4 ℝ) (b c : Fin 3 → ℝ) : multPR m a (b + c) = multPR m a b + multPR m a c :=
  toH_injective m (by simp [toH_multPR, toH_add, prod_add, pure_add])
theorem q_multPR_smul (x : ℝ) (b : Q4 ℝ) (c : Fin 3 → ℝ) : multPR m b (x • c) = x • multPR m b c :=
  toH_injective m (by simp [toH_multPR, toH_smul, prod_smul, pure_smul])
theorem q_conj_add (a b : Q4 ℝ) : conjugate m (a + b) = conjugate m a + conjugate m b :=
  toH_injective m (by simp [toH_conjugate, toH_add])
theorem q_conj_smul (x : ℝ) (b : Q4 ℝ) : conjugate m (x • b) = x • conjugate m b :=
  toH_injective m (by simp [toH_conjugate, toH_smul])
theorem q_imag_smul (x : ℝ) (b : Q4 ℝ) : imag m (x • b) = x • imag m b := rfl

theorem lin_multL (q : Q4 ℝ) : IsLin fun t : Mat 4 1 => ofCol (mult m (col t) q) :=
  ⟨fun a b => by rw [col_add, q_add_mult, ofCol_add], fun x a => by rw [col_smul, q_smul_mult, ofCol_smul]⟩
theorem lin_multR (q : Q4 ℝ) : IsLin fun t : Mat 4 1 => ofCol (mult m q (col t)) :=
  ⟨fun a b => by rw [col_add, q_mult_add, ofCol_add], fun x a => by rw [col_smul, q_mult_smul, ofCol_smul]⟩
theorem lin_conj : IsLin fun t : Mat 4 1 => ofCol (conjugate m (col t)) :=
  ⟨fun a b => by rw [col_add, q_conj_add, ofCol_add], fun x a => by rw [col_smul, q_conj_smul, ofCol_smul]⟩
theorem lin_imag : IsLin fun t : Mat 4 1 => ofCol (imag m (col t)) := ⟨fun _ _ => rfl, fun _ _ => rfl⟩
theorem lin_inv (q : Q4 ℝ) : IsLin fun t : Mat 4 1 => ofCol (invertDiff m q (col t)) := by
  constructor
  · intro a b
    funext i j
    simp only [invertDiff, ofCol, col_add, q_add_mult, q_mult_add, Matrix.add_apply, Pi.add_apply]
    ring
  · intro x a
    funext i j
    simp only [invertDiff, ofCol, col_smul, q_smul_mult, q_mult_smul, Matrix.smul_apply, Pi.smul_apply, smul_eq_mul]
    ring
theorem lin_rotL (q : Q4 ℝ) (v : Fin 3 → ℝ) : IsLin fun t : Mat 4 1 => ofCol (rotateDiffL m q v (col t)) := by
  constructor
  · intro a b
    rw [← ofCol_add]
    congr 1
    simp only [rotateDiffL, col_add, q_conj_add, q_mult_add, q_add_multPR, q_add_mult, ← imag_add]
    congr 1
    abel
  · intro x a
    rw [← ofCol_smul]
    congr 1
    simp only [rotateDiffL, col_smul, q_conj_smul, q_mult_smul, q_smul_multPR, q_smul_mult, ← q_imag_smul, smul_add]
theorem lin_rotR (q : Q4 ℝ) : IsLin fun t : Mat 3 1 => ofCol (rotateDiffR m q (col t)) := by
  constructor
  · intro a b
    rw [← ofCol_add]
    congr 1
    simp only [rotateDiffR, col_add, q_multPR_add, q_add_mult, imag_add]
  · intro x a
    rw [← ofCol_smul]
    congr 1
    simp only [rotateDiffR, col_smul, q_multPR_smul, q_smul_mult, q_imag_smul]
end Q

theorem lin_id {r c : Nat} : IsLin fun t : Mat r c => t := ⟨fun _ _ => rfl, fun _ _ => rfl⟩
theorem lin_neg {r c : Nat} : IsLin fun t : Mat r c => -t := ⟨fun a b => neg_add a b, fun x a => (smul_neg x a).symm⟩
theorem lin_transpose {r c : Nat} : IsLin fun t : Mat r c => tᵀ := ⟨fun _ _ => rfl, fun _ _ => rfl⟩
theorem lin_entry {r c : Nat} (i : Fin r) (j : Fin c) : IsLin fun t : Mat r c => (fun _ _ => t i j : Mat 1 1) :=
  ⟨fun _ _ => rfl, fun _ _ => rfl⟩
theorem lin_mulR {r k c : Nat} (B : Mat k c) : IsLin fun t : Mat r k => t * B :=
  ⟨fun a b => Matrix.add_mul a b B, fun x a => Matrix.smul_mul x a B⟩
theorem lin_mulL {r k c : Nat} (A : Mat r k) : IsLin fun t : Mat k c => A * t :=
  ⟨fun a b => Matrix.mul_add A a b, fun x a => Matrix.mul_smul A x a⟩
theorem lin_sandwich {r : Nat} (A : Mat r r) : IsLin fun t : Mat r r => -A * t * A :=
  ⟨fun a b => by rw [Matrix.mul_add, Matrix.add_mul], fun x a => by rw [Matrix.mul_smul, Matrix.smul_mul]⟩
theorem lin_smul {r c : Nat} (y : ℝ) : IsLin fun t : Mat r c => y • t :=
  ⟨fun a b => smul_add y a b, fun x a => smul_comm y x a⟩
theorem lin_smulL {r c : Nat} (A : Mat r c) : IsLin fun t : Mat 1 1 => t 0 0 • A :=
  ⟨fun a b => by rw [Matrix.add_apply, add_smul], fun x a => by rw [Matrix.smul_apply, smul_assoc]⟩
theorem lin_crossL {c : Nat} (B : Mat 3 c) : IsLin fun t : Mat 3 1 => crossCols (col t) B := by
  constructor
  · intro a b
    funext i j
    simp [crossCols, col_add]
  · intro x a
    funext i j
    simp [crossCols, col_smul]
theorem lin_crossLr {c : Nat} (a : Fin 3 → ℝ) : IsLin fun t : Mat 3 c => crossCols a t := by
  constructor
  · intro s t
    funext i j
    have : (fun k => (s + t) k j) = (fun k => s k j) + fun k => t k j := rfl
    change (a ⨯₃ fun k => (s + t) k j) i = _
    rw [this, map_add]
    rfl
  · intro x t
    funext i j
    have : (fun k => (x • t) k j) = x • fun k => t k j := rfl
    change (a ⨯₃ fun k => (x • t) k j) i = _
    rw [this, map_smul]
    rfl
theorem lin_crossR {c : Nat} (B : Mat 3 c) : IsLin fun t : Mat 3 1 => colsCross B (col t) := by
  constructor
  · intro a b
    funext i j
    simp [colsCross, col_add]
  · intro x a
    funext i j
    simp [colsCross, col_smul]
theorem lin_crossRl {c : Nat} (a : Fin 3 → ℝ) : IsLin fun t : Mat 3 c => colsCross t a := by
  constructor
  · intro s t
    funext i j
    have : (fun k => (s + t) k j) = (fun k => s k j) + fun k => t k j := rfl
    change ((fun k => (s + t) k j) ⨯₃ a) i = _
    rw [this, map_add]
    rfl
  · intro x t
    funext i j
    have : (fun k => (x • t) k j) = x • fun k => t k j := rfl
    change ((fun k => (x • t) k j) ⨯₃ a) i = _
    rw [this, map_smul]
    rfl

end Verif.GenExpr
