import Verif.ExprTerm.Model
import Verif.Expr.Props
import Verif.ErrorTerm.Props
import Verif.Gradient.Props
import Verif.Hessian.Props

/-! Lemmas about error terms made from expressions. -/
namespace Verif.ExprTerm
open Verif.Expr (Node Store Contr Var Table Val Moves Cons Smooth FreshId Fresh ids)
open Verif.MatrixStack (DMat)
open Verif.Jacobian.Spec (Event)
open Verif.Geo Filter Topology
open Matrix

variable {invS : V3 × ℝ → Matrix (Fin 3 ⊕ Unit) (Fin 3) ℝ} {num : Var → Nat} {tbl : Table}

/-- What the error vector of an expression is. -/
noncomputable def Body.value (env : Expr.Env) : Body → Res (Nat → ℝ)
  | .scalar e => Expr.val env e >>= fun x => .ok fun _ => x
  | .point e => Expr.val env e >>= fun v => .ok (vec v)

/-- All nodes with one identity are the same node. -/
def Body.Cons (tbl : Table) : Body → Prop
  | .scalar e => Expr.Cons tbl e
  | .point e => Expr.Cons tbl e

/-- The expression is differentiable along the motion. -/
def Body.Smooth (c : ℝ → Expr.Env) (t : ℝ) : Body → Prop
  | .scalar e => Expr.Smooth c t e
  | .point e => Expr.Smooth c t e

/-- The nodes with members. -/
def Body.ids (env : Expr.Env) : Body → List Nat
  | .scalar e => Expr.ids env e
  | .point e => Expr.ids env e

/-! ### Coordinates -/

theorem sum_coord (v : Var) (f : v.Idx → ℝ) : ∑ k : v.Idx, f k = ∑ j : Fin (dimV v), f (coord v j) := by
  cases v with
  | sc i =>
    show ∑ k : Unit, f k = ∑ j : Fin 1, f ()
    simp
  | pt i => rfl
  | ro i => rfl
  | ho i => rfl
  | mat i l => rfl

/-- The velocities of all variables as numbered coordinates. -/
def Numbered (num : Var → Nat) (δ : (v : Var) → v.Idx → ℝ) (ν : Nat → Nat → ℝ) : Prop := ∀ (v : Var) (j : Fin (dimV v)), ν (num v) j = δ v (coord v j)

/-- A contribution times velocities. -/
noncomputable def times (ν : Nat → Nat → ℝ) (p : Nat × DMat ℝ) (i : Nat) : ℝ := ∑ j ∈ Finset.range p.2.cols, p.2.e i j * ν p.1 j

theorem times_encode {δ : (v : Var) → v.Idx → ℝ} {ν : Nat → Nat → ℝ} (hν : Numbered num δ ν) {m : Nat} (b : Contr m) (i : Fin m) :
    times ν (encode num b) i = (b.B *ᵥ δ b.v) i := by
  unfold times encode
  simp only [mulVec, dotProduct]
  rw [sum_coord, Finset.sum_range]
  refine Finset.sum_congr rfl fun j _ => ?_
  rw [dif_pos ⟨i.2, j.2⟩, hν]

theorem total_encode {δ : (v : Var) → v.Idx → ℝ} {ν : Nat → Nat → ℝ} (hν : Numbered num δ ν) {m : Nat} (L : List (Contr m)) (i : Fin m) :
    ((L.map (encode num)).map fun p => times ν p i).sum = Expr.total δ L i := by
  unfold Expr.total
  induction L with
  | nil => rfl
  | cons b L ih =>
    simp only [List.map_cons, List.sum_cons, Pi.add_apply] at ih ⊢
    rw [ih, times_encode hν]

/-! ### One expression -/

theorem vec_lt (v : V3) {i : Nat} (h : i < 3) : vec v i = v ⟨i, h⟩ := dif_pos h

/-- The members that are up to date. -/
abbrev Keeps (env : Expr.Env) (tbl : Table) (σ σ' : Store) : Prop := ∀ i, FreshId env tbl σ i → FreshId env tbl σ' i

theorem evaluate_spec {env : Expr.Env} {b : Body} (hc : b.Cons tbl) {x : Nat → ℝ} (hv : b.value env = .ok x) (σ : Store) :
    ∃ σ', b.evaluate env σ = .ok (x, σ') ∧ Keeps env tbl σ σ' ∧ ∀ i ∈ b.ids env, FreshId env tbl σ' i := by
  cases b with
  | scalar e =>
    simp only [Body.value, Expr.bind_eq_ok] at hv
    obtain ⟨v, hv, h⟩ := hv
    cases h
    refine ⟨Expr.upd env e σ, ?_, fun i => Expr.upd_mono env tbl e σ i hc, Expr.upd_fresh env tbl e σ v hc hv⟩
    simp [Body.evaluate, Expr.evaluate, hv]
  | point e =>
    simp only [Body.value, Expr.bind_eq_ok] at hv
    obtain ⟨v, hv, h⟩ := hv
    cases h
    refine ⟨Expr.upd env e σ, ?_, fun i => Expr.upd_mono env tbl e σ i hc, Expr.upd_fresh env tbl e σ v hc hv⟩
    simp [Body.evaluate, Expr.evaluate, hv]

/-- The calls fit the container and predict the derivative `d` of the error. -/
structure Predicts (jenv : Jacobian.Env ℝ) (ν : Nat → Nat → ℝ) (n : Nat) (d : Nat → ℝ) (L : List (Nat × DMat ℝ)) : Prop where
  shape : ∀ p ∈ L, p.2.rows = n ∧ p.2.cols = jenv.dim p.1
  sum : ∀ i, i < n → (L.map fun p => times ν p i).sum = d i

theorem encode_shape {jenv : Jacobian.Env ℝ} (hd : ∀ v, jenv.dim (num v) = dimV v) {m : Nat} (L : List (Contr m)) :
    ∀ p ∈ L.map (encode num), p.2.rows = m ∧ p.2.cols = jenv.dim p.1 := by
  intro p hp
  obtain ⟨b, -, rfl⟩ := List.mem_map.1 hp
  exact ⟨rfl, (hd b.v).symm⟩

theorem body_good {c : ℝ → Expr.Env} {t : ℝ} {δ : (v : Var) → v.Idx → ℝ} (hm : Moves invS c t δ) {ν : Nat → Nat → ℝ} (hν : Numbered num δ ν)
    {jenv : Jacobian.Env ℝ} (hd : ∀ v, jenv.dim (num v) = dimV v) {b : Body} (hc : b.Cons tbl) (hs : b.Smooth c t) {x : Nat → ℝ}
    (hv : b.value (c t) = .ok x) :
    ∃ (f : ℝ → Nat → ℝ) (d : Nat → ℝ), (∀ᶠ s in 𝓝 t, b.value (c s) = .ok (f s)) ∧ f t = x ∧ (∀ i, i < b.dim → HasDerivAt (fun s => f s i) (d i) t) ∧
      ∀ σ, (∀ i ∈ b.ids (c t), FreshId (c t) tbl σ i) → ∃ L σ', b.jacobians invS num (c t) σ = .ok (L, σ') ∧ Keeps (c t) tbl σ σ' ∧
        Predicts jenv ν b.dim d L := by
  cases b with
  | scalar e =>
    simp only [Body.value, Expr.bind_eq_ok] at hv
    obtain ⟨v, hv', h⟩ := hv
    cases h
    obtain ⟨f, d, h1, h2, h3⟩ := Expr.good hm e hc hs hv'
    refine ⟨fun s _ => f s, fun _ => d (), h1.mono fun s h => by simp [Body.value, h], ?_, fun i _ => h2, ?_⟩
    · have := h1.self_of_nhds
      rw [hv'] at this
      cases this
      rfl
    · intro σ hσ
      obtain ⟨L, σ', h4, h5, h6⟩ := h3 1 (fun _ _ => 1) σ hσ
      refine ⟨_, σ', by simp [Body.jacobians, h4], h6, encode_shape hd L, ?_⟩
      intro i hi
      have hi' : i < 1 := hi
      rw [show i = ((⟨i, hi'⟩ : Fin 1) : Nat) from rfl, total_encode hν, h5]
      simp [mulVec, dotProduct]
  | point e =>
    simp only [Body.value, Expr.bind_eq_ok] at hv
    obtain ⟨v, hv', h⟩ := hv
    cases h
    obtain ⟨f, d, h1, h2, h3⟩ := Expr.good hm e hc hs hv'
    refine ⟨fun s => vec (f s), vec d, h1.mono fun s h => by simp [Body.value, h], ?_, ?_, ?_⟩
    · have := h1.self_of_nhds
      rw [hv'] at this
      cases this
      rfl
    · intro i hi
      have hi' : i < 3 := hi
      simp only [vec_lt _ hi']
      exact h2 ⟨i, hi'⟩
    · intro σ hσ
      obtain ⟨L, σ', h4, h5, h6⟩ := h3 3 1 σ hσ
      refine ⟨_, σ', by simp [Body.jacobians, h4], h6, encode_shape hd L, ?_⟩
      intro i hi
      have hi' : i < 3 := hi
      rw [vec_lt _ hi']
      exact (total_encode hν L ⟨i, hi'⟩).trans (by rw [h5, one_mulVec])

/-! ### Loops -/

theorem each_spec {α β : Type} {f : α → Store → Res (β × Store)} (env : Expr.Env) (tbl : Table) (need made : α → List Nat) (P : α → β → Prop) (as : List α)
    (h : ∀ a ∈ as, ∀ σ, (∀ i ∈ need a, FreshId env tbl σ i) → ∃ b σ', f a σ = .ok (b, σ') ∧ P a b ∧ Keeps env tbl σ σ' ∧ ∀ i ∈ made a, FreshId env tbl σ' i) :
    ∀ σ, (∀ a ∈ as, ∀ i ∈ need a, FreshId env tbl σ i) → ∃ bs σ', each f as σ = .ok (bs, σ') ∧ List.Forall₂ P as bs ∧ Keeps env tbl σ σ' ∧
      ∀ a ∈ as, ∀ i ∈ made a, FreshId env tbl σ' i := by
  induction as with
  | nil => exact fun σ _ => ⟨[], σ, rfl, .nil, fun _ h => h, by simp⟩
  | cons a as ih =>
    intro σ hσ
    obtain ⟨b, σ1, e1, p1, k1, m1⟩ := h a (List.mem_cons_self ..) σ (hσ a (List.mem_cons_self ..))
    obtain ⟨bs, σ2, e2, p2, k2, m2⟩ := ih (fun a ha => h a (List.mem_cons_of_mem _ ha)) σ1
      fun a ha i hi => k1 i (hσ a (List.mem_cons_of_mem _ ha) i hi)
    refine ⟨b :: bs, σ2, by simp [each, e1, e2], .cons p1 p2, fun i hi => k2 i (k1 i hi), ?_⟩
    intro a' ha' i hi
    rcases List.mem_cons.1 ha' with rfl | ha'
    · exact k2 i (m1 i hi)
    · exact m2 a' ha' i hi

theorem choose_events {α β γ : Type} {R : α → β → γ → Prop} {as : List α} {bs : List β} (h : List.Forall₂ (fun a b => ∃ e, R a b e) as bs) :
    ∃ ts : List (β × γ), ts.map Prod.fst = bs ∧ List.Forall₂ (fun a p => R a p.1 p.2) as ts := by
  induction h with
  | nil => exact ⟨[], rfl, .nil⟩
  | cons h _ ih =>
    obtain ⟨e, he⟩ := h
    obtain ⟨ts, h1, h2⟩ := ih
    exact ⟨(_, e) :: ts, by simp [h1], .cons he h2⟩

theorem forall₂_mem {α β : Type} {R : α → β → Prop} {as : List α} {bs : List β} (h : List.Forall₂ R as bs) : ∀ b ∈ bs, ∃ a ∈ as, R a b := by
  induction h with
  | nil => simp
  | cons h _ ih =>
    intro b hb
    rcases List.mem_cons.1 hb with rfl | hb
    · exact ⟨_, List.mem_cons_self .., h⟩
    · obtain ⟨a, ha, h⟩ := ih b hb
      exact ⟨a, List.mem_cons_of_mem _ ha, h⟩

theorem forall₂_sum {α β : Type} {R : α → β → Prop} {as : List α} {bs : List β} (h : List.Forall₂ R as bs) (f : α → ℝ) (g : β → ℝ)
    (hfg : ∀ a b, R a b → f a = g b) : (as.map f).sum = (bs.map g).sum := by
  induction h with
  | nil => rfl
  | cons h _ ih => simp [hfg _ _ h, ih]

theorem hasDerivAt_list {α : Type} {t : ℝ} (as : List α) (f : α → ℝ → ℝ) (d : α → ℝ) (h : ∀ a ∈ as, HasDerivAt (f a) (d a) t) :
    HasDerivAt (fun s => (as.map fun a => f a s).sum) (as.map d).sum t := by
  induction as with
  | nil => simpa using hasDerivAt_const t (0 : ℝ)
  | cons a as ih =>
    simp only [List.map_cons, List.sum_cons]
    exact (h a (List.mem_cons_self ..)).add (ih fun b hb => h b (List.mem_cons_of_mem _ hb))

/-! ### Calls under a chain rule matrix -/

theorem run_adds_under (jenv : Jacobian.Env ℝ) (align n : Nat) (fs : List (DMat ℝ)) (hfit : MatrixStack.Spec.Fits align n fs) (L : List (Nat × DMat ℝ))
    (hL : ∀ p ∈ L, p.2.rows = MatrixStack.Spec.cols n fs ∧ p.2.cols = jenv.dim p.1) (os : List (Jacobian.Op ℝ)) (z : List (DMat ℝ) × List (Event ℝ)) (ev : List (Event ℝ))
    (hr : Jacobian.Spec.Run jenv align n (fs, ev ++ (L.filter fun p => jenv.active p.1).map fun p => (p.1, Jacobian.Spec.contribution fs p.2)) os z) :
    Jacobian.Spec.Run jenv align n (fs, ev) (Jacobian.adds L ++ os) z := by
  induction L generalizing ev with
  | nil => simpa [Jacobian.adds] using hr
  | cons p L ih =>
    have hp := hL p (List.mem_cons_self ..)
    refine Jacobian.Spec.Run.cons (s' := (fs, Jacobian.Spec.record jenv ev p.1 (Jacobian.Spec.contribution fs p.2))) ?_ hfit ?_
    · simp [Jacobian.Spec.step, hp]
    · refine ih (fun q hq => hL q (List.mem_cons_of_mem _ hq)) _ ?_
      have he : Jacobian.Spec.record jenv ev p.1 (Jacobian.Spec.contribution fs p.2) ++ (L.filter fun p => jenv.active p.1).map (fun p => (p.1, Jacobian.Spec.contribution fs p.2)) =
          ev ++ ((p :: L).filter fun p => jenv.active p.1).map (fun p => (p.1, Jacobian.Spec.contribution fs p.2)) := by
        by_cases ha : jenv.active p.1 = true <;> simp [Jacobian.Spec.record, ha]
      rw [he]
      exact hr

/-- What the calls of a term add up to, with a factor `F` around them. -/
theorem total_under (jenv : Jacobian.Env ℝ) (F : DMat ℝ) (L : List (Nat × DMat ℝ)) (hL : ∀ p ∈ L, p.2.rows = F.cols) (d : Nat) (ha : jenv.active d = true)
    {i : Nat} (hi : i < F.rows) (j : Nat) :
    Jacobian.Spec.total ((L.filter fun p => jenv.active p.1).map fun p => (p.1, Jacobian.Spec.contribution [F] p.2)) d i j =
      ∑ u ∈ Finset.range F.cols, F.e i u * Jacobian.assigned L d u j := by
  induction L with
  | nil => simp [Jacobian.Spec.total, Jacobian.assigned]
  | cons p L ih =>
    have hp := hL p (List.mem_cons_self ..)
    have := ih fun q hq => hL q (List.mem_cons_of_mem _ hq)
    unfold Jacobian.Spec.total Jacobian.assigned at this ⊢
    by_cases he : p.1 = d
    · rw [List.filter_cons_of_pos (p := fun p : Nat × DMat ℝ => jenv.active p.1) (by simpa [he] using ha)]
      simp only [List.map_cons, List.filter_cons, he, decide_true, if_true, List.sum_cons, this, mul_add, Finset.sum_add_distrib]
      congr 1
      unfold Jacobian.Spec.contribution
      rw [hp]
      refine Finset.sum_congr rfl fun u hu => ?_
      rw [MatrixStack.prod_single_rows rfl hi]
    · by_cases hb : jenv.active p.1 = true
      · rw [List.filter_cons_of_pos (p := fun p : Nat × DMat ℝ => jenv.active p.1) hb]
        simp only [List.map_cons, List.filter_cons, he, decide_false, Bool.false_eq_true, if_false, this]
      · rw [List.filter_cons_of_neg (p := fun p : Nat × DMat ℝ => jenv.active p.1) hb]
        simp only [List.filter_cons, he, decide_false, Bool.false_eq_true, if_false, this]

/-! ### Sums over the active variables -/

/-- A gradient times a step. -/
noncomputable def along (jenv : Jacobian.Env ℝ) (dvs : List Nat) (η G : Nat → Nat → ℝ) : ℝ :=
  (dvs.map fun d => ∑ j ∈ Finset.range (jenv.dim d), G d j * η d j).sum

theorem along_congr {jenv : Jacobian.Env ℝ} {dvs : List Nat} {η G G' : Nat → Nat → ℝ} (h : ∀ d ∈ dvs, ∀ j, j < jenv.dim d → G d j = G' d j) :
    along jenv dvs η G = along jenv dvs η G' := by
  unfold along
  congr 1
  refine List.map_congr_left fun d hd => Finset.sum_congr rfl fun j hj => ?_
  rw [h d hd j (Finset.mem_range.1 hj)]

theorem along_add (jenv : Jacobian.Env ℝ) (dvs : List Nat) (η G G' : Nat → Nat → ℝ) :
    along jenv dvs η (fun d j => G d j + G' d j) = along jenv dvs η G + along jenv dvs η G' := by
  unfold along
  rw [← List.sum_map_add]
  congr 1
  refine List.map_congr_left fun d _ => ?_
  rw [← Finset.sum_add_distrib]
  exact Finset.sum_congr rfl fun j _ => by ring

theorem along_smul (jenv : Jacobian.Env ℝ) (dvs : List Nat) (η G : Nat → Nat → ℝ) (a : ℝ) :
    along jenv dvs η (fun d j => a * G d j) = a * along jenv dvs η G := by
  unfold along
  rw [← List.sum_map_mul_left]
  congr 1
  refine List.map_congr_left fun d _ => ?_
  rw [Finset.mul_sum]
  exact Finset.sum_congr rfl fun j _ => by ring

theorem along_zero (jenv : Jacobian.Env ℝ) (dvs : List Nat) (η : Nat → Nat → ℝ) : along jenv dvs η (fun _ _ => 0) = 0 := by
  simp [along]

theorem along_list {α : Type} (jenv : Jacobian.Env ℝ) (dvs : List Nat) (η : Nat → Nat → ℝ) (as : List α) (G : α → Nat → Nat → ℝ) :
    along jenv dvs η (fun d j => (as.map fun a => G a d j).sum) = (as.map fun a => along jenv dvs η (G a)).sum := by
  induction as with
  | nil => simp [along_zero]
  | cons a as ih => simp only [List.map_cons, List.sum_cons, along_add, ih]

theorem along_finset (jenv : Jacobian.Env ℝ) (dvs : List Nat) (η : Nat → Nat → ℝ) (n : Nat) (G : Nat → Nat → Nat → ℝ) :
    along jenv dvs η (fun d j => ∑ i ∈ Finset.range n, G i d j) = ∑ i ∈ Finset.range n, along jenv dvs η (G i) := by
  induction n with
  | zero => simp [along_zero]
  | succ n ih => simp only [Finset.sum_range_succ, along_add, ih]

/-- The steps of the active variables, scaled; the others do not move. -/
def scaledStep (jenv : Jacobian.Env ℝ) (scaled : Bool) (η : Nat → Nat → ℝ) (d j : Nat) : ℝ :=
  if jenv.active d then (if scaled then jenv.scaling d else 1) * η d j else 0

theorem along_assigned {jenv : Jacobian.Env ℝ} {dvs : List Nat} (hnd : dvs.Nodup) (hdvs : ∀ d, jenv.active d = true ↔ d ∈ dvs) (scaled : Bool) (η : Nat → Nat → ℝ)
    (L : List (Nat × DMat ℝ)) (hL : ∀ p ∈ L, p.2.cols = jenv.dim p.1) (i : Nat) :
    along jenv dvs η (fun d j => Jacobian.assigned L d i j * (if scaled then jenv.scaling d else 1)) = (L.map fun p => times (scaledStep jenv scaled η) p i).sum := by
  induction L with
  | nil => simp [Jacobian.assigned, along_zero]
  | cons p L ih =>
    have hp := hL p (List.mem_cons_self ..)
    have h1 : along jenv dvs η (fun d j => Jacobian.assigned (p :: L) d i j * (if scaled then jenv.scaling d else 1)) =
        along jenv dvs η (fun d j => (if p.1 = d then p.2.e i j else 0) * (if scaled then jenv.scaling d else 1)) +
        along jenv dvs η (fun d j => Jacobian.assigned L d i j * (if scaled then jenv.scaling d else 1)) := by
      rw [← along_add]
      refine along_congr fun d _ j _ => ?_
      unfold Jacobian.assigned
      rw [List.filter_cons]
      by_cases he : p.1 = d <;> cases scaled <;> simp [he, add_mul]
    rw [h1, ih fun q hq => hL q (List.mem_cons_of_mem _ hq), List.map_cons, List.sum_cons]
    congr 1
    unfold along times scaledStep
    rw [hp]
    by_cases ha : jenv.active p.1 = true
    · have hm := (hdvs p.1).1 ha
      have h2 : ∀ l : List Nat, l.Nodup → p.1 ∈ l → (l.map fun d => ∑ j ∈ Finset.range (jenv.dim d),
          (if p.1 = d then p.2.e i j else 0) * (if scaled then jenv.scaling d else 1) * η d j).sum =
          ∑ j ∈ Finset.range (jenv.dim p.1), p.2.e i j * ((if scaled then jenv.scaling p.1 else 1) * η p.1 j) := by
        intro l
        induction l with
        | nil => intro _ h; cases h
        | cons d l ih =>
          intro hn hm
          rw [List.nodup_cons] at hn
          rw [List.map_cons, List.sum_cons]
          by_cases he : p.1 = d
          · subst he
            have hz : (l.map fun d => ∑ j ∈ Finset.range (jenv.dim d), (if p.1 = d then p.2.e i j else 0) * (if scaled then jenv.scaling d else 1) * η d j).sum = 0 := by
              refine List.sum_eq_zero fun x hx => ?_
              obtain ⟨d, hd, rfl⟩ := List.mem_map.1 hx
              have : p.1 ≠ d := fun h => hn.1 (h ▸ hd)
              simp [this]
            rw [hz, add_zero]
            refine Finset.sum_congr rfl fun j _ => ?_
            rw [if_pos rfl]; ring
          · have hm' : p.1 ∈ l := (List.mem_cons.1 hm).resolve_left he
            rw [ih hn.2 hm']
            simp [he]
      rw [h2 dvs hnd hm]
      refine Finset.sum_congr rfl fun j _ => ?_
      rw [if_pos ha]
    · have hz : ∀ d ∈ dvs, p.1 ≠ d := fun d hd h => ha ((hdvs p.1).2 (h ▸ hd))
      rw [List.sum_eq_zero]
      · simp [ha]
      · intro x hx
        obtain ⟨d, hd, rfl⟩ := List.mem_map.1 hx
        simp [hz d hd]

end Verif.ExprTerm
