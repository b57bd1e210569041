import Verif.Expr.Lemmas

/-! Jacobians and the members of nodes; Jacobians and reported design variables. -/
namespace Verif.Expr
open Matrix Verif.Geo

variable {invS : V3 × ℝ → Matrix (Fin 3 ⊕ Unit) (Fin 3) ℝ} {env : Env} {tbl : Table} {m : Nat}

/-! ### Evaluating Jacobians keeps members which are up to date so, and adds Jacobians of reported variables only -/

def Mono (env : Env) (tbl : Table) (V : List Var) (g : Store → JRes m) : Prop :=
  ∀ σ L σ', g σ = .ok (L, σ') → (∀ i, FreshId env tbl σ i → FreshId env tbl σ' i) ∧ ∀ b ∈ L, b.v ∈ V

theorem Mono.ret {V : List Var} {L : List (Contr m)} (hL : ∀ b ∈ L, b.v ∈ V) : Mono env tbl V (fun σ => .ok (L, σ)) := by
  intro σ L' σ' h
  simp at h
  exact ⟨fun i hi => h.2 ▸ hi, h.1 ▸ hL⟩

theorem Mono.ub {V : List Var} : Mono env tbl V (fun _ => (.ub : JRes m)) := by intro σ L σ' h; simp at h
theorem Mono.exc {V : List Var} : Mono env tbl V (fun _ => (.exc : JRes m)) := by intro σ L σ' h; simp at h

theorem Mono.seq {V W : List Var} {f g : Store → JRes m} (hf : Mono env tbl V f) (hg : Mono env tbl W g) : Mono env tbl (V ++ W) (seq f g) := by
  intro σ L σ' h
  simp only [Expr.seq, bind_eq_ok] at h
  obtain ⟨⟨L1, σ1⟩, h1, ⟨L2, σ2⟩, h2, h3⟩ := h
  simp at h3
  obtain ⟨rfl, rfl⟩ := h3
  refine ⟨fun i hi => (hg _ _ _ h2).1 i ((hf _ _ _ h1).1 i hi), fun b hb => ?_⟩
  rcases List.mem_append.mp hb with hb | hb
  · exact List.mem_append_left _ ((hf _ _ _ h1).2 b hb)
  · exact List.mem_append_right _ ((hg _ _ _ h2).2 b hb)

theorem Mono.seq' {V W : List Var} {f g : Store → JRes m} (hf : Mono env tbl W f) (hg : Mono env tbl V g) : Mono env tbl (V ++ W) (Expr.seq f g) := by
  intro σ L σ' h
  obtain ⟨h1, h2⟩ := Mono.seq hf hg σ L σ' h
  exact ⟨h1, fun b hb => by simpa [or_comm] using h2 b hb⟩

theorem Mono.ev {V : List Var} {ty : Ty} {e : Node ty} {k : Val ty → Store → JRes m} (hc : Cons tbl e) (hk : ∀ v, Mono env tbl V (k v)) :
    Mono env tbl V (ev env e k) := by
  intro σ L σ' h
  simp only [Expr.ev, bind_eq_ok] at h
  obtain ⟨v, -, h⟩ := h
  obtain ⟨h1, h2⟩ := hk v _ _ _ h
  exact ⟨fun i hi => h1 i (upd_mono env tbl e σ i hc hi), h2⟩

theorem Mono.ite {V : List Var} {p : Prop} [Decidable p] {f g : Store → JRes m} (hf : Mono env tbl V f) (hg : Mono env tbl V g) :
    Mono env tbl V (fun σ => if p then f σ else g σ) := by
  by_cases h : p
  · simpa [h] using hf
  · simpa [h] using hg

theorem Mono.bind {V : List Var} {α : Type} {r : Res α} {k : α → Store → JRes m} (hk : ∀ v, Mono env tbl V (k v)) :
    Mono env tbl V (fun σ => r >>= fun v => k v σ) := by
  cases r with
  | ok v => simpa using hk v
  | exc => simpa using Mono.exc
  | ub => simpa using Mono.ub

theorem jac_mono : {ty : Ty} → (e : Node ty) → (A : Matrix (Fin m) (TI ty) ℝ) → Cons tbl e → Mono env tbl (dvs env e) (jac invS env e A)
  | _, .sconst _, _, _ => Mono.ret (by simp)
  | _, .svar _, _, _ => Mono.ret (by simp [dvs])
  | _, .sun f a, A, hc => Mono.ev hc fun x => Mono.bind fun d => jac_mono a _ hc
  | _, .smul a b, A, hc => Mono.seq (Mono.ev hc.2 fun _ => jac_mono a _ hc.1) (Mono.ev hc.1 fun _ => jac_mono b _ hc.2)
  | _, .sdiv a b, A, hc => Mono.ev hc.2 fun _ => Mono.ev hc.1 fun _ => Mono.ite Mono.ub (Mono.seq (jac_mono a _ hc.1) (jac_mono b _ hc.2))
  | _, .sadd a b _, A, hc => Mono.seq (jac_mono a _ hc.1) (jac_mono b _ hc.2)
  | _, .satan2 a b, A, hc => Mono.ev hc.1 fun _ => Mono.ev hc.2 fun _ => Mono.ite Mono.ub (Mono.seq (jac_mono a _ hc.1) (jac_mono b _ hc.2))
  | _, .spiece cond a b, A, hc => by
    intro σ L σ' h
    cases hct : cond env with
    | true =>
      simp only [jac, dvs, hct, if_true] at h ⊢
      exact jac_mono a _ hc.1 σ L σ' h
    | false =>
      simp only [jac, dvs, hct, Bool.false_eq_true, if_false] at h ⊢
      exact jac_mono b _ hc.2 σ L σ' h
  | _, .scomp _ p, A, hc => jac_mono p _ hc
  | _, .econst _, _, _ => Mono.ret (by simp)
  | _, .evar _, _, _ => Mono.ret (by simp [dvs])
  | _, .estack a b e, A, hc => Mono.seq (jac_mono a _ hc.1) (Mono.seq (jac_mono b _ hc.2.1) (jac_mono e _ hc.2.2))
  | _, .eadd a b, A, hc => Mono.seq (jac_mono a _ hc.1) (jac_mono b _ hc.2)
  | _, .esub a b, A, hc => Mono.seq (jac_mono a _ hc.1) (jac_mono b _ hc.2)
  | _, .esubc a _, A, hc => jac_mono a _ hc
  | _, .eneg a, A, hc => jac_mono a _ hc
  | _, .escale a b, A, hc => Mono.seq (Mono.ev hc.2 fun _ => jac_mono a _ hc.1) (Mono.ev hc.1 fun _ => jac_mono b _ hc.2)
  | _, .ecross a b, A, hc => Mono.seq (Mono.ev hc.2 fun _ => jac_mono a _ hc.1) (Mono.ev hc.1 fun _ => jac_mono b _ hc.2)
  | _, .eelem a b, A, hc => Mono.seq (Mono.ev hc.2 fun _ => jac_mono a _ hc.1) (Mono.ev hc.1 fun _ => jac_mono b _ hc.2)
  | _, .erot id a b, A, hc => fun σ L σ' h => by
      rw [jac] at h
      split at h
      · exact Mono.seq (jac_mono a _ hc.2.1) (jac_mono b _ hc.2.2) σ L σ' h
      · simp at h
  | _, .emat id (.mvar i free) b, A, hc => fun σ L σ' h => by
      rw [jac] at h
      split at h
      · exact Mono.seq (jac_mono (.mvar i free) _ hc.2.1) (jac_mono b _ hc.2.2) σ L σ' h
      · simp at h
  | _, .etrans T, A, hc => Mono.ev hc fun _ => jac_mono T _ hc
  | _, .ehom h, A, hc => Mono.ev hc fun _ => Mono.ite Mono.ub (jac_mono h _ hc)
  | _, .rconst _, _, _ => Mono.ret (by simp)
  | _, .rvar _, _, _ => Mono.ret (by simp [dvs])
  | _, .rmul id a b, A, hc => fun σ L σ' h => by
      rw [jac] at h
      split at h
      · exact Mono.seq' (jac_mono b _ hc.2.2) (jac_mono a _ hc.2.1) σ L σ' h
      · simp at h
  | _, .rinv id a, A, hc => fun σ L σ' h => by
      rw [jac] at h
      split at h
      · exact jac_mono a _ hc.2 σ L σ' h
      · simp at h
  | _, .raxis _ s, A, hc => jac_mono s _ hc
  | _, .rtrans T, A, hc => jac_mono T _ hc
  | _, .tconst _, _, _ => Mono.ret (by simp)
  | _, .tbasic r p, A, hc => Mono.seq (Mono.ev hc.2 fun _ => jac_mono r _ hc.1) (jac_mono p _ hc.2)
  | _, .tbasicR r, A, hc => jac_mono r _ hc
  | _, .tbasicE p, A, hc => jac_mono p _ hc
  | _, .tmul id a b, A, hc => fun σ L σ' h => by
      rw [jac] at h
      split at h
      · exact Mono.seq' (jac_mono b _ hc.2.2) (jac_mono a _ hc.2.1) σ L σ' h
      · simp at h
  | _, .tinv id a, A, hc => fun σ L σ' h => by
      rw [jac] at h
      split at h
      · exact jac_mono a _ hc.2 σ L σ' h
      · simp at h
  | _, .hconst _, _, _ => Mono.ret (by simp)
  | _, .hvar _, _, _ => Mono.ret (by simp [dvs])
  | _, .hmul id a b, A, hc => fun σ L σ' h => by
      rw [jac] at h
      split at h
      · exact Mono.seq (jac_mono a _ hc.2.1) (jac_mono b _ hc.2.2) σ L σ' h
      · simp at h
  | _, .heuc p, A, hc => jac_mono p _ hc
  | _, .mvar i free, _, _ => by
    by_cases h : free = []
    · subst h; exact Mono.ret (by simp)
    · exact Mono.ret (by simp [dvs, h])

/-! ### With members up to date Jacobians do not depend on how they got there -/

/-- The outcome is the same for all contents of members which are up to date for `S`. -/
def Det (env : Env) (tbl : Table) (S : List Nat) (g : Store → JRes m) : Prop :=
  ∃ R : Res (List (Contr m)), ∀ σ, (∀ i ∈ S, FreshId env tbl σ i) →
    match R with
    | .ok L => ∃ σ', g σ = .ok (L, σ') ∧ ∀ i, FreshId env tbl σ i → FreshId env tbl σ' i
    | .exc => g σ = .exc
    | .ub => g σ = .ub

theorem Det.ret (L : List (Contr m)) : Det env tbl [] (fun σ => .ok (L, σ)) := ⟨.ok L, fun σ _ => ⟨σ, rfl, fun _ h => h⟩⟩
theorem Det.ub {S : List Nat} : Det env tbl S (fun _ => (.ub : JRes m)) := ⟨.ub, fun _ _ => rfl⟩
theorem Det.exc {S : List Nat} : Det env tbl S (fun _ => (.exc : JRes m)) := ⟨.exc, fun _ _ => rfl⟩

theorem Det.seq {S S' : List Nat} {f g : Store → JRes m} (hf : Det env tbl S f) (hg : Det env tbl S' g) : Det env tbl (S ++ S') (Expr.seq f g) := by
  obtain ⟨R, hR⟩ := hf
  obtain ⟨Q, hQ⟩ := hg
  cases R with
  | exc => exact ⟨.exc, fun σ h => by have := hR σ fun i hi => h i (List.mem_append_left _ hi); simp only at this; simp [Expr.seq, this]⟩
  | ub => exact ⟨.ub, fun σ h => by have := hR σ fun i hi => h i (List.mem_append_left _ hi); simp only at this; simp [Expr.seq, this]⟩
  | ok L =>
    cases Q with
    | exc =>
      refine ⟨.exc, fun σ h => ?_⟩
      obtain ⟨σ1, h1, h2⟩ := hR σ fun i hi => h i (List.mem_append_left _ hi)
      have := hQ σ1 fun i hi => h2 i (h i (List.mem_append_right _ hi))
      simp only at this
      simp [Expr.seq, h1, this]
    | ub =>
      refine ⟨.ub, fun σ h => ?_⟩
      obtain ⟨σ1, h1, h2⟩ := hR σ fun i hi => h i (List.mem_append_left _ hi)
      have := hQ σ1 fun i hi => h2 i (h i (List.mem_append_right _ hi))
      simp only at this
      simp [Expr.seq, h1, this]
    | ok L' =>
      refine ⟨.ok (L ++ L'), fun σ h => ?_⟩
      obtain ⟨σ1, h1, h2⟩ := hR σ fun i hi => h i (List.mem_append_left _ hi)
      obtain ⟨σ2, h3, h4⟩ := hQ σ1 fun i hi => h2 i (h i (List.mem_append_right _ hi))
      exact ⟨σ2, by simp [Expr.seq, h1, h3], fun i hi => h4 i (h2 i hi)⟩

theorem Det.ev {S : List Nat} {ty : Ty} {e : Node ty} {k : Val ty → Store → JRes m} (hc : Cons tbl e) (hk : ∀ v, Det env tbl S (k v)) :
    Det env tbl S (Expr.ev env e k) := by
  cases hv : val env e with
  | exc => exact ⟨.exc, fun σ _ => by simp [Expr.ev, hv]⟩
  | ub => exact ⟨.ub, fun σ _ => by simp [Expr.ev, hv]⟩
  | ok v =>
    obtain ⟨R, hR⟩ := hk v
    refine ⟨R, fun σ h => ?_⟩
    have := hR (upd env e σ) fun i hi => upd_mono env tbl e σ i hc (h i hi)
    have he : Expr.ev env e k σ = k v (upd env e σ) := by simp [Expr.ev, hv]
    cases R with
    | exc => rw [he]; exact this
    | ub => rw [he]; exact this
    | ok L =>
      obtain ⟨σ1, h1, h2⟩ := this
      exact ⟨σ1, by rw [he]; exact h1, fun i hi => h2 i (upd_mono env tbl e σ i hc hi)⟩

theorem Det.ite {S : List Nat} {p : Prop} [Decidable p] {f g : Store → JRes m} (hf : Det env tbl S f) (hg : Det env tbl S g) :
    Det env tbl S (fun σ => if p then f σ else g σ) := by
  by_cases h : p
  · simpa [h] using hf
  · simpa [h] using hg

theorem Det.bind {S : List Nat} {α : Type} {r : Res α} {k : α → Store → JRes m} (hk : ∀ v, Det env tbl S (k v)) :
    Det env tbl S (fun σ => r >>= fun v => k v σ) := by
  cases r with
  | ok v => simpa using hk v
  | exc => simpa using Det.exc
  | ub => simpa using Det.ub

theorem Det.cons {S : List Nat} {g g' : Store → JRes m} {id : Nat} {ty : Ty} {e : Node ty} {x : Cell}
    (ht : tbl id = ⟨ty, e⟩) (hx : cell env e = .ok x) (he : ∀ σ, σ id = some x → g σ = g' σ) (h : Det env tbl S g') : Det env tbl (id :: S) g := by
  obtain ⟨R, hR⟩ := h
  refine ⟨R, fun σ hs => ?_⟩
  obtain ⟨y, h1, h2⟩ := hs id (List.mem_cons_self ..)
  rw [ht, hx] at h1
  cases h1
  rw [he σ h2]
  exact hR σ fun i hi => hs i (List.mem_cons_of_mem _ hi)

theorem jac_det : {ty : Ty} → (e : Node ty) → (A : Matrix (Fin m) (TI ty) ℝ) → Cons tbl e → {v : Val ty} → val env e = .ok v →
    Det env tbl (ids env e) (jac invS env e A)
  | _, .sconst _, _, _, _, _ => Det.ret _
  | _, .svar _, _, _, _, _ => Det.ret _
  | _, .sun f a, A, hc, _, hv => by
    simp only [val, bind_eq_ok] at hv
    obtain ⟨x, hx, -⟩ := hv
    exact Det.ev hc fun x => Det.bind fun d => jac_det a _ hc hx
  | _, .smul a b, A, hc, _, hv => by
    simp only [val, bind_eq_ok] at hv
    obtain ⟨x, hx, y, hy, -⟩ := hv
    exact Det.seq (Det.ev hc.2 fun _ => jac_det a _ hc.1 hx) (Det.ev hc.1 fun _ => jac_det b _ hc.2 hy)
  | _, .sdiv a b, A, hc, _, hv => by
    simp only [val, bind_eq_ok] at hv
    obtain ⟨x, hx, y, hy, -⟩ := hv
    exact Det.ev hc.2 fun _ => Det.ev hc.1 fun _ => Det.ite Det.ub (Det.seq (jac_det a _ hc.1 hx) (jac_det b _ hc.2 hy))
  | _, .sadd a b _, A, hc, _, hv => by
    simp only [val, bind_eq_ok] at hv
    obtain ⟨x, hx, y, hy, -⟩ := hv
    exact Det.seq (jac_det a _ hc.1 hx) (jac_det b _ hc.2 hy)
  | _, .satan2 a b, A, hc, _, hv => by
    simp only [val, bind_eq_ok] at hv
    obtain ⟨x, hx, y, hy, -⟩ := hv
    exact Det.ev hc.1 fun _ => Det.ev hc.2 fun _ => Det.ite Det.ub (Det.seq (jac_det a _ hc.1 hx) (jac_det b _ hc.2 hy))
  | _, .spiece cond a b, A, hc, v, hv => by
    cases hct : cond env with
    | true =>
      have := jac_det a A hc.1 (v := v) (by simpa [val, hct] using hv)
      simpa only [ids, jac, hct, if_true] using this
    | false =>
      have := jac_det b A hc.2 (v := v) (by simpa [val, hct] using hv)
      simpa [ids, jac, hct] using this
  | _, .scomp _ p, A, hc, _, hv => by
    simp only [val, bind_eq_ok] at hv
    obtain ⟨x, hx, -⟩ := hv
    exact jac_det p _ hc hx
  | _, .econst _, _, _, _, _ => Det.ret _
  | _, .evar _, _, _, _, _ => Det.ret _
  | _, .estack a b e, A, hc, _, hv => by
    simp only [val, bind_eq_ok] at hv
    obtain ⟨x, hx, y, hy, z, hz, -⟩ := hv
    exact Det.seq (jac_det a _ hc.1 hx) (Det.seq (jac_det b _ hc.2.1 hy) (jac_det e _ hc.2.2 hz))
  | _, .eadd a b, A, hc, _, hv => by
    simp only [val, bind_eq_ok] at hv
    obtain ⟨x, hx, y, hy, -⟩ := hv
    exact Det.seq (jac_det a _ hc.1 hx) (jac_det b _ hc.2 hy)
  | _, .esub a b, A, hc, _, hv => by
    simp only [val, bind_eq_ok] at hv
    obtain ⟨x, hx, y, hy, -⟩ := hv
    exact Det.seq (jac_det a _ hc.1 hx) (jac_det b _ hc.2 hy)
  | _, .esubc a _, A, hc, _, hv => by
    simp only [val, bind_eq_ok] at hv
    obtain ⟨x, hx, -⟩ := hv
    exact jac_det a _ hc hx
  | _, .eneg a, A, hc, _, hv => by
    simp only [val, bind_eq_ok] at hv
    obtain ⟨x, hx, -⟩ := hv
    exact jac_det a _ hc hx
  | _, .escale a b, A, hc, _, hv => by
    simp only [val, bind_eq_ok] at hv
    obtain ⟨x, hx, y, hy, -⟩ := hv
    exact Det.seq (Det.ev hc.2 fun _ => jac_det a _ hc.1 hx) (Det.ev hc.1 fun _ => jac_det b _ hc.2 hy)
  | _, .ecross a b, A, hc, _, hv => by
    simp only [val, bind_eq_ok] at hv
    obtain ⟨x, hx, y, hy, -⟩ := hv
    exact Det.seq (Det.ev hc.2 fun _ => jac_det a _ hc.1 hx) (Det.ev hc.1 fun _ => jac_det b _ hc.2 hy)
  | _, .eelem a b, A, hc, _, hv => by
    simp only [val, bind_eq_ok] at hv
    obtain ⟨x, hx, y, hy, -⟩ := hv
    exact Det.seq (Det.ev hc.2 fun _ => jac_det a _ hc.1 hx) (Det.ev hc.1 fun _ => jac_det b _ hc.2 hy)
  | _, .erot id a b, A, hc, v, hv => by
    have hv' := hv
    simp only [val, bind_eq_ok] at hv'
    obtain ⟨x, hx, y, hy, -⟩ := hv'
    exact Det.cons hc.1 (x := .rp x y) (by simp [cell, hx, hy]) (fun σ h => by simp only [jac, h]) (Det.seq (jac_det a (A * crossMx (x *ᵥ y)) hc.2.1 hx) (jac_det b (A * x) hc.2.2 hy))
  | _, .emat id (.mvar i free) b, A, hc, v, hv => by
    have hv' := hv
    simp only [val, bind_eq_ok] at hv'
    obtain ⟨x, hx, y, hy, -⟩ := hv'
    exact Det.cons hc.1 (x := .mp (env.mat i free) y) (by simp [cell, val, hy]) (fun σ h => by simp only [jac, h])
      (Det.seq (jac_det (.mvar i free) (A * matJ y) hc.2.1 (v := env.mat i free) rfl) (jac_det b (A * env.mat i free) hc.2.2 hy))
  | _, .etrans T, A, hc, _, hv => by
    simp only [val, bind_eq_ok] at hv
    obtain ⟨x, hx, -⟩ := hv
    exact Det.ev hc fun _ => jac_det T _ hc hx
  | _, .ehom h, A, hc, _, hv => by
    simp only [val, bind_eq_ok] at hv
    obtain ⟨x, hx, -⟩ := hv
    exact Det.ev hc fun _ => Det.ite Det.ub (jac_det h _ hc hx)
  | _, .rconst _, _, _, _, _ => Det.ret _
  | _, .rvar _, _, _, _, _ => Det.ret _
  | _, .rmul id a b, A, hc, v, hv => by
    have hv' := hv
    simp only [val, bind_eq_ok] at hv'
    obtain ⟨x, hx, y, hy, -⟩ := hv'
    exact Det.cons hc.1 (x := .rr x y) (by simp [cell, hx, hy]) (fun σ h => by simp only [jac, h]) (Det.seq (jac_det b (A * x) hc.2.2 hy) (jac_det a A hc.2.1 hx))
  | _, .rinv id a, A, hc, _, hv => by
    simp only [val, bind_eq_ok] at hv
    obtain ⟨x, hx, -⟩ := hv
    exact Det.cons hc.1 (x := .r x) (by simp [cell, hx]) (fun σ h => by simp only [jac, h]) (jac_det a (A * -xᵀ) hc.2 hx)
  | _, .raxis _ s, A, hc, _, hv => by
    simp only [val, bind_eq_ok] at hv
    obtain ⟨x, hx, -⟩ := hv
    exact jac_det s _ hc hx
  | _, .rtrans T, A, hc, _, hv => by
    simp only [val, bind_eq_ok] at hv
    obtain ⟨x, hx, -⟩ := hv
    exact jac_det T _ hc hx
  | _, .tconst _, _, _, _, _ => Det.ret _
  | _, .tbasic a b, A, hc, _, hv => by
    simp only [val, bind_eq_ok] at hv
    obtain ⟨x, hx, y, hy, -⟩ := hv
    exact Det.seq (Det.ev hc.2 fun _ => jac_det a _ hc.1 hx) (jac_det b _ hc.2 hy)
  | _, .tbasicR a, A, hc, _, hv => by
    simp only [val, bind_eq_ok] at hv
    obtain ⟨x, hx, -⟩ := hv
    exact jac_det a _ hc hx
  | _, .tbasicE a, A, hc, _, hv => by
    simp only [val, bind_eq_ok] at hv
    obtain ⟨x, hx, -⟩ := hv
    exact jac_det a _ hc hx
  | _, .tmul id a b, A, hc, v, hv => by
    have hv' := hv
    simp only [val, bind_eq_ok] at hv'
    obtain ⟨x, hx, y, hy, -⟩ := hv'
    exact Det.cons hc.1 (x := .tt x y) (by simp [cell, hx, hy]) (fun σ h => by simp only [jac, h]) (Det.seq (jac_det b (A * boxTimes x) hc.2.2 hy) (jac_det a A hc.2.1 hx))
  | _, .tinv id a, A, hc, v, hv => by
    simp only [val, bind_eq_ok] at hv
    obtain ⟨x, hx, hz⟩ := hv
    exact Det.cons hc.1 (x := .t v) (by simp [cell, hx, hz]) (fun σ h => by simp only [jac, h]) (jac_det a (A * -boxTimes v) hc.2 hx)
  | _, .hconst _, _, _, _, _ => Det.ret _
  | _, .hvar _, _, _, _, _ => Det.ret _
  | _, .hmul id a b, A, hc, v, hv => by
    have hv' := hv
    simp only [val, bind_eq_ok] at hv'
    obtain ⟨x, hx, y, hy, -⟩ := hv'
    exact Det.cons hc.1 (x := .th x y) (by simp [cell, hx, hy]) (fun σ h => by simp only [jac, h]) (Det.seq (jac_det a (A * boxMinus (x.ap y)) hc.2.1 hx) (jac_det b (A * x.mat) hc.2.2 hy))
  | _, .heuc a, A, hc, _, hv => by
    simp only [val, bind_eq_ok] at hv
    obtain ⟨x, hx, -⟩ := hv
    exact jac_det a _ hc hx
  | _, .mvar _ _, _, _, _, _ => Det.ret _

end Verif.Expr
