import Verif.Expr.Lemmas

namespace Verif.Expr
open Matrix Verif.Geo Filter Topology

section Run
variable {env : Env} {tbl : Table} {δ : (v : Var) → v.Idx → ℝ} {m : Nat}

/-- With the members of the nodes `S` up to date, `g` succeeds, contributes `w` and keeps members which are up to date so. -/
def Run (env : Env) (tbl : Table) (δ : (v : Var) → v.Idx → ℝ) (S : List Nat) (g : Store → JRes m) (w : Fin m → ℝ) : Prop :=
  ∀ σ, (∀ i ∈ S, FreshId env tbl σ i) →
    ∃ L σ', g σ = .ok (L, σ') ∧ total δ L = w ∧ ∀ i, FreshId env tbl σ i → FreshId env tbl σ' i

theorem Run.congr {S : List Nat} {g : Store → JRes m} {w w' : Fin m → ℝ} (h : Run env tbl δ S g w) (e : w = w') : Run env tbl δ S g w' := e ▸ h

theorem Run.nil : Run env tbl δ [] (fun σ => (.ok ([], σ) : JRes m)) 0 :=
  fun σ _ => ⟨[], σ, rfl, by simp [total], fun _ h => h⟩

theorem Run.one (b : Contr m) : Run env tbl δ [] (fun σ => .ok ([b], σ)) (b.B *ᵥ δ b.v) :=
  fun σ _ => ⟨[b], σ, rfl, by simp [total], fun _ h => h⟩

theorem Run.seq {S S' : List Nat} {f g : Store → JRes m} {w w' : Fin m → ℝ} (hf : Run env tbl δ S f w) (hg : Run env tbl δ S' g w') :
    Run env tbl δ (S ++ S') (seq f g) (w + w') := by
  intro σ h
  obtain ⟨L, σ1, h1, h2, h3⟩ := hf σ fun i hi => h i (List.mem_append_left _ hi)
  obtain ⟨L', σ2, h4, h5, h6⟩ := hg σ1 fun i hi => h3 i (h i (List.mem_append_right _ hi))
  refine ⟨L ++ L', σ2, by simp [Expr.seq, h1, h4], ?_, fun i hi => h6 i (h3 i hi)⟩
  simp only [total, List.map_append, List.sum_append] at h2 h5 ⊢
  rw [h2, h5]

theorem Run.ev {S : List Nat} {ty : Ty} {e : Node ty} {v : Val ty} {k : Val ty → Store → JRes m} {w : Fin m → ℝ}
    (hc : Cons tbl e) (hv : val env e = .ok v) (hk : Run env tbl δ S (k v) w) : Run env tbl δ S (ev env e k) w := by
  intro σ h
  obtain ⟨L, σ1, h1, h2, h3⟩ := hk (upd env e σ) fun i hi => upd_mono env tbl e σ i hc (h i hi)
  exact ⟨L, σ1, by simp [Expr.ev, hv, h1], h2, fun i hi => h3 i (upd_mono env tbl e σ i hc hi)⟩

theorem Run.cons {S : List Nat} {g g' : Store → JRes m} {w : Fin m → ℝ} {id : Nat} {ty : Ty} {e : Node ty} {x : Cell}
    (ht : tbl id = ⟨ty, e⟩) (hx : cell env e = .ok x) (he : ∀ σ, σ id = some x → g σ = g' σ) (h : Run env tbl δ S g' w) :
    Run env tbl δ (id :: S) g w := by
  intro σ hs
  obtain ⟨y, h1, h2⟩ := hs id (List.mem_cons_self ..)
  rw [ht] at h1
  rw [hx] at h1
  cases h1
  rw [he σ h2]
  exact h σ fun i hi => hs i (List.mem_cons_of_mem _ hi)

end Run

variable (invS : V3 × ℝ → Matrix (Fin 3 ⊕ Unit) (Fin 3) ℝ)

/-- The value of `e` moves at a velocity which the Jacobian predicts. -/
def Good (c : ℝ → Env) (t : ℝ) (δ : (v : Var) → v.Idx → ℝ) (tbl : Table) {ty : Ty} (e : Node ty) : Prop :=
  ∃ f d, (∀ᶠ s in 𝓝 t, val (c s) e = .ok (f s)) ∧ Der ty f d t ∧
    ∀ (m : Nat) (A : Matrix (Fin m) (TI ty) ℝ), Run (c t) tbl δ (ids (c t) e) (jac invS (c t) e A) (A *ᵥ d)

theorem smul_mulVec' {m n : Type} [Fintype n] (a : ℝ) (A : Matrix m n ℝ) (d : n → ℝ) : (a • A) *ᵥ d = A *ᵥ (a • d) := by
  rw [Matrix.smul_mulVec, Matrix.mulVec_smul]

variable {invS} {c : ℝ → Env} {t : ℝ} {δ : (v : Var) → v.Idx → ℝ} {tbl : Table}

section Scalars

theorem good_sun {f : UnOp} {a : Node .S} (hc : Cons tbl a) (ha : Good invS c t δ tbl a) {v : ℝ} (hv : val (c t) (.sun f a) = .ok v)
    (hs : ∀ x, val (c t) a = .ok x → f.Smooth x) : Good invS c t δ tbl (.sun f a) := by
  obtain ⟨g, d, h1, h2, h3⟩ := ha
  have hx := h1.self_of_nhds
  have hv' : f.ap (g t) = .ok v := by simpa [val, hx] using hv
  obtain ⟨F, D, e1, e2, e3⟩ := f.correct _ _ hv' (hs _ hx)
  have h2' : HasDerivAt g (d ()) t := h2
  refine ⟨fun s => F (g s), D • d, ?_, ?_, fun m A => ?_⟩
  · filter_upwards [h1, h2'.continuousAt.eventually e1] with s q1 q2
    simp [val, q1, q2]
  · exact e3.comp t h2'
  · refine Run.ev hc hx ?_
    simp only [e2, Res.bind_ok]
    exact (h3 m (D • A)).congr (smul_mulVec' D A d)

theorem good_smul {a b : Node .S} (hca : Cons tbl a) (hcb : Cons tbl b) (ha : Good invS c t δ tbl a) (hb : Good invS c t δ tbl b) :
    Good invS c t δ tbl (.smul a b) := by
  obtain ⟨f, d, h1, h2, h3⟩ := ha
  obtain ⟨g, k, g1, g2, g3⟩ := hb
  refine ⟨fun s => f s * g s, g t • d + f t • k, ?_, ?_, fun m A => ?_⟩
  · filter_upwards [h1, g1] with s q1 q2
    simp [val, q1, q2]
  · refine HasDerivAt.congr_deriv (HasDerivAt.mul h2 g2) ?_
    simp; ring
  · refine ((Run.ev hcb g1.self_of_nhds (h3 m (g t • A))).seq (Run.ev hca h1.self_of_nhds (g3 m (f t • A)))).congr ?_
    rw [smul_mulVec', smul_mulVec', ← Matrix.mulVec_add]

theorem good_sdiv {a b : Node .S} (hca : Cons tbl a) (hcb : Cons tbl b) (ha : Good invS c t δ tbl a) (hb : Good invS c t δ tbl b)
    {v : ℝ} (hv : val (c t) (.sdiv a b) = .ok v) : Good invS c t δ tbl (.sdiv a b) := by
  obtain ⟨f, d, h1, h2, h3⟩ := ha
  obtain ⟨g, k, g1, g2, g3⟩ := hb
  have g2' : HasDerivAt g (k ()) t := g2
  have hg : g t ≠ 0 := by
    intro h0
    simp [val, h1.self_of_nhds, g1.self_of_nhds, h0] at hv
  refine ⟨fun s => f s / g s, (1 / g t) • d + (-f t * (1 / g t) * (1 / g t)) • k, ?_, ?_, fun m A => ?_⟩
  · filter_upwards [h1, g1, g2'.continuousAt.eventually_ne hg] with s q1 q2 q3
    simp [val, q1, q2, q3]
  · refine HasDerivAt.congr_deriv (HasDerivAt.div h2 g2' hg) ?_
    simp
    field_simp
    ring
  · refine Run.ev hcb g1.self_of_nhds (Run.ev hca h1.self_of_nhds ?_)
    simp only [if_neg hg]
    refine ((h3 m ((1 / g t) • A)).seq (g3 m ((-f t * (1 / g t) * (1 / g t)) • A))).congr ?_
    rw [smul_mulVec', smul_mulVec', ← Matrix.mulVec_add]

theorem good_sadd {a b : Node .S} {k : ℝ} (ha : Good invS c t δ tbl a) (hb : Good invS c t δ tbl b) :
    Good invS c t δ tbl (.sadd a b k) := by
  obtain ⟨f, d, h1, h2, h3⟩ := ha
  obtain ⟨g, d', g1, g2, g3⟩ := hb
  refine ⟨fun s => f s + k * g s, d + k • d', ?_, ?_, fun m A => ?_⟩
  · filter_upwards [h1, g1] with s q1 q2
    simp [val, q1, q2]
  · exact HasDerivAt.add h2 (HasDerivAt.const_mul k g2)
  · refine ((h3 m A).seq (g3 m (k • A))).congr ?_
    rw [smul_mulVec', ← Matrix.mulVec_add]

theorem good_satan2 {a b : Node .S} (hca : Cons tbl a) (hcb : Cons tbl b) (ha : Good invS c t δ tbl a) (hb : Good invS c t δ tbl b)
    (hs : ∀ y x, val (c t) a = .ok y → val (c t) b = .ok x → ¬ (y = 0 ∧ x ≤ 0)) : Good invS c t δ tbl (.satan2 a b) := by
  obtain ⟨f, d, h1, h2, h3⟩ := ha
  obtain ⟨g, k, g1, g2, g3⟩ := hb
  have hs' := hs _ _ h1.self_of_nhds g1.self_of_nhds
  have hn : f t * f t + g t * g t ≠ 0 := by
    intro h0
    have hft : f t = 0 := by nlinarith [mul_self_nonneg (f t), mul_self_nonneg (g t)]
    have hgt : g t = 0 := by nlinarith [mul_self_nonneg (f t), mul_self_nonneg (g t)]
    exact hs' ⟨hft, hgt.le⟩
  refine ⟨fun s => atan2 (f s) (g s), (g t * (1 / (f t * f t + g t * g t))) • d + (-f t * (1 / (f t * f t + g t * g t))) • k, ?_, ?_, fun m A => ?_⟩
  · filter_upwards [h1, g1] with s q1 q2
    simp [val, q1, q2]
  · exact hasDerivAt_atan2 h2 g2 hs'
  · refine Run.ev hca h1.self_of_nhds (Run.ev hcb g1.self_of_nhds ?_)
    simp only [if_neg hn]
    refine ((h3 m ((g t * (1 / (f t * f t + g t * g t))) • A)).seq (g3 m ((-f t * (1 / (f t * f t + g t * g t))) • A))).congr ?_
    rw [smul_mulVec', smul_mulVec', ← Matrix.mulVec_add]

theorem good_spiece {cond : Env → Bool} {a b : Node .S} (hs : ∀ᶠ s in 𝓝 t, cond (c s) = cond (c t))
    (ha : cond (c t) = true → Good invS c t δ tbl a) (hb : cond (c t) = false → Good invS c t δ tbl b) : Good invS c t δ tbl (.spiece cond a b) := by
  cases hct : cond (c t) with
  | true =>
    obtain ⟨f, d, h1, h2, h3⟩ := ha hct
    refine ⟨f, d, ?_, h2, fun m A => ?_⟩
    · filter_upwards [h1, hs] with s q1 q2
      simp [val, q2, hct, q1]
    · simpa only [ids, jac, hct, if_true] using h3 m A
  | false =>
    obtain ⟨f, d, h1, h2, h3⟩ := hb hct
    refine ⟨f, d, ?_, h2, fun m A => ?_⟩
    · filter_upwards [h1, hs] with s q1 q2
      simp [val, q2, hct, q1]
    · simpa [ids, jac, hct] using h3 m A

theorem good_scomp {k : Fin 3} {p : Node .E} (hp : Good invS c t δ tbl p) : Good invS c t δ tbl (.scomp k p) := by
  obtain ⟨f, d, h1, h2, h3⟩ := hp
  refine ⟨fun s => f s k, rowUnit k *ᵥ d, ?_, ?_, fun m A => ?_⟩
  · filter_upwards [h1] with s q1
    simp [val, q1]
  · refine HasDerivAt.congr_deriv (h2 k) ?_
    simp [rowUnit, Matrix.mulVec, dotProduct]
  · exact (h3 m (A * rowUnit k)).congr (Matrix.mulVec_mulVec ..).symm

end Scalars

section Points

theorem colM_mulVec (v : V3) (d : Unit → ℝ) : colM v *ᵥ d = d () • v := by
  funext i
  simp [colM, Matrix.mulVec, dotProduct, mul_comm]

theorem good_estack {a b e : Node .S} (ha : Good invS c t δ tbl a) (hb : Good invS c t δ tbl b) (he : Good invS c t δ tbl e) :
    Good invS c t δ tbl (.estack a b e) := by
  obtain ⟨f, d, h1, h2, h3⟩ := ha
  obtain ⟨g, k, g1, g2, g3⟩ := hb
  obtain ⟨h, l, e1, e2, e3⟩ := he
  refine ⟨fun s => ![f s, g s, h s], colUnit 0 *ᵥ d + (colUnit 1 *ᵥ k + colUnit 2 *ᵥ l), ?_, ?_, fun m A => ?_⟩
  · filter_upwards [h1, g1, e1] with s q1 q2 q3
    simp [val, q1, q2, q3]
  · intro i
    simp only [colUnit, colM_mulVec]
    fin_cases i
    · refine HasDerivAt.congr_deriv h2 ?_; simp
    · refine HasDerivAt.congr_deriv g2 ?_; simp
    · refine HasDerivAt.congr_deriv e2 ?_; simp
  · refine ((h3 m (A * colUnit 0)).seq ((g3 m (A * colUnit 1)).seq (e3 m (A * colUnit 2)))).congr ?_
    rw [Matrix.mulVec_add, Matrix.mulVec_add, Matrix.mulVec_mulVec, Matrix.mulVec_mulVec, Matrix.mulVec_mulVec]

theorem good_eadd {a b : Node .E} (ha : Good invS c t δ tbl a) (hb : Good invS c t δ tbl b) : Good invS c t δ tbl (.eadd a b) := by
  obtain ⟨f, d, h1, h2, h3⟩ := ha
  obtain ⟨g, k, g1, g2, g3⟩ := hb
  refine ⟨fun s => f s + g s, d + k, ?_, VDeriv.add h2 g2, fun m A => ((h3 m A).seq (g3 m A)).congr (Matrix.mulVec_add ..).symm⟩
  filter_upwards [h1, g1] with s q1 q2
  simp [val, q1, q2]

theorem good_esub {a b : Node .E} (ha : Good invS c t δ tbl a) (hb : Good invS c t δ tbl b) : Good invS c t δ tbl (.esub a b) := by
  obtain ⟨f, d, h1, h2, h3⟩ := ha
  obtain ⟨g, k, g1, g2, g3⟩ := hb
  refine ⟨fun s => f s - g s, d - k, ?_, VDeriv.sub h2 g2, fun m A => ((h3 m A).seq (g3 m ((-1 : ℝ) • A))).congr ?_⟩
  · filter_upwards [h1, g1] with s q1 q2
    simp [val, q1, q2]
  · rw [smul_mulVec', ← Matrix.mulVec_add]; congr 1; simp [sub_eq_add_neg]

theorem good_esubc {a : Node .E} {v : V3} (ha : Good invS c t δ tbl a) : Good invS c t δ tbl (.esubc a v) := by
  obtain ⟨f, d, h1, h2, h3⟩ := ha
  refine ⟨fun s => f s - v, d, ?_, (VDeriv.sub h2 (VDeriv.const v)).congr (sub_zero d), fun m A => h3 m A⟩
  filter_upwards [h1] with s q1
  simp [val, q1]

theorem good_eneg {a : Node .E} (ha : Good invS c t δ tbl a) : Good invS c t δ tbl (.eneg a) := by
  obtain ⟨f, d, h1, h2, h3⟩ := ha
  refine ⟨fun s => -f s, (-1 : ℝ) • d, ?_, (VDeriv.neg h2).congr (by simp), fun m A => (h3 m _).congr (smul_mulVec' ..)⟩
  filter_upwards [h1] with s q1
  simp [val, q1]

theorem good_escale {p : Node .E} {s : Node .S} (hcp : Cons tbl p) (hcs : Cons tbl s) (hp : Good invS c t δ tbl p) (hs : Good invS c t δ tbl s) :
    Good invS c t δ tbl (.escale p s) := by
  obtain ⟨f, d, h1, h2, h3⟩ := hp
  obtain ⟨g, k, g1, g2, g3⟩ := hs
  refine ⟨fun s => g s • f s, g t • d + colM (f t) *ᵥ k, ?_, ?_, fun m A => ?_⟩
  · filter_upwards [h1, g1] with s q1 q2
    simp [val, q1, q2]
  · refine (VDeriv.smul g2 h2).congr ?_
    rw [colM_mulVec, add_comm]
  · refine ((Run.ev hcs g1.self_of_nhds (h3 m (g t • A))).seq (Run.ev hcp h1.self_of_nhds (g3 m (A * colM (f t))))).congr ?_
    rw [smul_mulVec', ← Matrix.mulVec_mulVec, ← Matrix.mulVec_add]

theorem good_ecross {a b : Node .E} (hca : Cons tbl a) (hcb : Cons tbl b) (ha : Good invS c t δ tbl a) (hb : Good invS c t δ tbl b) :
    Good invS c t δ tbl (.ecross a b) := by
  obtain ⟨f, d, h1, h2, h3⟩ := ha
  obtain ⟨g, k, g1, g2, g3⟩ := hb
  refine ⟨fun s => f s ⨯₃ g s, -crossMx (g t) *ᵥ d + crossMx (f t) *ᵥ k, ?_, ?_, fun m A => ?_⟩
  · filter_upwards [h1, g1] with s q1 q2
    simp [val, q1, q2, crossMx_mulVec]
  · refine (VDeriv.cross h2 g2).congr ?_
    rw [Matrix.neg_mulVec, crossMx_mulVec, crossMx_mulVec, cross_anticomm]
  · refine ((Run.ev hcb g1.self_of_nhds (h3 m (A * -crossMx (g t)))).seq (Run.ev hca h1.self_of_nhds (g3 m (A * crossMx (f t))))).congr ?_
    rw [← Matrix.mulVec_mulVec, ← Matrix.mulVec_mulVec, ← Matrix.mulVec_add]

theorem good_eelem {a b : Node .E} (hca : Cons tbl a) (hcb : Cons tbl b) (ha : Good invS c t δ tbl a) (hb : Good invS c t δ tbl b) :
    Good invS c t δ tbl (.eelem a b) := by
  obtain ⟨f, d, h1, h2, h3⟩ := ha
  obtain ⟨g, k, g1, g2, g3⟩ := hb
  refine ⟨fun s => f s * g s, (diagonal (g t) : M3) *ᵥ d + (diagonal (f t) : M3) *ᵥ k, ?_, ?_, fun m A => ?_⟩
  · filter_upwards [h1, g1] with s q1 q2
    simp [val, q1, q2]
  · intro i
    refine HasDerivAt.congr_deriv (HasDerivAt.mul (h2 i) (g2 i)) ?_
    simp [Matrix.mulVec_diagonal, mul_comm]
  · refine ((Run.ev hcb g1.self_of_nhds (h3 m (A * (diagonal (g t) : M3)))).seq (Run.ev hca h1.self_of_nhds (g3 m (A * (diagonal (f t) : M3))))).congr ?_
    rw [← Matrix.mulVec_mulVec, ← Matrix.mulVec_mulVec, ← Matrix.mulVec_add]

theorem good_erot {id : Nat} {r : Node .R} {p : Node .E} (ht : tbl id = ⟨_, .erot id r p⟩)
    (hr : Good invS c t δ tbl r) (hp : Good invS c t δ tbl p) : Good invS c t δ tbl (.erot id r p) := by
  obtain ⟨f, d, h1, h2, h3⟩ := hr
  obtain ⟨g, k, g1, g2, g3⟩ := hp
  refine ⟨fun s => f s *ᵥ g s, crossMx (f t *ᵥ g t) *ᵥ d + f t *ᵥ k, ?_, ?_, fun m A => ?_⟩
  · filter_upwards [h1, g1] with s q1 q2
    simp [val, q1, q2]
  · refine (MDeriv.mulVec h2.1 g2).congr ?_
    rw [Matrix.neg_mulVec, ← Matrix.mulVec_mulVec, crossMx_mulVec, crossMx_mulVec, cross_anticomm]
  · refine (Run.cons ht (x := .rp (f t) (g t)) (by simp [cell, h1.self_of_nhds, g1.self_of_nhds]) (fun σ h => by simp only [jac, h])
      ((h3 m (A * crossMx (f t *ᵥ g t))).seq (g3 m (A * f t)))).congr ?_
    rw [← Matrix.mulVec_mulVec, ← Matrix.mulVec_mulVec, ← Matrix.mulVec_add]

theorem good_emat {id : Nat} {b : Node .M} {p : Node .E} (ht : tbl id = ⟨_, .emat id b p⟩)
    (hb : Good invS c t δ tbl b) (hp : Good invS c t δ tbl p) : Good invS c t δ tbl (.emat id b p) := by
  obtain ⟨f, d, h1, h2, h3⟩ := hb
  obtain ⟨g, k, g1, g2, g3⟩ := hp
  refine ⟨fun s => f s *ᵥ g s, matJ (g t) *ᵥ d + f t *ᵥ k, ?_, ?_, fun m A => ?_⟩
  · filter_upwards [h1, g1] with s q1 q2
    simp [val, q1, q2]
  · refine (MDeriv.mulVec h2 g2).congr ?_
    congr 1
    funext i
    simp only [matJ, Matrix.mulVec, dotProduct, Fintype.sum_prod_type]
    simp [mul_comm]
  · refine (Run.cons ht (x := .mp (f t) (g t)) (by simp [cell, h1.self_of_nhds, g1.self_of_nhds]) (fun σ h => by simp only [jac, h])
      ((h3 m (A * matJ (g t))).seq (g3 m (A * f t)))).congr ?_
    rw [← Matrix.mulVec_mulVec, ← Matrix.mulVec_mulVec, ← Matrix.mulVec_add]

theorem fromCols_mulVec' {n : Type} (A : Matrix n (Fin 3) ℝ) (B : Matrix n (Fin 3) ℝ) (d : Fin 3 ⊕ Fin 3 → ℝ) :
    fromCols A B *ᵥ d = A *ᵥ (fun k => d (.inl k)) + B *ᵥ (fun k => d (.inr k)) := by
  rw [Matrix.fromCols_mulVec]; rfl

theorem good_etrans {T : Node .T} (hc : Cons tbl T) (hT : Good invS c t δ tbl T) : Good invS c t δ tbl (.etrans T) := by
  obtain ⟨f, d, h1, h2, h3⟩ := hT
  refine ⟨fun s => (f s).t, fromCols (1 : M3) (crossMx (f t).t) *ᵥ d, ?_, ?_, fun m A => ?_⟩
  · filter_upwards [h1] with s q1
    simp [val, q1]
  · refine VDeriv.congr h2.2.1 ?_
    rw [fromCols_mulVec', Matrix.one_mulVec, crossMx_mulVec, sub_eq_add_neg, cross_anticomm]
  · exact (Run.ev hc h1.self_of_nhds (h3 m _)).congr (Matrix.mulVec_mulVec ..).symm

theorem good_ehom {h : Node .H} (hc : Cons tbl h) (hh : Good invS c t δ tbl h) {v : V3} (hv : val (c t) (.ehom h) = .ok v) :
    Good invS c t δ tbl (.ehom h) := by
  obtain ⟨f, d, h1, ⟨h2, h2'⟩, h3⟩ := hh
  have h0 : (f t).2 ≠ 0 := by
    intro h0
    simp [val, h1.self_of_nhds, h0] at hv
  refine ⟨fun s => (f s).2⁻¹ • (f s).1, fromHomJ (f t) *ᵥ d, ?_, ?_, fun m A => ?_⟩
  · filter_upwards [h1, h2'.continuousAt.eventually_ne h0] with s q1 q2
    simp [val, q1, q2]
  · refine VDeriv.congr (VDeriv.smul (h2'.inv h0) h2) ?_
    funext i
    simp [fromHomJ, Matrix.mulVec, dotProduct, colM, Matrix.one_apply, Fin.sum_univ_three]
    fin_cases i <;> simp <;> field_simp <;> ring
  · refine Run.ev hc h1.self_of_nhds ?_
    simp only [if_neg h0]
    exact (h3 m _).congr (Matrix.mulVec_mulVec ..).symm

end Points

section Rotations

theorem good_rmul {id : Nat} {a b : Node .R} (ht : tbl id = ⟨_, .rmul id a b⟩) (ha : Good invS c t δ tbl a) (hb : Good invS c t δ tbl b) :
    Good invS c t δ tbl (.rmul id a b) := by
  obtain ⟨f, d, h1, ⟨h2, h2'⟩, h3⟩ := ha
  obtain ⟨g, k, g1, ⟨g2, g2'⟩, g3⟩ := hb
  refine ⟨fun s => f s * g s, f t *ᵥ k + d, ?_, ⟨?_, ?_⟩, fun m A => ?_⟩
  · filter_upwards [h1, g1] with s q1 q2
    simp [val, q1, q2]
  · refine (MDeriv.mul h2 g2).congr ?_
    have := h2'.self_of_nhds.crossMx k
    rw [crossMx_add, Matrix.add_mul, ← Matrix.mul_assoc, this]
    simp only [Matrix.neg_mul, Matrix.mul_neg, Matrix.mul_assoc, neg_add]
    abel
  · filter_upwards [h2', g2'] with s q1 q2
    exact q1.mul q2
  · refine (Run.cons ht (x := .rr (f t) (g t)) (by simp [cell, h1.self_of_nhds, g1.self_of_nhds]) (fun σ h => by simp only [jac, h])
      ((g3 m (A * f t)).seq (h3 m A))).congr ?_
    rw [← Matrix.mulVec_mulVec, ← Matrix.mulVec_add]

theorem good_rinv {id : Nat} {a : Node .R} (ht : tbl id = ⟨_, .rinv id a⟩) (ha : Good invS c t δ tbl a) : Good invS c t δ tbl (.rinv id a) := by
  obtain ⟨f, d, h1, ⟨h2, h2'⟩, h3⟩ := ha
  refine ⟨fun s => (f s)ᵀ, -(f t)ᵀ *ᵥ d, ?_, ⟨?_, ?_⟩, fun m A => ?_⟩
  · filter_upwards [h1] with s q1
    simp [val, q1]
  · refine (MDeriv.transpose h2).congr ?_
    have := h2'.self_of_nhds.transpose.crossMx d
    rw [Matrix.neg_mulVec, crossMx_neg, Matrix.neg_mul, this]
    simp [crossMx_transpose]
  · filter_upwards [h2'] with s q1
    exact q1.transpose
  · exact (Run.cons ht (x := .r (f t)) (by simp [cell, h1.self_of_nhds]) (fun σ h => by simp only [jac, h])
      (h3 m (A * -(f t)ᵀ))).congr (Matrix.mulVec_mulVec ..).symm

theorem axisRot_isRot (k : Fin 3) (s : ℝ) : IsRot (axisRot k s) := by
  have h := Real.sin_sq_add_cos_sq s
  constructor
  · ext i j
    fin_cases k <;> fin_cases i <;> fin_cases j <;>
      simp [axisRot, Matrix.mul_apply, Fin.sum_univ_three] <;> nlinarith
  · rw [Matrix.det_fin_three]
    fin_cases k <;> simp [axisRot] <;> nlinarith

theorem axisRot_deriv (k : Fin 3) {f : ℝ → ℝ} {d : ℝ} (h : HasDerivAt f d t) :
    MDeriv (fun s => axisRot k (f s)) (-(crossMx (-colUnit k *ᵥ (fun _ : Unit => d)) * axisRot k (f t))) t := by
  have hc := h.cos
  have hs := h.sin
  intro i j
  simp only [colUnit, Matrix.neg_mulVec, colM_mulVec]
  fin_cases k <;> fin_cases i <;> fin_cases j <;>
    simp only [axisRot, crossMx, Matrix.mul_apply, Fin.sum_univ_three] <;> simp <;>
    first
      | (refine HasDerivAt.congr_deriv hc ?_; (try simp [Matrix.vecMul, dotProduct, Fin.sum_univ_three, axisRot]) <;> ring)
      | (refine HasDerivAt.congr_deriv hs ?_; (try simp [Matrix.vecMul, dotProduct, Fin.sum_univ_three, axisRot]) <;> ring)
      | (refine HasDerivAt.congr_deriv hs.neg ?_; (try simp [Matrix.vecMul, dotProduct, Fin.sum_univ_three, axisRot]) <;> ring)
      | (refine HasDerivAt.congr_deriv (hasDerivAt_const t (_ : ℝ)) ?_; simp [Matrix.vecMul, dotProduct, Fin.sum_univ_three, axisRot])

theorem good_raxis {k : Fin 3} {a : Node .S} (ha : Good invS c t δ tbl a) : Good invS c t δ tbl (.raxis k a) := by
  obtain ⟨f, d, h1, h2, h3⟩ := ha
  refine ⟨fun s => axisRot k (f s), -colUnit k *ᵥ d, ?_, ⟨axisRot_deriv k h2, .of_forall fun s => axisRot_isRot k _⟩, fun m A =>
    (h3 m _).congr (Matrix.mulVec_mulVec ..).symm⟩
  filter_upwards [h1] with s q1
  simp [val, q1]

theorem good_rtrans {T : Node .T} (hT : Good invS c t δ tbl T) : Good invS c t δ tbl (.rtrans T) := by
  obtain ⟨f, d, h1, ⟨h2, -, h2'⟩, h3⟩ := hT
  refine ⟨fun s => (f s).C, fromCols (0 : M3) (1 : M3) *ᵥ d, ?_, ⟨?_, h2'⟩, fun m A => (h3 m _).congr (Matrix.mulVec_mulVec ..).symm⟩
  · filter_upwards [h1] with s q1
    simp [val, q1]
  · refine MDeriv.congr h2 ?_
    rw [fromCols_mulVec', Matrix.zero_mulVec, Matrix.one_mulVec, zero_add]

end Rotations

section Transformations

theorem fromRows_inl {n m l : Type} [Fintype l] (A : Matrix n l ℝ) (B : Matrix m l ℝ) (d : l → ℝ) :
    (fun k => (fromRows A B *ᵥ d) (.inl k)) = A *ᵥ d := rfl

theorem fromRows_inr {n m l : Type} [Fintype l] (A : Matrix n l ℝ) (B : Matrix m l ℝ) (d : l → ℝ) :
    (fun k => (fromRows A B *ᵥ d) (.inr k)) = B *ᵥ d := rfl

theorem good_tbasic {r : Node .R} {p : Node .E} (hcp : Cons tbl p) (hr : Good invS c t δ tbl r) (hp : Good invS c t δ tbl p) :
    Good invS c t δ tbl (.tbasic r p) := by
  obtain ⟨f, d, h1, ⟨h2, h2'⟩, h3⟩ := hr
  obtain ⟨g, k, g1, g2, g3⟩ := hp
  refine ⟨fun s => ⟨f s, g s⟩, fromRows (-crossMx (g t)) (1 : M3) *ᵥ d + fromRows (1 : M3) (0 : M3) *ᵥ k, ?_, ⟨?_, ?_, h2'⟩, fun m A => ?_⟩
  · filter_upwards [h1, g1] with s q1 q2
    simp [val, q1, q2]
  · refine MDeriv.congr h2 ?_
    simp only [Pi.add_apply]
    change _ = -(crossMx ((1 : M3) *ᵥ d + (0 : M3) *ᵥ k) * _)
    simp
  · refine VDeriv.congr g2 ?_
    change _ = (-crossMx (g t) *ᵥ d + (1 : M3) *ᵥ k) - ((1 : M3) *ᵥ d + (0 : M3) *ᵥ k) ⨯₃ g t
    rw [Matrix.neg_mulVec, crossMx_mulVec, cross_anticomm]
    simp
  · refine ((Run.ev hcp g1.self_of_nhds (h3 m (A * fromRows (-crossMx (g t)) (1 : M3)))).seq (g3 m (A * fromRows (1 : M3) (0 : M3)))).congr ?_
    rw [Matrix.mulVec_add, Matrix.mulVec_mulVec, Matrix.mulVec_mulVec]

theorem good_tbasicR {r : Node .R} (hr : Good invS c t δ tbl r) : Good invS c t δ tbl (.tbasicR r) := by
  obtain ⟨f, d, h1, ⟨h2, h2'⟩, h3⟩ := hr
  refine ⟨fun s => ⟨f s, 0⟩, fromRows (0 : M3) (1 : M3) *ᵥ d, ?_, ⟨?_, ?_, h2'⟩, fun m A => (h3 m _).congr (Matrix.mulVec_mulVec ..).symm⟩
  · filter_upwards [h1] with s q1
    simp [val, q1]
  · refine MDeriv.congr h2 ?_
    rw [fromRows_inr, Matrix.one_mulVec]
  · refine VDeriv.congr (VDeriv.const 0) ?_
    rw [fromRows_inr, fromRows_inl]; simp

theorem good_tbasicE {p : Node .E} (hp : Good invS c t δ tbl p) : Good invS c t δ tbl (.tbasicE p) := by
  obtain ⟨f, d, h1, h2, h3⟩ := hp
  refine ⟨fun s => ⟨1, f s⟩, fromRows (1 : M3) (0 : M3) *ᵥ d, ?_, ⟨?_, ?_, .of_forall fun _ => IsRot.one⟩, fun m A =>
    (h3 m _).congr (Matrix.mulVec_mulVec ..).symm⟩
  · filter_upwards [h1] with s q1
    simp [val, q1]
  · refine MDeriv.congr (MDeriv.const 1) ?_
    rw [fromRows_inr]; simp [crossMx_zero]
  · refine VDeriv.congr h2 ?_
    rw [fromRows_inr, fromRows_inl]; simp

theorem boxTimes_inl (P : Pose) (d : Fin 3 ⊕ Fin 3 → ℝ) : (fun k => (boxTimes P *ᵥ d) (.inl k)) =
    P.C *ᵥ (fun k => d (.inl k)) - P.t ⨯₃ (P.C *ᵥ fun k => d (.inr k)) := by
  rw [boxTimes, Matrix.fromBlocks_mulVec]
  change P.C *ᵥ _ + (-crossMx P.t * P.C) *ᵥ _ = _
  rw [← Matrix.mulVec_mulVec, Matrix.neg_mulVec, crossMx_mulVec, sub_eq_add_neg]
  rfl

theorem boxTimes_inr (P : Pose) (d : Fin 3 ⊕ Fin 3 → ℝ) : (fun k => (boxTimes P *ᵥ d) (.inr k)) = P.C *ᵥ (fun k => d (.inr k)) := by
  rw [boxTimes, Matrix.fromBlocks_mulVec]
  change (0 : M3) *ᵥ _ + _ = _
  rw [Matrix.zero_mulVec, zero_add]
  rfl

theorem good_tmul {id : Nat} {a b : Node .T} (ht : tbl id = ⟨_, .tmul id a b⟩) (ha : Good invS c t δ tbl a) (hb : Good invS c t δ tbl b) :
    Good invS c t δ tbl (.tmul id a b) := by
  obtain ⟨f, d, h1, ⟨h2, h2', h2''⟩, h3⟩ := ha
  obtain ⟨g, k, g1, ⟨g2, g2', g2''⟩, g3⟩ := hb
  have hr := h2''.self_of_nhds
  have e1 : (fun i => (boxTimes (f t) *ᵥ k + d) (.inl i)) = (fun i => (boxTimes (f t) *ᵥ k) (.inl i)) + fun i => d (.inl i) := rfl
  have e2 : (fun i => (boxTimes (f t) *ᵥ k + d) (.inr i)) = (fun i => (boxTimes (f t) *ᵥ k) (.inr i)) + fun i => d (.inr i) := rfl
  rw [boxTimes_inl] at e1
  rw [boxTimes_inr] at e2
  refine ⟨fun s => (f s).mul (g s), boxTimes (f t) *ᵥ k + d, ?_, ⟨?_, ?_, ?_⟩, fun m A => ?_⟩
  · filter_upwards [h1, g1] with s q1 q2
    simp [val, q1, q2]
  · refine (MDeriv.mul h2 g2).congr ?_
    rw [e2]
    have := hr.crossMx (fun i => k (.inr i))
    simp only [Pose.mul]
    rw [crossMx_add, Matrix.add_mul, ← Matrix.mul_assoc, this]
    simp only [Matrix.neg_mul, Matrix.mul_neg, Matrix.mul_assoc, neg_add]
    abel
  · refine (VDeriv.add (MDeriv.mulVec h2 g2') h2').congr ?_
    rw [e1, e2]
    simp only [Pose.mul, Matrix.neg_mulVec, ← Matrix.mulVec_mulVec, crossMx_mulVec, Matrix.mulVec_sub, hr.cross, map_add, LinearMap.add_apply]
    rw [← cross_anticomm ((f t).C *ᵥ fun i => k (.inr i)) (f t).t]
    abel
  · filter_upwards [h2'', g2''] with s q1 q2
    exact q1.mul q2
  · refine (Run.cons ht (x := .tt (f t) (g t)) (by simp [cell, h1.self_of_nhds, g1.self_of_nhds]) (fun σ h => by simp only [jac, h])
      ((g3 m (A * boxTimes (f t))).seq (h3 m A))).congr ?_
    rw [← Matrix.mulVec_mulVec, ← Matrix.mulVec_add]

theorem IsRot.inv_eq {C : M3} (h : IsRot C) : C⁻¹ = Cᵀ := Matrix.inv_eq_right_inv h.1

theorem Pose.inv_eq {P : Pose} (h : IsRot P.C) : P.inv = .ok ⟨P.Cᵀ, -(P.Cᵀ *ᵥ P.t)⟩ := by
  simp [Pose.inv, h.2, IsRot.inv_eq h]

theorem good_tinv {id : Nat} {a : Node .T} (ht : tbl id = ⟨_, .tinv id a⟩) (ha : Good invS c t δ tbl a) : Good invS c t δ tbl (.tinv id a) := by
  obtain ⟨f, d, h1, ⟨h2, h2', h2''⟩, h3⟩ := ha
  have hr := h2''.self_of_nhds.transpose
  have e1 := boxTimes_inl ⟨(f t).Cᵀ, -((f t).Cᵀ *ᵥ (f t).t)⟩ d
  have e2 := boxTimes_inr ⟨(f t).Cᵀ, -((f t).Cᵀ *ᵥ (f t).t)⟩ d
  generalize hB : boxTimes ⟨(f t).Cᵀ, -((f t).Cᵀ *ᵥ (f t).t)⟩ = B at e1 e2
  have e1' : (fun i => (-B *ᵥ d) (.inl i)) = -(fun i => (B *ᵥ d) (.inl i)) := by rw [Matrix.neg_mulVec]; rfl
  have e2' : (fun i => (-B *ᵥ d) (.inr i)) = -(fun i => (B *ᵥ d) (.inr i)) := by rw [Matrix.neg_mulVec]; rfl
  rw [e1] at e1'
  rw [e2] at e2'
  refine ⟨fun s => ⟨(f s).Cᵀ, -((f s).Cᵀ *ᵥ (f s).t)⟩, -B *ᵥ d, ?_, ⟨?_, ?_, ?_⟩, fun m A => ?_⟩
  · filter_upwards [h1, h2''] with s q1 q2
    simp [val, q1, Pose.inv_eq q2]
  · refine (MDeriv.transpose h2).congr ?_
    rw [e2']
    have := hr.crossMx (fun i => d (.inr i))
    rw [crossMx_neg, Matrix.neg_mul, this]
    simp [crossMx_transpose]
  · refine (VDeriv.neg (MDeriv.mulVec (MDeriv.transpose h2) h2')).congr ?_
    rw [e1', e2']
    simp only [Matrix.transpose_neg, Matrix.transpose_mul, crossMx_transpose, Matrix.mul_neg, neg_neg, ← Matrix.mulVec_mulVec, crossMx_mulVec, Matrix.mulVec_sub, hr.cross,
      map_neg, LinearMap.neg_apply]
    rw [← cross_anticomm ((f t).Cᵀ *ᵥ fun i => d (.inr i)) ((f t).Cᵀ *ᵥ (f t).t)]
    abel
  · filter_upwards [h2''] with s q1
    exact q1.transpose
  · refine (Run.cons ht (x := .t ⟨(f t).Cᵀ, -((f t).Cᵀ *ᵥ (f t).t)⟩) (by simp [cell, h1.self_of_nhds, Pose.inv_eq h2''.self_of_nhds]) (fun σ h => by simp only [jac, h])
      (h3 m (A * -boxTimes ⟨(f t).Cᵀ, -((f t).Cᵀ *ᵥ (f t).t)⟩))).congr ?_
    rw [hB]
    exact (Matrix.mulVec_mulVec ..).symm

end Transformations

section Homogeneous

theorem good_hmul {id : Nat} {T : Node .T} {h : Node .H} (ht : tbl id = ⟨_, .hmul id T h⟩) (hT : Good invS c t δ tbl T)
    (hh : Good invS c t δ tbl h) : Good invS c t δ tbl (.hmul id T h) := by
  obtain ⟨f, d, h1, ⟨h2, h2', h2''⟩, h3⟩ := hT
  obtain ⟨g, k, g1, ⟨g2, g2'⟩, g3⟩ := hh
  have hr := h2''.self_of_nhds
  refine ⟨fun s => (f s).ap (g s), boxMinus ((f t).ap (g t)) *ᵥ d + (f t).mat *ᵥ k, ?_, ⟨?_, ?_⟩, fun m A => ?_⟩
  · filter_upwards [h1, g1] with s q1 q2
    simp [val, q1, q2]
  · refine (VDeriv.add (MDeriv.mulVec h2 g2) (VDeriv.smul g2' h2')).congr ?_
    rw [boxMinus, Pose.mat, Matrix.fromBlocks_mulVec, Matrix.fromBlocks_mulVec]
    change _ = (((f t).ap (g t)).2 • (1 : M3)) *ᵥ (fun i => d (.inl i)) + crossMx ((f t).ap (g t)).1 *ᵥ (fun i => d (.inr i)) +
      ((f t).C *ᵥ (fun i => k (.inl i)) + colM (f t).t *ᵥ fun i => k (.inr i))
    rw [colM_mulVec, Matrix.smul_mulVec, Matrix.one_mulVec, crossMx_mulVec]
    simp only [Pose.ap, map_add, LinearMap.add_apply, map_smul, LinearMap.smul_apply, Matrix.neg_mulVec, ← Matrix.mulVec_mulVec, crossMx_mulVec, smul_sub]
    rw [← cross_anticomm ((f t).C *ᵥ (g t).1), ← cross_anticomm (f t).t, smul_neg]
    simp only [neg_neg]
    abel
  · refine HasDerivAt.congr_deriv g2' ?_
    rw [boxMinus, Pose.mat, Matrix.fromBlocks_mulVec, Matrix.fromBlocks_mulVec]
    simp [Matrix.mulVec, dotProduct]
  · refine (Run.cons ht (x := .th (f t) (g t)) (by simp [cell, h1.self_of_nhds, g1.self_of_nhds]) (fun σ h => by simp only [jac, h])
      ((h3 m (A * boxMinus ((f t).ap (g t)))).seq (g3 m (A * (f t).mat)))).congr ?_
    rw [← Matrix.mulVec_mulVec, ← Matrix.mulVec_mulVec, ← Matrix.mulVec_add]

theorem good_heuc {p : Node .E} (hp : Good invS c t δ tbl p) : Good invS c t δ tbl (.heuc p) := by
  obtain ⟨f, d, h1, h2, h3⟩ := hp
  refine ⟨fun s => (f s, 1), fromRows (1 : M3) (0 : Matrix Unit (Fin 3) ℝ) *ᵥ d, ?_, ⟨?_, ?_⟩, fun m A => (h3 m _).congr (Matrix.mulVec_mulVec ..).symm⟩
  · filter_upwards [h1] with s q1
    simp [val, q1]
  · refine VDeriv.congr h2 ?_
    rw [fromRows_inl, Matrix.one_mulVec]
  · refine HasDerivAt.congr_deriv (hasDerivAt_const _ _) ?_
    change 0 = ((0 : Matrix Unit (Fin 3) ℝ) *ᵥ d) ()
    simp

end Homogeneous

section Leaves

theorem good_mvar (hm : Moves invS c t δ) {i : Nat} {free : List (Fin 3 × Fin 3)} : Good invS c t δ tbl (.mvar i free) := by
  refine ⟨fun s => (c s).mat i free, fun q => ∑ k : Fin free.length, if free.get k = (q.2, q.1) then δ (.mat i free) k else 0,
    .of_forall fun s => rfl, hm.mat i free, fun m A => ?_⟩
  by_cases h : free = []
  · subst h
    refine Run.congr (w := 0) (g := jac invS (c t) (.mvar i []) A) (fun σ _ => ⟨[], σ, by simp [jac], by simp [total], fun _ h => h⟩) ?_
    funext x
    simp [Matrix.mulVec, dotProduct]
  · refine Run.congr (w := (fun a k => A a ((free.get k).2, (free.get k).1) : Matrix (Fin m) (Fin free.length) ℝ) *ᵥ δ (.mat i free))
      (g := jac invS (c t) (.mvar i free) A)
      (fun σ _ => ⟨[⟨.mat i free, fun a k => A a ((free.get k).2, (free.get k).1)⟩], σ, by simp [jac, h], by simp [total], fun _ h => h⟩) ?_
    funext x
    simp only [Matrix.mulVec, dotProduct, Finset.mul_sum]
    rw [Finset.sum_comm]
    refine Finset.sum_congr rfl fun k _ => ?_
    rw [Finset.sum_eq_single ((free.get k).2, (free.get k).1)]
    · simp
    · rintro ⟨a, b⟩ - hn
      rw [if_neg, mul_zero]
      intro he
      rw [he] at hn
      exact hn rfl
    · simp

end Leaves

/-- The induction over expressions. -/
theorem good (hm : Moves invS c t δ) : ∀ {ty : Ty} (e : Node ty) {v : Val ty}, Cons tbl e → Smooth c t e → val (c t) e = .ok v → Good invS c t δ tbl e
  | _, .sconst x, v, _, _, _ => ⟨fun _ => x, 0, .of_forall fun _ => rfl, hasDerivAt_const _ _, fun m A => Run.nil.congr (by simp)⟩
  | _, .svar i, v, _, _, _ => ⟨fun s => (c s).sc i, δ (.sc i), .of_forall fun _ => rfl, hm.sc i, fun m A => Run.one ⟨.sc i, A⟩⟩
  | _, .sun f a, v, hc, hs, hv => by
    have hv' := hv
    simp only [val, bind_eq_ok] at hv'
    obtain ⟨x, hx, -⟩ := hv'
    exact good_sun hc (good hm a hc hs.1 hx) hv hs.2
  | _, .smul a b, v, hc, hs, hv => by
    simp only [val, bind_eq_ok] at hv
    obtain ⟨x, hx, y, hy, -⟩ := hv
    exact good_smul hc.1 hc.2 (good hm a hc.1 hs.1 hx) (good hm b hc.2 hs.2 hy)
  | _, .sdiv a b, v, hc, hs, hv => by
    have hv' := hv
    simp only [val, bind_eq_ok] at hv'
    obtain ⟨x, hx, y, hy, -⟩ := hv'
    exact good_sdiv hc.1 hc.2 (good hm a hc.1 hs.1 hx) (good hm b hc.2 hs.2 hy) hv
  | _, .sadd a b k, v, hc, hs, hv => by
    simp only [val, bind_eq_ok] at hv
    obtain ⟨x, hx, y, hy, -⟩ := hv
    exact good_sadd (good hm a hc.1 hs.1 hx) (good hm b hc.2 hs.2 hy)
  | _, .satan2 a b, v, hc, hs, hv => by
    simp only [val, bind_eq_ok] at hv
    obtain ⟨x, hx, y, hy, -⟩ := hv
    exact good_satan2 hc.1 hc.2 (good hm a hc.1 hs.1 hx) (good hm b hc.2 hs.2.1 hy) hs.2.2
  | _, .spiece cond a b, v, hc, hs, hv => by
    refine good_spiece hs.1 (fun h => good (v := v) hm a hc.1 (hs.2.1 h) ?_) (fun h => good (v := v) hm b hc.2 (hs.2.2 h) ?_)
    · simpa [val, h] using hv
    · simpa [val, h] using hv
  | _, .scomp k p, v, hc, hs, hv => by
    simp only [val, bind_eq_ok] at hv
    obtain ⟨x, hx, -⟩ := hv
    exact good_scomp (good hm p hc hs hx)
  | _, .econst x, v, _, _, _ => ⟨fun _ => x, 0, .of_forall fun _ => rfl, VDeriv.const _, fun m A => Run.nil.congr (by simp)⟩
  | _, .evar i, v, _, _, _ => ⟨fun s => (c s).pt i, δ (.pt i), .of_forall fun _ => rfl, hm.pt i, fun m A => Run.one ⟨.pt i, A⟩⟩
  | _, .estack a b e, v, hc, hs, hv => by
    simp only [val, bind_eq_ok] at hv
    obtain ⟨x, hx, y, hy, z, hz, -⟩ := hv
    exact good_estack (good hm a hc.1 hs.1 hx) (good hm b hc.2.1 hs.2.1 hy) (good hm e hc.2.2 hs.2.2 hz)
  | _, .eadd a b, v, hc, hs, hv => by
    simp only [val, bind_eq_ok] at hv
    obtain ⟨x, hx, y, hy, -⟩ := hv
    exact good_eadd (good hm a hc.1 hs.1 hx) (good hm b hc.2 hs.2 hy)
  | _, .esub a b, v, hc, hs, hv => by
    simp only [val, bind_eq_ok] at hv
    obtain ⟨x, hx, y, hy, -⟩ := hv
    exact good_esub (good hm a hc.1 hs.1 hx) (good hm b hc.2 hs.2 hy)
  | _, .esubc a w, v, hc, hs, hv => by
    simp only [val, bind_eq_ok] at hv
    obtain ⟨x, hx, -⟩ := hv
    exact good_esubc (good hm a hc hs hx)
  | _, .eneg a, v, hc, hs, hv => by
    simp only [val, bind_eq_ok] at hv
    obtain ⟨x, hx, -⟩ := hv
    exact good_eneg (good hm a hc hs hx)
  | _, .escale a b, v, hc, hs, hv => by
    simp only [val, bind_eq_ok] at hv
    obtain ⟨x, hx, y, hy, -⟩ := hv
    exact good_escale hc.1 hc.2 (good hm a hc.1 hs.1 hx) (good hm b hc.2 hs.2 hy)
  | _, .ecross a b, v, hc, hs, hv => by
    simp only [val, bind_eq_ok] at hv
    obtain ⟨x, hx, y, hy, -⟩ := hv
    exact good_ecross hc.1 hc.2 (good hm a hc.1 hs.1 hx) (good hm b hc.2 hs.2 hy)
  | _, .eelem a b, v, hc, hs, hv => by
    simp only [val, bind_eq_ok] at hv
    obtain ⟨x, hx, y, hy, -⟩ := hv
    exact good_eelem hc.1 hc.2 (good hm a hc.1 hs.1 hx) (good hm b hc.2 hs.2 hy)
  | _, .erot id a b, v, hc, hs, hv => by
    simp only [val, bind_eq_ok] at hv
    obtain ⟨x, hx, y, hy, -⟩ := hv
    exact good_erot hc.1 (good hm a hc.2.1 hs.1 hx) (good hm b hc.2.2 hs.2 hy)
  | _, .emat id (.mvar i free) b, v, hc, hs, hv => by
    simp only [val, bind_eq_ok] at hv
    obtain ⟨x, hx, y, hy, -⟩ := hv
    exact good_emat hc.1 (good_mvar hm) (good hm b hc.2.2 hs.2 hy)
  | _, .etrans a, v, hc, hs, hv => by
    simp only [val, bind_eq_ok] at hv
    obtain ⟨x, hx, -⟩ := hv
    exact good_etrans hc (good hm a hc hs hx)
  | _, .ehom a, v, hc, hs, hv => by
    have hv' := hv
    simp only [val, bind_eq_ok] at hv'
    obtain ⟨x, hx, -⟩ := hv'
    exact good_ehom hc (good hm a hc hs hx) hv
  | _, .rconst C, v, _, hs, _ => ⟨fun _ => C, 0, .of_forall fun _ => rfl, ⟨(MDeriv.const C).congr (by simp [crossMx_zero]), .of_forall fun _ => hs⟩,
      fun m A => Run.nil.congr (by simp)⟩
  | _, .rvar i, v, _, _, _ => ⟨fun s => (c s).ro i, δ (.ro i), .of_forall fun _ => rfl, ⟨hm.ro i, .of_forall fun s => hm.rot i s⟩,
      fun m A => Run.one ⟨.ro i, A⟩⟩
  | _, .rmul id a b, v, hc, hs, hv => by
    simp only [val, bind_eq_ok] at hv
    obtain ⟨x, hx, y, hy, -⟩ := hv
    exact good_rmul hc.1 (good hm a hc.2.1 hs.1 hx) (good hm b hc.2.2 hs.2 hy)
  | _, .rinv id a, v, hc, hs, hv => by
    simp only [val, bind_eq_ok] at hv
    obtain ⟨x, hx, -⟩ := hv
    exact good_rinv hc.1 (good hm a hc.2 hs hx)
  | _, .raxis k a, v, hc, hs, hv => by
    simp only [val, bind_eq_ok] at hv
    obtain ⟨x, hx, -⟩ := hv
    exact good_raxis (good hm a hc hs hx)
  | _, .rtrans a, v, hc, hs, hv => by
    simp only [val, bind_eq_ok] at hv
    obtain ⟨x, hx, -⟩ := hv
    exact good_rtrans (good hm a hc hs hx)
  | _, .tconst P, v, _, hs, _ => ⟨fun _ => P, 0, .of_forall fun _ => rfl, ⟨(MDeriv.const P.C).congr (by
        change _ = -(crossMx 0 * _); simp [crossMx_zero]), (VDeriv.const P.t).congr (by change _ = (0 : V3) - (0 : V3) ⨯₃ _; simp), .of_forall fun _ => hs⟩,
      fun m A => Run.nil.congr (by simp)⟩
  | _, .tbasic a b, v, hc, hs, hv => by
    simp only [val, bind_eq_ok] at hv
    obtain ⟨x, hx, y, hy, -⟩ := hv
    exact good_tbasic hc.2 (good hm a hc.1 hs.1 hx) (good hm b hc.2 hs.2 hy)
  | _, .tbasicR a, v, hc, hs, hv => by
    simp only [val, bind_eq_ok] at hv
    obtain ⟨x, hx, -⟩ := hv
    exact good_tbasicR (good hm a hc hs hx)
  | _, .tbasicE a, v, hc, hs, hv => by
    simp only [val, bind_eq_ok] at hv
    obtain ⟨x, hx, -⟩ := hv
    exact good_tbasicE (good hm a hc hs hx)
  | _, .tmul id a b, v, hc, hs, hv => by
    simp only [val, bind_eq_ok] at hv
    obtain ⟨x, hx, y, hy, -⟩ := hv
    exact good_tmul hc.1 (good hm a hc.2.1 hs.1 hx) (good hm b hc.2.2 hs.2 hy)
  | _, .tinv id a, v, hc, hs, hv => by
    simp only [val, bind_eq_ok] at hv
    obtain ⟨x, hx, -⟩ := hv
    exact good_tinv hc.1 (good hm a hc.2 hs hx)
  | _, .hconst x, v, _, _, _ => ⟨fun _ => x, 0, .of_forall fun _ => rfl, ⟨VDeriv.const _, hasDerivAt_const _ _⟩, fun m A => Run.nil.congr (by simp)⟩
  | _, .hvar i, v, _, _, _ => ⟨fun s => (c s).ho i, invS ((c t).ho i) *ᵥ δ (.ho i), .of_forall fun _ => rfl, ⟨hm.ho1 i, hm.ho2 i⟩,
      fun m A => (Run.one ⟨.ho i, A * invS ((c t).ho i)⟩).congr (Matrix.mulVec_mulVec ..).symm⟩
  | _, .hmul id a b, v, hc, hs, hv => by
    simp only [val, bind_eq_ok] at hv
    obtain ⟨x, hx, y, hy, -⟩ := hv
    exact good_hmul hc.1 (good hm a hc.2.1 hs.1 hx) (good hm b hc.2.2 hs.2 hy)
  | _, .heuc a, v, hc, hs, hv => by
    simp only [val, bind_eq_ok] at hv
    obtain ⟨x, hx, -⟩ := hv
    exact good_heuc (good hm a hc hs hx)
  | _, .mvar i free, v, _, _, _ => good_mvar hm

end Verif.Expr
