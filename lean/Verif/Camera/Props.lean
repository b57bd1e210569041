import Verif.Camera.Model

/-! C92: the Jacobians of a camera are those of the reprojection error. -/
namespace Verif.Camera
open Verif.Geo Verif.Jacobian Verif.Jacobian.Spec Verif.MatrixStack
open Matrix

variable {n m dp dd ds : Nat} {k : Cam n dp dd ds}

/-- The Jacobians of the camera class are right: together they are the derivative of the keypoint along joint updates. -/
def Cam.Correct (k : Cam n dp dd ds) : Prop := ∀ p d s ph (δp : Fin dp → ℝ) (δd : Fin dd → ℝ) (δs : Fin ds → ℝ),
  VDeriv (fun t => k.keypoint (k.updP p (t • δp)) (k.updD d (t • δd)) (k.updS s (t • δs)) ph)
    (k.intrinsicsJac p d s ph *ᵥ δp + k.distortionJac p d s ph *ᵥ δd + k.shutterJac p d s ph *ᵥ δs) 0

/-- What the design variables must be: three different ones, of the dimensions of the parameter blocks. -/
structure CamVars.Ok (env : Env ℝ) (c : CamVars k) : Prop where
  p_d : c.pv ≠ c.dv
  p_s : c.pv ≠ c.sv
  d_s : c.dv ≠ c.sv
  dimP : env.dim c.pv = dp
  dimD : env.dim c.dv = dd
  dimS : env.dim c.sv = ds

/-- The change predicted by a container for a step `δ` of the variable `v`: (Jacobian)·(step), zero without an entry. -/
noncomputable def part (env : Env ℝ) (jc : JC ℝ (SMap ℝ)) (v : Nat) {d : Nat} (δ : Fin d → ℝ) (i : Nat) : ℝ :=
  if env.active v then (match sparseJacobian env jc v with | .ok J => ∑ j : Fin d, J.e i j * δ j | _ => 0) else 0

/-- The optimizer moves active variables only. -/
def Moved (env : Env ℝ) (v : Nat) {d : Nat} (δ : Fin d → ℝ) : Prop := env.active v = true ∨ δ = 0

theorem toD_e {a b : Nat} (M : Matrix (Fin a) (Fin b) ℝ) (i : Fin a) (j : Fin b) : (toD M).e i j = M i j := by
  simp [toD]

theorem part_eq {env : Env ℝ} {jc : JC ℝ (SMap ℝ)} {v d : Nat} {δ : Fin d → ℝ} (hδ : Moved env v δ) (M : Matrix (Fin m) (Fin d) ℝ)
    (h : env.active v = true → ∃ J, sparseJacobian env jc v = .ok J ∧ ∀ (i : Fin m) (j : Fin d), J.e i j = M i j) (i : Fin m) :
    part env jc v δ i = (M *ᵥ δ) i := by
  rcases hδ with ha | rfl
  · obtain ⟨J, e, hJ⟩ := h ha
    simp only [part, ha, if_true, e, mulVec, dotProduct, hJ]
  · unfold part
    simp only [mulVec_zero, Pi.zero_apply, mul_zero, Finset.sum_const_zero]
    split
    · split <;> rfl
    · rfl

theorem error_deriv (hk : k.Correct) (c : CamVars k) (C : Matrix (Fin m) (Fin n) ℝ) (y : Fin n → ℝ) (ph : Fin 4 → ℝ)
    (δp : Fin dp → ℝ) (δd : Fin dd → ℝ) (δs : Fin ds → ℝ) :
    VDeriv (fun t => C *ᵥ (y - k.keypoint (k.updP c.p (t • δp)) (k.updD c.d (t • δd)) (k.updS c.s (t • δs)) ph))
      ((-C * k.intrinsicsJac c.p c.d c.s ph) *ᵥ δp + (-C * k.distortionJac c.p c.d c.s ph) *ᵥ δd +
        (-C * k.shutterJac c.p c.d c.s ph) *ᵥ δs) 0 := by
  have h := hk c.p c.d c.s ph δp δd δs
  intro i
  have h1 : HasDerivAt (fun t : ℝ => ∑ j, C i j * (y j - k.keypoint (k.updP c.p (t • δp)) (k.updD c.d (t • δd)) (k.updS c.s (t • δs)) ph j))
      (∑ j, C i j * (0 - (k.intrinsicsJac c.p c.d c.s ph *ᵥ δp + k.distortionJac c.p c.d c.s ph *ᵥ δd + k.shutterJac c.p c.d c.s ph *ᵥ δs) j)) 0 :=
    HasDerivAt.fun_sum fun j _ => ((hasDerivAt_const (0 : ℝ) (y j)).sub (h j)).const_mul (C i j)
  refine h1.congr_deriv ?_
  have e : ∀ {d : Nat} (A : Matrix (Fin n) (Fin d) ℝ) (δ : Fin d → ℝ), (-C * A) *ᵥ δ = -(C *ᵥ (A *ᵥ δ)) := by
    intro d A δ
    rw [← mulVec_mulVec, neg_mulVec]
  simp only [e, zero_sub, mul_neg, Finset.sum_neg_distrib, Pi.add_apply, Pi.neg_apply]
  rw [← neg_add, ← neg_add]
  congr 1
  change (C *ᵥ (k.intrinsicsJac c.p c.d c.s ph *ᵥ δp + k.distortionJac c.p c.d c.s ph *ᵥ δd + k.shutterJac c.p c.d c.s ph *ᵥ δs)) i = _
  rw [mulVec_add, mulVec_add]
  rfl

/-- With a chain rule matrix `C`: every call on a fresh container returns normally, and afterwards the Jacobians predict, to first
order, the change of the weighted reprojection error `C (y - keypoint)` for every step of the active variables, whichever of the
three are active. -/
theorem C92_chain_rule (debug : Bool) (env : Env ℝ) (henv : EnvOk env) (align q : Nat) (ha : 0 < align) (hm : m < 2 ^ 16)
    (hk : k.Correct) (c : CamVars k) (hc : c.Ok env) (C : Matrix (Fin m) (Fin n) ℝ) (y : Fin n → ℝ) (ph : Fin 4 → ℝ) :
    ∃ jc, Res.run (step debug align env sparseAddJ) (newSparse m q) (adds (chained c C ph)) = .ok jc ∧
      ∀ (δp : Fin dp → ℝ) (δd : Fin dd → ℝ) (δs : Fin ds → ℝ), Moved env c.pv δp → Moved env c.dv δd → Moved env c.sv δs →
        VDeriv (fun t => C *ᵥ (y - k.keypoint (k.updP c.p (t • δp)) (k.updD c.d (t • δd)) (k.updS c.s (t • δs)) ph))
          (fun i => part env jc c.pv δp i + part env jc c.dv δd i + part env jc c.sv δs i) 0 := by
  have hL : ∀ p ∈ chained c C ph, p.2.rows = m ∧ p.2.cols = env.dim p.1 := by
    intro p hp
    simp only [chained, List.mem_cons, List.not_mem_nil, or_false] at hp
    rcases hp with rfl | rfl | rfl
    · exact ⟨rfl, hc.dimP.symm⟩
    · exact ⟨rfl, hc.dimD.symm⟩
    · exact ⟨rfl, hc.dimS.symm⟩
  obtain ⟨jc, e, h1, -⟩ := adds_spec debug env henv align m q ha hm _ hL
  refine ⟨jc, e, fun δp δd δs mp md ms i => ?_⟩
  refine (error_deriv hk c C y ph δp δd δs i).congr_deriv ?_
  simp only [Pi.add_apply]
  congr 1
  · congr 1
    · refine (part_eq mp _ (fun hact => ?_) i).symm
      obtain ⟨J, j1, -, -, j4⟩ := h1 c.pv hact (by simp [chained])
      refine ⟨J, j1, fun i j => ?_⟩
      rw [j4 i j i.2 (hc.dimP.symm ▸ j.2)]
      simp [assigned, chained, hc.p_d.symm, hc.p_s.symm, toD_e]
    · refine (part_eq md _ (fun hact => ?_) i).symm
      obtain ⟨J, j1, -, -, j4⟩ := h1 c.dv hact (by simp [chained])
      refine ⟨J, j1, fun i j => ?_⟩
      rw [j4 i j i.2 (hc.dimD.symm ▸ j.2)]
      simp [assigned, chained, hc.p_d, hc.d_s.symm, toD_e]
  · refine (part_eq ms _ (fun hact => ?_) i).symm
    obtain ⟨J, j1, -, -, j4⟩ := h1 c.sv hact (by simp [chained])
    refine ⟨J, j1, fun i j => ?_⟩
    rw [j4 i j i.2 (hc.dimS.symm ▸ j.2)]
    simp [assigned, chained, hc.p_s, hc.d_s, toD_e]

/-- Every variable that gets a Jacobian is reported by `getDesignVariables`. -/
theorem C92_reported (env : Env ℝ) (c : CamVars k) (C : Matrix (Fin m) (Fin n) ℝ) (ph : Fin 4 → ℝ) :
    (chained c C ph).map Prod.fst = designVariables c ∧ ∀ v ∈ (plain env c ph).map Prod.fst, v ∈ designVariables c := by
  refine ⟨rfl, fun v hv => ?_⟩
  simp only [plain, List.map_append, List.mem_append] at hv
  rcases hv with hv | hv
  · split at hv <;> simp_all [designVariables]
  · split at hv <;> simp_all [designVariables]

/-- Without a chain rule matrix: the same for the error `y - keypoint`, as long as the shutter does not move.  Partial: see the
counterexample. -/
theorem C92_plain_partial (debug : Bool) (env : Env ℝ) (henv : EnvOk env) (align q : Nat) (ha : 0 < align) (hn : n < 2 ^ 16)
    (hk : k.Correct) (c : CamVars k) (hc : c.Ok env) (y : Fin n → ℝ) (ph : Fin 4 → ℝ) :
    ∃ jc, Res.run (step debug align env sparseAddJ) (newSparse n q) (adds (plain env c ph)) = .ok jc ∧
      ∀ (δp : Fin dp → ℝ) (δd : Fin dd → ℝ), Moved env c.pv δp → Moved env c.dv δd →
        VDeriv (fun t => y - k.keypoint (k.updP c.p (t • δp)) (k.updD c.d (t • δd)) (k.updS c.s (t • (0 : Fin ds → ℝ))) ph)
          (fun i => part env jc c.pv δp i + part env jc c.dv δd i) 0 := by
  have hL : ∀ p ∈ plain env c ph, p.2.rows = n ∧ p.2.cols = env.dim p.1 := by
    intro p hp
    simp only [plain, List.mem_append] at hp
    rcases hp with hp | hp
    · split at hp
      · simp only [List.mem_cons, List.not_mem_nil, or_false] at hp
        subst hp
        exact ⟨rfl, hc.dimP.symm⟩
      · simp at hp
    · split at hp
      · simp only [List.mem_cons, List.not_mem_nil, or_false] at hp
        subst hp
        exact ⟨rfl, hc.dimD.symm⟩
      · simp at hp
  obtain ⟨jc, e, h1, -⟩ := adds_spec debug env henv align n q ha hn _ hL
  refine ⟨jc, e, fun δp δd mp md i => ?_⟩
  have h := error_deriv hk c (1 : Matrix (Fin n) (Fin n) ℝ) y ph δp δd 0 i
  simp only [one_mulVec] at h
  refine h.congr_deriv ?_
  simp only [Pi.add_apply, mulVec_zero, Pi.zero_apply, add_zero]
  congr 1
  · refine (part_eq mp _ (fun hact => ?_) i).symm
    obtain ⟨J, j1, -, -, j4⟩ := h1 c.pv hact (by simp [plain, hact])
    refine ⟨J, j1, fun i j => ?_⟩
    rw [j4 i j i.2 (hc.dimP.symm ▸ j.2)]
    by_cases hd : env.active c.dv = true <;> simp [assigned, plain, hact, hd, hc.p_d.symm, toD_e]
  · refine (part_eq md _ (fun hact => ?_) i).symm
    obtain ⟨J, j1, -, -, j4⟩ := h1 c.dv hact (by simp [plain, hact])
    refine ⟨J, j1, fun i j => ?_⟩
    rw [j4 i j i.2 (hc.dimD.symm ▸ j.2)]
    by_cases hd : env.active c.pv = true <;> simp [assigned, plain, hact, hd, hc.p_d, toD_e]

/-- A camera with one parameter in each block: the keypoint is their sum. -/
noncomputable def sumCam : Cam 1 1 1 1 where
  P := ℝ
  D := ℝ
  S := ℝ
  keypoint p d s _ := fun _ => p + d + s
  updP p δ := p + δ 0
  updD d δ := d + δ 0
  updS s δ := s + δ 0
  intrinsicsJac _ _ _ _ := 1
  distortionJac _ _ _ _ := 1
  shutterJac _ _ _ _ := 1

theorem sumCam_correct : sumCam.Correct := by
  intro (p : ℝ) (d : ℝ) (s : ℝ) ph δp δd δs i
  rw [Subsingleton.elim i 0]
  change HasDerivAt (fun t : ℝ => p + t * δp 0 + (d + t * δd 0) + (s + t * δs 0))
    (((1 : Matrix (Fin 1) (Fin 1) ℝ) *ᵥ δp + (1 : Matrix (Fin 1) (Fin 1) ℝ) *ᵥ δd + (1 : Matrix (Fin 1) (Fin 1) ℝ) *ᵥ δs) 0) 0
  simp only [one_mulVec, Pi.add_apply]
  have h : ∀ a b : ℝ, HasDerivAt (fun t : ℝ => a + t * b) b 0 := fun a b => by
    simpa using ((hasDerivAt_id (0 : ℝ)).mul_const b).const_add a
  exact ((h p (δp 0)).add (h d (δd 0))).add (h s (δs 0))

/-- The three variables of `sumCam`, all active, with block indices 0, 1, 2. -/
def sumEnv : Env ℝ where
  blockIndex v := v
  columnBase v := v
  dim _ := 1
  active v := decide (v < 3)
  scaling _ := 1

/-- At zero. -/
noncomputable def sumVars : CamVars sumCam := ⟨(0 : ℝ), (0 : ℝ), (0 : ℝ), 0, 1, 2⟩

theorem sumEnv_ok : EnvOk sumEnv := ⟨fun d _ => Int.natCast_nonneg d, fun _ _ _ _ h => Int.ofNat.inj h⟩
theorem sumVars_ok : sumVars.Ok sumEnv := ⟨by decide, by decide, by decide, rfl, rfl, rfl⟩

example : sumCam.Correct ∧ EnvOk sumEnv ∧ sumVars.Ok sumEnv ∧ ∀ δ : Fin 1 → ℝ, Moved sumEnv sumVars.sv δ :=
  ⟨sumCam_correct, sumEnv_ok, sumVars_ok, fun _ => .inl rfl⟩

/-- Without a chain rule matrix an active shutter gets no Jacobian: the container has no entry for it although the error moves
with it, so the prediction of the container is not the derivative of the error. -/
theorem C92_plain_counterexample (debug : Bool) (y : Fin 1 → ℝ) (ph : Fin 4 → ℝ) (q : Nat) :
    ∃ jc, Res.run (step debug 2 sumEnv sparseAddJ) (newSparse 1 q) (adds (plain sumEnv sumVars ph)) = .ok jc ∧
      sparseJacobian sumEnv jc sumVars.sv = .exc ∧
      ¬ VDeriv (fun t => y - sumCam.keypoint sumVars.p sumVars.d (sumCam.updS sumVars.s (t • 1)) ph)
          (fun i => part sumEnv jc sumVars.pv (0 : Fin 1 → ℝ) i + part sumEnv jc sumVars.dv (0 : Fin 1 → ℝ) i +
            part sumEnv jc sumVars.sv (1 : Fin 1 → ℝ) i) 0 := by
  have hL : ∀ p ∈ plain sumEnv sumVars ph, p.2.rows = 1 ∧ p.2.cols = sumEnv.dim p.1 := by
    intro p hp
    simp only [plain, List.mem_append] at hp
    rcases hp with hp | hp <;> (split at hp <;> simp_all [toD, sumEnv])
  obtain ⟨jc, e, h1, h2⟩ := adds_spec debug sumEnv sumEnv_ok 2 1 q (by decide) (by decide) _ hL
  have hs : sparseJacobian sumEnv jc sumVars.sv = .exc := h2 _ rfl (by simp [plain, sumEnv, sumVars])
  refine ⟨jc, e, hs, fun h => ?_⟩
  have hz : ∀ v i, part sumEnv jc v (0 : Fin 1 → ℝ) i = 0 := by
    intro v i
    simp only [part, Pi.zero_apply, mul_zero, Finset.sum_const_zero]
    split
    · split <;> rfl
    · rfl
  have h0 := h 0
  have hp : part sumEnv jc sumVars.sv (1 : Fin 1 → ℝ) (0 : Fin 1).val = 0 := by
    simp only [part, hs, ite_self]
  dsimp only at h0
  rw [hz, hz, hp] at h0
  have h3 : HasDerivAt (fun t : ℝ => y 0 - (0 + 0 + (0 + t * 1))) (0 - (1 * 1)) 0 := by
    have := ((hasDerivAt_id (0 : ℝ)).mul_const 1)
    have := ((this.const_add 0).const_add (0 + 0)).const_sub (y 0)
    simpa using this
  have := h0.unique h3
  norm_num at this

end Verif.Camera
