import Verif.PriorTerm.Model
import Mathlib.Tactic.IntervalCases

/-!
C86: error terms with a prior.
-/
namespace Verif.PriorTerm
open Matrix Verif.Geo Verif.Expr Filter Topology

variable {invS : V3 × ℝ → Matrix (Fin 3 ⊕ Unit) (Fin 3) ℝ} {log : M3 → V3} {sInv : V3 → M3} {terms : Nat → Term} {tbl : Table}

/-- What is asked of the external functions at a rotation `C`: along every differentiable motion of rotation matrices through `C` with
`Ċ = -φ^× C` the rotation vector changes by `sInv` times `φ`. (The rotation by `π` is excluded by this: `log` is not continuous there.) -/
def LogOk (log : M3 → V3) (sInv : V3 → M3) (C : M3) : Prop :=
  ∀ (f : ℝ → M3) (t : ℝ) (φ : V3), f t = C → (∀ᶠ s in 𝓝 t, IsRot (f s)) → MDeriv f (-(crossMx φ * C)) t →
    VDeriv (fun s => log (f s)) (sInv (log C) *ᵥ φ) t

/-- The error vector of a term as a function of the design variables: the difference between value and prior, `T · prior⁻¹` for
transformations. -/
noncomputable def deviation (log : M3 → V3) (env : Env) : (τ : Term) → Res (Fin τ.dim → ℝ)
  | .pose T prior => val env T >>= fun P => prior.inv >>= fun Q => .ok (poseError log (P.mul Q))
  | .point p prior => val env p >>= fun x => .ok (x - prior)

/-- The nodes of the expression have the identities of `tbl`. -/
def Term.Cons (tbl : Table) : Term → Prop
  | .pose T _ => Expr.Cons tbl T
  | .point p _ => Expr.Cons tbl p

/-- The expression can be differentiated along the motion `c` at `t`; the prior is a transformation, and the rotation of the difference is
one where the rotation vector can be differentiated. -/
def Term.Smooth (log : M3 → V3) (sInv : V3 → M3) (c : ℝ → Env) (t : ℝ) : Term → Prop
  | .pose T prior => Expr.Smooth c t T ∧ IsRot prior.C ∧ ∀ P, val (c t) T = .ok P → LogOk log sInv (P.C * prior.Cᵀ)
  | .point p _ => Expr.Smooth c t p

/-- Operations after which nothing evaluated before is out of date. -/
def Op.Quiet (terms : Nat → Term) (tbl : Table) : Op → Prop
  | .vars _ => False
  | .error i => (terms i).Cons tbl
  | .jacobian i => (terms i).Cons tbl
  | .value e => Expr.Cons tbl e

/-- The members of the nodes of the term and its `_errorMatrix` belong to the current values. -/
def Current (terms : Nat → Term) (tbl : Table) (s : St) (i : Nat) : Prop :=
  match terms i with
  | .pose T prior => (∀ k ∈ ids s.env T, FreshId s.env tbl s.σ k) ∧ ∃ P Q, val s.env T = .ok P ∧ prior.inv = .ok Q ∧ s.E i = some (P.mul Q)
  | .point p _ => ∀ k ∈ ids s.env p, FreshId s.env tbl s.σ k

theorem errorT_dev {env : Env} {σ σ' : Store} {τ : Term} {e E} (h : errorT log env σ τ = .ok (e, σ', E)) : deviation log env τ = .ok e := by
  cases τ with
  | pose T prior =>
    simp only [errorT, bind_eq_ok] at h
    obtain ⟨P, h1, Q, h2, h3⟩ := h
    have h3 := congrArg Prod.fst (Res.ok.inj h3)
    simp only at h3
    simp [deviation, h1, h2, h3]
  | point p prior =>
    simp only [errorT, bind_eq_ok] at h
    obtain ⟨P, h1, h3⟩ := h
    have h3 := congrArg Prod.fst (Res.ok.inj h3)
    simp only at h3
    simp [deviation, h1, h3]

theorem errorT_σ {env : Env} {σ σ' : Store} {τ : Term} {e E} (h : errorT log env σ τ = .ok (e, σ', E)) :
    ∃ ty, ∃ x : Node ty, ∃ v, σ' = upd env x σ ∧ val env x = .ok v ∧ (τ.Cons tbl → Expr.Cons tbl x) := by
  cases τ with
  | pose T prior =>
    simp only [errorT, bind_eq_ok] at h
    obtain ⟨P, h1, Q, h2, h3⟩ := h
    have h3 := congrArg (fun r => r.2.1) (Res.ok.inj h3)
    exact ⟨_, T, P, h3.symm, h1, id⟩
  | point p prior =>
    simp only [errorT, bind_eq_ok] at h
    obtain ⟨P, h1, h3⟩ := h
    have h3 := congrArg (fun r => r.2.1) (Res.ok.inj h3)
    exact ⟨_, p, P, h3.symm, h1, id⟩

theorem jacT_mono {env : Env} {σ σ' : Store} {τ : Term} {E L} (hc : τ.Cons tbl) (h : jacT invS log sInv env E σ τ = .ok (L, σ')) :
    ∀ k, FreshId env tbl σ k → FreshId env tbl σ' k := by
  cases τ with
  | pose T prior =>
    cases E with
    | none => exact absurd h (by simp [jacT])
    | some M => exact (jac_mono T (poseJ log sInv M) hc _ _ _ h).1
  | point p prior => exact (jac_mono p (1 : M3) hc _ _ _ h).1

/-- Evaluating the error brings everything up to date. -/
theorem current_of_error {s s' : St} {i : Nat} {e} (hc : (terms i).Cons tbl) (h : error log terms s i = .ok (e, s')) :
    s'.env = s.env ∧ Current terms tbl s' i := by
  simp only [error, bind_eq_ok] at h
  obtain ⟨⟨e', σ', E'⟩, h1, h2⟩ := h
  have h2 := congrArg Prod.snd (Res.ok.inj h2)
  simp only at h2
  subst h2
  refine ⟨rfl, ?_⟩
  unfold Current
  simp only
  generalize terms i = τ at *
  cases τ with
  | pose T prior =>
    simp only [errorT, bind_eq_ok] at h1
    obtain ⟨P, h3, Q, h4, h5⟩ := h1
    have h6 := congrArg (fun r => r.2.1) (Res.ok.inj h5)
    have h7 := congrArg (fun r => r.2.2) (Res.ok.inj h5)
    simp only at h6 h7
    subst h6 h7
    exact ⟨upd_fresh s.env tbl T s.σ P hc h3, P, Q, h3, h4, by simp⟩
  | point p prior =>
    simp only [errorT, bind_eq_ok] at h1
    obtain ⟨x, h3, h5⟩ := h1
    have h6 := congrArg (fun r => r.2.1) (Res.ok.inj h5)
    simp only at h6
    subst h6
    exact upd_fresh s.env tbl p s.σ x hc h3

/-- Other evaluations keep it so. -/
theorem current_step {s s' : St} {i : Nat} {op : Op} (hq : op.Quiet terms tbl) (hcu : Current terms tbl s i)
    (h : step invS log sInv terms s op = .ok s') : s'.env = s.env ∧ Current terms tbl s' i := by
  have key : ∀ σ' : Store, (∀ k, FreshId s.env tbl s.σ k → FreshId s.env tbl σ' k) → Current terms tbl ⟨s.env, σ', s.E⟩ i := by
    intro σ' hm
    unfold Current at hcu ⊢
    generalize terms i = τ at *
    cases τ with
    | pose T prior => exact ⟨fun k hk => hm k (hcu.1 k hk), hcu.2⟩
    | point p prior => exact fun k hk => hm k (hcu k hk)
  cases op with
  | vars env => exact hq.elim
  | error j =>
    simp only [step, bind_eq_ok] at h
    obtain ⟨⟨e, s1⟩, h1, h2⟩ := h
    have h2 := Res.ok.inj h2
    simp only at h2
    subst h2
    by_cases hij : i = j
    · subst hij
      exact current_of_error hq h1
    · simp only [error, bind_eq_ok] at h1
      obtain ⟨⟨e', σ', E'⟩, h3, h4⟩ := h1
      have h4 := congrArg Prod.snd (Res.ok.inj h4)
      simp only at h4
      subst h4
      refine ⟨rfl, ?_⟩
      obtain ⟨ty, x, v, h5, h6, h7⟩ := errorT_σ (tbl := tbl) h3
      have := key σ' (by rw [h5]; exact fun k => upd_mono s.env tbl x s.σ k (h7 hq))
      unfold Current at this ⊢
      simp only [if_neg hij]
      exact this
  | jacobian j =>
    simp only [step, bind_eq_ok] at h
    obtain ⟨⟨L, s1⟩, h1, h2⟩ := h
    have h2 := Res.ok.inj h2
    simp only at h2
    subst h2
    simp only [jacobian, bind_eq_ok] at h1
    obtain ⟨⟨L', σ'⟩, h3, h4⟩ := h1
    have h4 := congrArg Prod.snd (Res.ok.inj h4)
    simp only at h4
    subst h4
    exact ⟨rfl, key σ' (jacT_mono hq h3)⟩
  | value x =>
    simp only [step, evaluate, bind_eq_ok] at h
    obtain ⟨⟨v, σ'⟩, ⟨v', h1, h3⟩, h2⟩ := h
    have h2 := Res.ok.inj h2
    have h3 := congrArg Prod.snd (Res.ok.inj h3)
    simp only at h2 h3
    subst h2 h3
    exact ⟨rfl, key _ fun k => upd_mono s.env tbl x s.σ k hq⟩

theorem current_run {ops : List Op} {s s' : St} {i : Nat} (hq : ∀ op ∈ ops, op.Quiet terms tbl) (hcu : Current terms tbl s i)
    (h : Res.run (step invS log sInv terms) s ops = .ok s') : s'.env = s.env ∧ Current terms tbl s' i := by
  induction ops generalizing s with
  | nil => simp at h; subst h; exact ⟨rfl, hcu⟩
  | cons op ops ih =>
    rw [Res.run_cons, bind_eq_ok] at h
    obtain ⟨s1, h1, h2⟩ := h
    obtain ⟨e1, c1⟩ := current_step (hq op (List.mem_cons_self ..)) hcu h1
    obtain ⟨e2, c2⟩ := ih (fun o ho => hq o (List.mem_cons_of_mem _ ho)) c1 h2
    exact ⟨e2.trans e1, c2⟩

theorem poseJ_mulVec (M : Pose) (d : Fin 3 ⊕ Fin 3 → ℝ) : poseJ log sInv M *ᵥ d = fun k =>
    Sum.elim ((fun k => d (.inl k)) + M.t ⨯₃ fun k => d (.inr k)) (sInv (log M.C) *ᵥ fun k => d (.inr k)) (half k) := by
  funext k
  have h : (poseJ log sInv M *ᵥ d) k = (fromBlocks 1 (crossMx M.t) 0 (sInv (log M.C)) *ᵥ d) (half k) := rfl
  rw [h, Matrix.fromBlocks_mulVec]
  rcases half k with j | j
  · simp only [Sum.elim_inl, Matrix.one_mulVec, crossMx_mulVec]
    rfl
  · simp only [Sum.elim_inr, Matrix.zero_mulVec, zero_add]
    rfl

/-- The Jacobians of a term whose members belong to the current values. -/
theorem jacobian_current {c : ℝ → Env} {t : ℝ} {δ : (v : Var) → v.Idx → ℝ} (hm : Moves invS c t δ) {s : St} {i : Nat} (hs : s.env = c t)
    (hc : (terms i).Cons tbl) (hsm : (terms i).Smooth log sInv c t) {e} (he : deviation log (c t) (terms i) = .ok e) (hcu : Current terms tbl s i) :
    ∃ f L s', (∀ᶠ r in 𝓝 t, deviation log (c r) (terms i) = .ok (f r)) ∧ jacobian invS log sInv terms s i = .ok (L, s') ∧ VDeriv f (total δ L) t := by
  unfold Current at hcu
  unfold jacobian
  rw [hs] at hcu ⊢
  revert hcu
  generalize s.E i = Ei
  intro hcu
  generalize terms i = τ at *
  cases τ with
  | pose T prior =>
    obtain ⟨hf, P, Q, hP, hQ, hE⟩ := hcu
    obtain ⟨h1, h2, h3⟩ := hsm
    obtain ⟨f, d, g1, g2, g3⟩ := good hm T hc h1 hP
    subst hE
    obtain ⟨L, σ', g4, g5, -⟩ := g3 6 (poseJ log sInv (P.mul Q)) s.σ hf
    rw [Pose.inv_eq h2] at hQ
    have hQ := Res.ok.inj hQ
    have hft : f t = P := Res.ok.inj (g1.self_of_nhds.symm.trans hP)
    have hl := h3 P hP
    have hQC : Q.C = prior.Cᵀ := by rw [← hQ]
    obtain ⟨k1, k2, k3⟩ := g2
    refine ⟨fun r => poseError log ((f r).mul Q), L, ⟨c t, σ', s.E⟩, ?_, ?_, ?_⟩
    · filter_upwards [g1] with r q1
      simp [deviation, q1, Pose.inv_eq h2, hQ]
    · change (jac invS (c t) T (poseJ log sInv (P.mul Q)) s.σ >>= _) = _
      rw [g4]
      rfl
    · change VDeriv (n := Fin 6) _ (total (m := 6) δ L) t
      rw [g5, poseJ_mulVec]
      have d1 : VDeriv (fun r => ((f r).mul Q).t) ((fun k => d (.inl k)) + (P.mul Q).t ⨯₃ fun k => d (.inr k)) t := by
        refine (VDeriv.add (MDeriv.mulVec k1 (VDeriv.const Q.t)) k2).congr ?_
        rw [hft]
        simp only [Pose.mul, Matrix.mulVec_zero, add_zero, Matrix.neg_mulVec, ← Matrix.mulVec_mulVec, crossMx_mulVec, map_add, LinearMap.add_apply]
        rw [← cross_anticomm (fun k => d (.inr k)) P.t, ← cross_anticomm (fun k => d (.inr k)) (P.C *ᵥ Q.t)]
        abel
      have d2 : VDeriv (fun r => log ((f r).mul Q).C) (sInv (log (P.mul Q).C) *ᵥ fun k => d (.inr k)) t := by
        have e0 : (P.mul Q).C = P.C * prior.Cᵀ := by simp [Pose.mul, hQC]
        rw [e0]
        refine hl _ t _ (by simp [Pose.mul, hft, hQC]) ?_ ?_
        · filter_upwards [k3] with r q
          simp only [Pose.mul]
          rw [hQC]
          exact q.mul h2.transpose
        · refine (MDeriv.mul k1 (MDeriv.const Q.C)).congr ?_
          rw [hft, hQC]
          simp [Matrix.mul_assoc]
      intro k
      change HasDerivAt (fun r => Sum.elim ((f r).mul Q).t (log ((f r).mul Q).C) (half k)) (Sum.elim _ _ (half k)) t
      rcases half k with j | j
      · exact d1 j
      · exact d2 j
  | point p prior =>
    simp only [deviation, bind_eq_ok] at he
    obtain ⟨x, hx, he⟩ := he
    obtain ⟨f, d, g1, g2, g3⟩ := good hm p hc hsm hx
    obtain ⟨L, σ', g4, g5, -⟩ := g3 3 (1 : M3) s.σ hcu
    refine ⟨fun r => f r - prior, L, ⟨c t, σ', s.E⟩, ?_, ?_, ?_⟩
    · filter_upwards [g1] with r q1
      simp [deviation, q1]
    · change (jac invS (c t) p (1 : M3) s.σ >>= _) = _
      rw [g4]
      rfl
    · change VDeriv (n := Fin 3) _ (total (m := 3) δ L) t
      rw [g5, Matrix.one_mulVec]
      exact (VDeriv.sub g2 (VDeriv.const prior)).congr (sub_zero d)

/-! ### C86 -/

/-- The full claim holds for any history. Here the error must have been evaluated since the design variables last changed: then, whatever
happened before (`before`, from any state `s0`) and whatever else is evaluated afterwards (`after`), the error vector is the deviation from the
prior and the Jacobians times the velocities of the design variables are its velocity, along every differentiable motion. Without the
evaluation it is false, see the counterexamples. -/
theorem C86_history_partial {c : ℝ → Env} {t : ℝ} {δ : (v : Var) → v.Idx → ℝ} (hm : Moves invS c t δ) (i : Nat) (hc : (terms i).Cons tbl)
    (hsm : (terms i).Smooth log sInv c t) (s0 s1 s2 s3 : St) (before after : List Op) (e : Fin (terms i).dim → ℝ)
    (_hb : Res.run (step invS log sInv terms) s0 before = .ok s1) (h1 : s1.env = c t) (he : error log terms s1 i = .ok (e, s2))
    (ha : ∀ op ∈ after, op.Quiet terms tbl) (h3 : Res.run (step invS log sInv terms) s2 after = .ok s3) :
    ∃ f L s4, (∀ᶠ r in 𝓝 t, deviation log (c r) (terms i) = .ok (f r)) ∧ f t = e ∧
      jacobian invS log sInv terms s3 i = .ok (L, s4) ∧ VDeriv f (total δ L) t := by
  obtain ⟨e2, c2⟩ := current_of_error hc he
  obtain ⟨e3, c3⟩ := current_run ha c2 h3
  simp only [error, bind_eq_ok] at he
  obtain ⟨⟨e', σ', E'⟩, g1, g2⟩ := he
  have g2 := congrArg Prod.fst (Res.ok.inj g2)
  simp only at g2
  subst g2
  have hd := errorT_dev g1
  rw [h1] at hd
  obtain ⟨f, L, s4, k1, k2, k3⟩ := jacobian_current hm (e3.trans (e2.trans h1)) hc hsm hd c3
  exact ⟨f, L, s4, k1, Res.ok.inj (k1.self_of_nhds.symm.trans hd), k2, k3⟩

/-- The antisymmetric part of a matrix: near the identity, this is the rotation vector. -/
noncomputable def skewLog (C : M3) : V3 := ![(C 1 2 - C 2 1) / 2, (C 2 0 - C 0 2) / 2, (C 0 1 - C 1 0) / 2]

theorem skewLog_ok : LogOk skewLog (fun _ => 1) 1 := by
  intro f t φ hf _ hd k
  have e12 := hd 1 2; have e21 := hd 2 1; have e20 := hd 2 0; have e02 := hd 0 2; have e01 := hd 0 1; have e10 := hd 1 0
  simp [crossMx] at e12 e21 e20 e02 e01 e10
  fin_cases k
  · exact ((e12.sub e21).div_const 2).congr_deriv (by simp)
  · exact ((e20.sub e02).div_const 2).congr_deriv (by simp)
  · exact ((e01.sub e10).div_const 2).congr_deriv (by simp)

/-- Two terms: a pose whose prior is its value at time 0, and a rotated point which shares a node with nothing. -/
noncomputable def exTerms : Nat → Term := fun i =>
  if i = 0 then .pose (.tbasic (.rvar 0) (.evar 0)) ⟨axisRot 2 0, ![0, 1, 0]⟩ else .point exPoint ![1, 2, 3]

theorem exTerms_zero : exTerms 0 = .pose (.tbasic (.rvar 0) (.evar 0)) ⟨axisRot 2 0, ![0, 1, 0]⟩ := rfl

/-- After the point has been evaluated elsewhere, the pose is evaluated, then the error and the Jacobians of the point. -/
example (σ : Store) (E : Nat → Option Pose) : ∃ e s2 s3 f L s4, error skewLog exTerms ⟨exC 0, σ, E⟩ 0 = .ok (e, s2) ∧
    Res.run (step invS skewLog (fun _ => 1) exTerms) s2 [.error 1, .jacobian 1] = .ok s3 ∧
    (∀ᶠ r in 𝓝 (0 : ℝ), deviation skewLog (exC r) (exTerms 0) = .ok (f r)) ∧ f 0 = e ∧
    jacobian invS skewLog (fun _ => 1) exTerms s3 0 = .ok (L, s4) ∧ VDeriv f (total exD L) 0 := by
  have hr : IsRot (axisRot 2 0) := axisRot_isRot 2 0
  obtain ⟨e, s2, h1⟩ : ∃ e s2, error skewLog exTerms ⟨exC 0, σ, E⟩ 0 = .ok (e, s2) := by
    simp only [error, exTerms_zero, errorT, val, Res.bind_ok, Pose.inv_eq (P := ⟨axisRot 2 0, _⟩) hr]
    exact ⟨_, _, rfl⟩
  have hc0 : (exTerms 0).Cons exTbl := by rw [exTerms_zero]; simp [Term.Cons, Cons]
  have hc1 : (exTerms 1).Cons exTbl := by change Cons exTbl exPoint; simp [Cons, exPoint, exTbl]
  have he2 := (current_of_error hc0 h1).1
  obtain ⟨e', s2', h2⟩ : ∃ e s, error skewLog exTerms s2 1 = .ok (e, s) := by
    have : exTerms 1 = .point exPoint ![1, 2, 3] := rfl
    exact ⟨_, _, rfl⟩
  have hd : deviation skewLog (exC 0) (exTerms 1) = .ok (((exC 0).ro 0 *ᵥ ((exC 0).pt 0 + (exC 0).pt 1)) - (![1, 2, 3] : V3)) := rfl
  have hm := exMoves invS 0
  obtain ⟨-, L, s3, -, h3, -⟩ := jacobian_current (log := skewLog) (sInv := fun _ => 1) hm ((current_of_error hc1 h2).1.trans he2) hc1
    (by change Smooth _ _ exPoint; simp [Smooth, exPoint]) hd (current_of_error hc1 h2).2
  have hrun : Res.run (step invS skewLog (fun _ => 1) exTerms) s2 [.error 1, .jacobian 1] = .ok s3 := by
    simp [step, h2, h3]
  obtain ⟨f, L', s4, k⟩ := C86_history_partial (tbl := exTbl) hm 0 hc0 (by
      rw [exTerms_zero]
      refine ⟨by simp [Smooth], hr, fun P hP => ?_⟩
      have hP : P = ⟨axisRot 2 0, _⟩ := (Res.ok.inj hP).symm
      rw [hP, hr.1]
      exact skewLog_ok) ⟨exC 0, σ, E⟩ ⟨exC 0, σ, E⟩ s2 s3 [] [.error 1, .jacobian 1] e rfl rfl h1
    (by simp [Op.Quiet, hc1]) hrun
  exact ⟨e, s2, s3, f, L', s4, h1, hrun, k⟩

/-- The error of a pose is zero exactly when its value is the prior (if the rotation vector is zero for the identity only). -/
theorem C86_zero_pose (hlog : ∀ C, IsRot C → (log C = 0 ↔ C = 1)) (env : Env) (T : Node .T) (prior P : Pose) (hp : IsRot prior.C) (hv : val env T = .ok P)
    (hP : IsRot P.C) : deviation log env (.pose T prior) = .ok (fun _ => 0 : Fin 6 → ℝ) ↔ P = prior := by
  simp only [deviation, hv, Res.bind_ok, Pose.inv_eq hp]
  constructor
  · intro h
    have h := Res.ok.inj h
    have ht : P.C *ᵥ -(prior.Cᵀ *ᵥ prior.t) + P.t = 0 := by
      funext k
      have := congrFun h (finSumFinEquiv (.inl k) : Fin (3 + 3))
      simpa [poseError, Pose.mul] using this
    have hC : log (P.C * prior.Cᵀ) = 0 := by
      funext k
      have := congrFun h (finSumFinEquiv (.inr k) : Fin (3 + 3))
      simpa [poseError, Pose.mul] using this
    rw [hlog _ (hP.mul hp.transpose)] at hC
    have hC' : P.C = prior.C := by
      calc P.C = P.C * (prior.Cᵀ * prior.C) := by rw [hp.left, Matrix.mul_one]
        _ = prior.C := by rw [← Matrix.mul_assoc, hC, Matrix.one_mul]
    rw [hC', Matrix.mulVec_neg, Matrix.mulVec_mulVec, hp.1, Matrix.one_mulVec, neg_add_eq_zero] at ht
    cases P; cases prior
    simp_all
  · rintro rfl
    have h0 : (log 1) = 0 := (hlog 1 IsRot.one).2 rfl
    congr 1
    funext k
    simp only [poseError, Pose.mul, Matrix.mulVec_neg, Matrix.mulVec_mulVec, hp.1, Matrix.one_mulVec, neg_add_cancel, h0]
    rcases half k with j | j <;> rfl

/-- The error of a point is zero exactly when its value is the prior. -/
theorem C86_zero_point (env : Env) (p : Node .E) (prior x : V3) (hv : val env p = .ok x) :
    deviation log env (.point p prior) = .ok (fun _ => 0 : Fin 3 → ℝ) ↔ x = prior := by
  simp only [deviation, hv, Res.bind_ok]
  constructor
  · intro h
    exact sub_eq_zero.mp (Res.ok.inj h)
  · rintro rfl
    rw [sub_self]
    rfl

/-- With two weights the squared error is the translation weight times the squared distance of the error from the prior plus the rotation
weight times the squared angle, for whatever square root of the information matrix the term uses. -/
theorem C86_weights (wR wT : ℝ) (τ : ErrorTerm.Term) (hd : τ.dim = 6) (hw : ∀ v v', v < 6 → v' < 6 → ErrorTerm.invR τ v v' = weights wR wT v v') (M : Pose) :
    (ErrorTerm.updateRaw .chi τ fun v => if h : v < 6 then poseError log M ⟨v, h⟩ else 0).squaredError =
      wT * ∑ k, M.t k ^ 2 + wR * ∑ k, log M.C k ^ 2 := by
  change ErrorTerm.chiSquared _ = _
  rw [ErrorTerm.chiSquared_eq]
  change ∑ v ∈ Finset.range τ.dim, ∑ v' ∈ Finset.range τ.dim, (if h : v < 6 then poseError log M ⟨v, h⟩ else 0) * ErrorTerm.invR τ v v' *
    (if h : v' < 6 then poseError log M ⟨v', h⟩ else 0) = _
  rw [hd]
  have h0 : ∀ v ∈ Finset.range 6, ∀ v' ∈ Finset.range 6, ErrorTerm.invR τ v v' = weights wR wT v v' := fun v hv v' hv' =>
    hw v v' (Finset.mem_range.1 hv) (Finset.mem_range.1 hv')
  rw [Finset.sum_congr rfl fun v hv => Finset.sum_congr rfl fun v' hv' => by rw [h0 v hv v' hv']]
  have p0 : poseError log M 0 = M.t 0 := rfl
  have p1 : poseError log M 1 = M.t 1 := rfl
  have p2 : poseError log M 2 = M.t 2 := rfl
  have p3 : poseError log M 3 = log M.C 0 := rfl
  have p4 : poseError log M 4 = log M.C 1 := rfl
  have p5 : poseError log M 5 = log M.C 2 := rfl
  simp [Finset.sum_range_succ, weights, Fin.sum_univ_three, p0, p1, p2, p3, p4, p5]
  ring

/-- Weights 4 for rotation and 9 for translation, the square root being diagonal. -/
example : let τ : ErrorTerm.Term := ⟨6, fun _ => 0, ⟨6, 6, fun i j => if i = j then (if i < 3 then 3 else 2) else 0⟩, fun _ => 1, 0⟩
    τ.dim = 6 ∧ ∀ v v', v < 6 → v' < 6 → ErrorTerm.invR τ v v' = weights 4 9 v v' := by
  refine ⟨rfl, fun v v' hv hv' => ?_⟩
  simp only [ErrorTerm.invR, Finset.sum_range_succ, Finset.range_zero, Finset.sum_empty, weights]
  interval_cases v <;> interval_cases v' <;> norm_num

example : ∃ log : M3 → V3, (∀ C, IsRot C → (log C = 0 ↔ C = 1)) ∧
    (deviation log (exC 1) (.pose (.tbasic (.rvar 0) (.evar 0)) ⟨axisRot 2 1, ![1, 1, 0]⟩) = .ok (fun _ => 0 : Fin 6 → ℝ) ↔
      (⟨axisRot 2 1, (exC 1).pt 0⟩ : Pose) = ⟨axisRot 2 1, ![1, 1, 0]⟩) := by
  classical
  have hl : ∀ C : M3, IsRot C → ((fun C : M3 => (fun _ => if C = 1 then 0 else 1 : V3)) C = 0 ↔ C = 1) := by
    intro C _
    constructor
    · intro h
      by_contra hn
      have := congrFun h 0
      simp [hn] at this
    · rintro rfl
      funext k
      simp
  exact ⟨_, hl, C86_zero_pose hl (exC 1) _ _ ⟨axisRot 2 1, (exC 1).pt 0⟩ (axisRot_isRot 2 1) rfl (axisRot_isRot 2 1)⟩

example : deviation log (exC 1) (.point (.evar 0) ![1, 1, 0]) = .ok (fun _ => 0 : Fin 3 → ℝ) ↔ (exC 1).pt 0 = ![1, 1, 0] :=
  C86_zero_point (exC 1) (.evar 0) ![1, 1, 0] _ rfl

/-- Design variables whose rotation is `C`. -/
noncomputable def envR (C : M3) : Env := ⟨fun _ => 0, fun _ => 0, fun _ => C, fun _ => (0, 1), fun _ _ => 1⟩

/-- Half a turn about the third axis. -/
def halfTurn : M3 := !![-1, 0, 0; 0, -1, 0; 0, 0, 1]

/-- A rotation with the prior `x ↦ x + (1, 0, 0)`. -/
noncomputable def turnTerm : Nat → Term := fun _ => .pose (.tbasicR (.rvar 0)) ⟨1, ![1, 0, 0]⟩

theorem turn_error (C : M3) (σ : Store) (E : Nat → Option Pose) : error log turnTerm ⟨envR C, σ, E⟩ 0 =
    .ok (poseError log (Pose.mul ⟨C, 0⟩ ⟨1, -![1, 0, 0]⟩), ⟨envR C, σ, fun j => if j = 0 then some (Pose.mul ⟨C, 0⟩ ⟨1, -![1, 0, 0]⟩) else E j⟩) := by
  have h : (⟨1, ![1, 0, 0]⟩ : Pose).inv = .ok ⟨1, -![1, 0, 0]⟩ := by
    rw [Pose.inv_eq (P := ⟨1, ![1, 0, 0]⟩) IsRot.one]; simp
  change (val (envR C) (.tbasicR (.rvar 0)) >>= fun P => (⟨1, ![1, 0, 0]⟩ : Pose).inv >>= fun Q => _) >>= _ = _
  rw [h]
  rfl

/-- Only rotations move, about the third axis. -/
def turnD : (v : Var) → v.Idx → ℝ
  | .ro _ => ![0, 0, 1]
  | .sc _ => 0
  | .pt _ => 0
  | .ho _ => 0
  | .mat _ _ => 0

theorem turn_total (M : Pose) : total (m := 6) turnD [⟨.ro 0, poseJ log sInv M * fromRows (0 : M3) (1 : M3)⟩] 1 = (M.t ⨯₃ ![0, 0, 1]) 1 := by
  simp only [total, List.map_cons, List.map_nil, List.sum_cons, List.sum_nil, add_zero, turnD]
  rw [← Matrix.mulVec_mulVec, poseJ_mulVec]
  have e1 : (fun k => ((fromRows (0 : M3) (1 : M3)) *ᵥ ![0, 0, 1]) (.inl k)) = 0 := by rw [fromRows_inl]; simp
  have e2 : (fun k => ((fromRows (0 : M3) (1 : M3)) *ᵥ ![0, 0, 1]) (.inr k)) = ![0, 0, 1] := by rw [fromRows_inr]; simp
  rw [e1, e2]
  change ((0 : V3) + M.t ⨯₃ ![0, 0, 1]) 1 = _
  rw [zero_add]

/-- Evaluate the error of a rotation, turn it by half a turn and ask for Jacobians: they are those of the error at the old value. The
velocity of the translation part has the wrong sign. -/
theorem C86_stale_counterexample (σ : Store) (E : Nat → Option Pose) : ∃ s s' L L' r r' δ,
    Res.run (step invS log sInv turnTerm) ⟨envR 1, σ, E⟩ [.error 0, .vars (envR halfTurn)] = .ok s ∧
    Res.run (step invS log sInv turnTerm) ⟨envR 1, σ, E⟩ [.vars (envR halfTurn), .error 0] = .ok s' ∧
    jacobian invS log sInv turnTerm s 0 = .ok (L, r) ∧ jacobian invS log sInv turnTerm s' 0 = .ok (L', r') ∧
    total δ L (1 : Fin 6) = 1 ∧ total δ L' (1 : Fin 6) = -1 := by
  have h1 : Res.run (step invS log sInv turnTerm) ⟨envR 1, σ, E⟩ [.error 0, .vars (envR halfTurn)] =
      .ok ⟨envR halfTurn, σ, fun j => if j = 0 then some (Pose.mul ⟨1, 0⟩ ⟨1, -![1, 0, 0]⟩) else E j⟩ := by
    simp only [Res.run_cons, step, turn_error, Res.bind_ok, Res.run_nil]
  have h2 : Res.run (step invS log sInv turnTerm) ⟨envR 1, σ, E⟩ [.vars (envR halfTurn), .error 0] =
      .ok ⟨envR halfTurn, σ, fun j => if j = 0 then some (Pose.mul ⟨halfTurn, 0⟩ ⟨1, -![1, 0, 0]⟩) else E j⟩ := by
    simp only [Res.run_cons, step, turn_error, Res.bind_ok, Res.run_nil]
  refine ⟨_, _, _, _, _, _, turnD, h1, h2, rfl, rfl, (turn_total _).trans ?_, (turn_total _).trans ?_⟩
  all_goals simp [Pose.mul, halfTurn, cross_apply, Matrix.mulVec, dotProduct, Fin.sum_univ_three]

/-- Jacobians asked for before any error: the error matrix has never been written. -/
theorem C86_uninitialised_counterexample (env : Env) (σ : Store) : jacobian invS log sInv turnTerm ⟨env, σ, fun _ => none⟩ 0 = .ub := rfl

end Verif.PriorTerm
