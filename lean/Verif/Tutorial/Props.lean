import Verif.Tutorial.Model

/-! C93: properties of the tutorial problem. -/
namespace Verif.Tutorial
open Verif.Jacobian Verif.Jacobian.Spec Verif.MatrixStack

/-- The last value written by `update` or `set`, over any history, is the value; reverting, once or more often, gives the value before; reverting a new variable keeps its value. -/
theorem C93_revert (x : ℝ) (ops : List SOp) (o : SOp) (ho : o ≠ .revert) (n : Nat) :
    ((List.replicate (n + 1) SOp.revert).foldl SV.step ((ops.foldl SV.step (SV.make x)).step o)).value = (ops.foldl SV.step (SV.make x)).value ∧
    (∀ dp, o = .update dp → ((ops.foldl SV.step (SV.make x)).step o).value = (ops.foldl SV.step (SV.make x)).value + dp) ∧
    (∀ y, o = .set y → ((ops.foldl SV.step (SV.make x)).step o).value = y) ∧
    ((List.replicate n SOp.revert).foldl SV.step (SV.make x)).value = x := by
  have h : ∀ (n : Nat) (s : SV), ((List.replicate (n + 1) SOp.revert).foldl SV.step s).value = s.prev := by
    intro n
    induction n with
    | zero => exact fun _ => rfl
    | succ n ih =>
      intro s
      rw [List.replicate_succ, List.foldl_cons, ih]
      rfl
  have h0 : ((List.replicate n SOp.revert).foldl SV.step (SV.make x)).value = x := by
    cases n with
    | zero => rfl
    | succ n => exact h n _
  generalize ops.foldl SV.step (SV.make x) = s
  refine ⟨?_, by rintro dp rfl; rfl, by rintro y rfl; rfl, h0⟩
  rw [h]
  cases o with
  | update dp => rfl
  | set y => rfl
  | revert => exact absurd rfl ho

example : (([SOp.update 2, .revert, .update 5].foldl SV.step (SV.make 1)).step (.set 9) |>.step .revert).value = 6 := by
  norm_num [SV.step, SV.make]

/-- The error of an observation is defined. -/
def Term.Away (v : Nat → ℝ) : Term → Prop
  | .observation x w _ _ => v w ≠ v x
  | _ => True

/-- What the Jacobians of a term predict for a step. -/
noncomputable def Term.change (v δ : Nat → ℝ) (t : Term) : ℝ := ((t.jacobians v).map fun p => p.2.e 0 0 * δ p.1).sum

/-- The Jacobians of every term are the derivative of its residual, for all values at which it is defined and all steps, also
when both variables are the same. -/
theorem C93_jacobian (t : Term) (v δ : Nat → ℝ) (h : t.Away v) :
    HasDerivAt (fun s => t.residual fun d => v d + s * δ d) (t.change v δ) 0 := by
  have hl : ∀ a b : ℝ, HasDerivAt (fun s : ℝ => a + s * b) b 0 := fun a b => by
    simpa using ((hasDerivAt_id (0 : ℝ)).mul_const b).const_add a
  cases t with
  | prior x hat s =>
    refine ((hl (v x) (δ x)).sub_const hat).congr_deriv ?_
    simp [Term.change, Term.jacobians, one]
  | motion x x1 u s =>
    refine (((hl (v x1) (δ x1)).sub (hl (v x) (δ x))).sub_const u).congr_deriv ?_
    simp [Term.change, Term.jacobians, one]
    ring
  | observation x w y s =>
    have hne : v w - v x ≠ 0 := sub_ne_zero.2 h
    have h1 := (hl (v w) (δ w)).sub (hl (v x) (δ x))
    have h2 := h1.inv (by simpa using hne)
    have h3 := h2.const_sub y
    refine (h3.congr_of_eventuallyEq (Filter.Eventually.of_forall fun s => ?_)).congr_deriv ?_
    · simp [Term.residual]
    · simp [Term.change, Term.jacobians, one]
      field_simp
      ring

example : (Term.observation 1 0 3 1).Away (fun d => if d = 0 then -5 else d) := by
  change ((-5 : ℝ)) ≠ _
  norm_num

/-- The Jacobians of a term reach the container: every call on a fresh container of one row returns normally, each active
variable holds the sum of its entries, and every variable with a Jacobian is among those the term registered. -/
theorem C93_container (debug : Bool) (env : Env ℝ) (henv : EnvOk env) (align q : Nat) (ha : 0 < align) (t : Term) (v : Nat → ℝ)
    (hd : ∀ d ∈ t.dvs, env.dim d = 1) :
    (t.jacobians v).map Prod.fst = t.dvs ∧
    ∃ jc, Res.run (step debug align env sparseAddJ) (newSparse 1 q) (adds (t.jacobians v)) = .ok jc ∧
      ∀ d ∈ t.dvs, env.active d = true → ∃ J, sparseJacobian env jc d = .ok J ∧ J.rows = 1 ∧ J.cols = 1 ∧
        J.e 0 0 = assigned (t.jacobians v) d 0 0 := by
  have hf : (t.jacobians v).map Prod.fst = t.dvs := by cases t <;> rfl
  have hsz : ∀ p ∈ t.jacobians v, p.2.rows = 1 ∧ p.2.cols = 1 := by
    intro p hp
    cases t <;> simp only [Term.jacobians, List.mem_cons, List.not_mem_nil, or_false] at hp
    · subst hp
      exact ⟨rfl, rfl⟩
    · rcases hp with rfl | rfl <;> exact ⟨rfl, rfl⟩
    · rcases hp with rfl | rfl <;> exact ⟨rfl, rfl⟩
  have hL : ∀ p ∈ t.jacobians v, p.2.rows = 1 ∧ p.2.cols = env.dim p.1 := fun p hp =>
    ⟨(hsz p hp).1, (hsz p hp).2.trans (hd p.1 (hf ▸ List.mem_map.2 ⟨p, hp, rfl⟩)).symm⟩
  obtain ⟨jc, e, h1, -⟩ := adds_spec debug env henv align 1 q ha (by decide) _ hL
  refine ⟨hf, jc, e, fun d hdv hact => ?_⟩
  obtain ⟨J, j1, j2, j3, j4⟩ := h1 d hact (hf ▸ hdv)
  exact ⟨J, j1, j2, j3.trans (hd d hdv), j4 0 0 (by decide) (by rw [hd d hdv]; decide)⟩

theorem mem_terms {K : Int} {u y : Nat → ℝ} {L : List Term} (h : terms K u y = .ok L) :
    0 < K ∧ Term.prior (pos 0) 0 sigma2x ∈ L ∧
      ∀ k, k + 1 < K.toNat → Term.motion (pos k) (pos (k + 1)) (u (k + 1)) sigma2u ∈ L ∧
        Term.observation (pos (k + 1)) wall (y (k + 1)) sigma2n ∈ L := by
  unfold terms at h
  by_cases h1 : K < 0
  · simp only [if_pos h1] at h
    cases h
  by_cases h2 : K = 0
  · simp only [if_neg h1, if_pos h2] at h
    cases h
  simp only [if_neg h1, if_neg h2] at h
  cases h
  refine ⟨by omega, List.mem_cons_self .., fun k hk => ⟨List.mem_cons_of_mem _ ?_, List.mem_cons_of_mem _ ?_⟩⟩
  · exact List.mem_flatMap.2 ⟨k, List.mem_range.2 (by omega), by simp [stepTerms]⟩
  · exact List.mem_flatMap.2 ⟨k, List.mem_range.2 (by omega), by simp [stepTerms]⟩

theorem terms_invR {K : Int} {u y : Nat → ℝ} {L : List Term} (h : terms K u y = .ok L) : ∀ t ∈ L, 0 < t.invR := by
  unfold terms at h
  by_cases h1 : K < 0
  · simp only [if_pos h1] at h
    cases h
  by_cases h2 : K = 0
  · simp only [if_neg h1, if_pos h2] at h
    cases h
  simp only [if_neg h1, if_neg h2] at h
  cases h
  intro t ht
  rcases List.mem_cons.1 ht with rfl | ht
  · norm_num [Term.invR, sigma2x]
  · obtain ⟨k, -, hk⟩ := List.mem_flatMap.1 ht
    simp only [stepTerms, List.mem_cons, List.not_mem_nil, or_false] at hk
    rcases hk with rfl | rfl <;> norm_num [Term.invR, sigma2u, sigma2n]

/-- The cost of the problem is the sum of squares of the errors in multiples of their standard deviations: 1 cm for the prior and the observations, 10 cm for the odometry. -/
theorem C93_cost (K : Int) (u y v : Nat → ℝ) (L : List Term) (hL : terms K u y = .ok L) :
    (L.map fun t => t.residual v * t.invR * t.residual v).sum = (v (pos 0) / 0.01) ^ 2 +
      ∑ k ∈ Finset.range (K.toNat - 1), (((v (pos (k + 1)) - v (pos k) - u (k + 1)) / 0.1) ^ 2 + ((y (k + 1) - 1 / (v wall - v (pos (k + 1)))) / 0.01) ^ 2) := by
  unfold terms at hL
  by_cases h1 : K < 0
  · simp only [if_pos h1] at hL
    cases hL
  by_cases h2 : K = 0
  · simp only [if_neg h1, if_pos h2] at hL
    cases hL
  simp only [if_neg h1, if_neg h2] at hL
  cases hL
  have h : ∀ n : Nat, (((List.range n).flatMap fun k => stepTerms u y (k + 1)).map (fun t => t.residual v * t.invR * t.residual v)).sum =
      ∑ k ∈ Finset.range n, (((v (pos (k + 1)) - v (pos k) - u (k + 1)) / 0.1) ^ 2 + ((y (k + 1) - 1 / (v wall - v (pos (k + 1)))) / 0.01) ^ 2) := by
    intro n
    induction n with
    | zero => rfl
    | succ n ih =>
      rw [List.range_succ, List.flatMap_append, List.map_append, List.sum_append, ih, Finset.sum_range_succ]
      congr 1
      simp only [List.flatMap_cons, List.flatMap_nil, List.append_nil, stepTerms, Nat.add_sub_cancel, List.map_cons, List.map_nil, List.sum_cons, List.sum_nil, Term.residual, Term.invR, sigma2u, sigma2n]
      ring
  rw [List.map_cons, List.sum_cons, h]
  congr 1
  simp only [Term.residual, Term.invR, sigma2x]
  ring

/-- With at least two steps and the robot away from the wall at one observed position, the Gauss-Newton matrix of the problem is
positive definite at all values: every step that moves a variable has a positive quadratic form.  By induction along the
odometry. -/
theorem C93_positive_definite (K : Int) (u y v δ : Nat → ℝ) (L : List Term) (hL : terms K u y = .ok L)
    (k : Nat) (hk : k + 1 < K.toNat) (hw : v wall ≠ v (pos (k + 1))) (d : Nat) (hd : d ∈ dvList K.toNat) (hδ : δ d ≠ 0) :
    0 < (L.map fun t => t.invR * t.change v δ ^ 2).sum := by
  obtain ⟨-, hp, hm⟩ := mem_terms hL
  have hR := terms_invR hL
  have hnn : ∀ x ∈ L.map fun t => t.invR * t.change v δ ^ 2, 0 ≤ x := by
    intro x hx
    obtain ⟨t, ht, rfl⟩ := List.mem_map.1 hx
    exact mul_nonneg (hR t ht).le (sq_nonneg _)
  refine lt_of_le_of_ne (List.sum_nonneg hnn) fun h0 => hδ ?_
  have hall : ∀ t ∈ L, t.change v δ = 0 := by
    intro t ht
    have := (List.all_zero_of_le_zero_le_of_sum_eq_zero hnn h0.symm) (List.mem_map.2 ⟨t, ht, rfl⟩)
    exact pow_eq_zero_iff (two_ne_zero) |>.1 ((mul_eq_zero.1 this).resolve_left (hR t ht).ne')
  have hx : ∀ j, j < K.toNat → δ (pos j) = 0 := by
    intro j
    induction j with
    | zero =>
      intro _
      simpa [Term.change, Term.jacobians, one] using hall _ hp
    | succ j ih =>
      intro hj
      have h1 := hall _ (hm j hj).1
      simp only [Term.change, Term.jacobians, one, List.map_cons, List.map_nil, List.sum_cons, List.sum_nil] at h1
      have := ih (by omega)
      linarith
  rcases List.mem_cons.1 hd with rfl | hd
  · have h1 := hall _ (hm k hk).2
    have h2 := hx (k + 1) hk
    simp only [Term.change, Term.jacobians, one, List.map_cons, List.map_nil, List.sum_cons, List.sum_nil, h2, mul_zero, zero_add,
      add_zero] at h1
    have hne : -1 / (v wall - v (pos (k + 1))) ≠ 0 := div_ne_zero (by norm_num) (sub_ne_zero.2 hw)
    exact (mul_eq_zero.1 h1).resolve_left (mul_ne_zero hne hne)
  · obtain ⟨j, hj, rfl⟩ := List.mem_map.1 hd
    exact hx j (List.mem_range.1 hj)

example (u y : Nat → ℝ) : ∃ L, terms 3 u y = .ok L ∧ L.length = 5 ∧ dvList 3 = [wall, pos 0, pos 1, pos 2] := ⟨_, rfl, rfl, rfl⟩

/-- With one step the wall is not observed at all: the Gauss-Newton matrix is singular whatever the values.  `K = 0` is undefined
behaviour and a negative `K` an exception. -/
theorem C93_small_counterexample (u y v : Nat → ℝ) :
    (∃ L, terms 1 u y = .ok L ∧ wall ∈ dvList 1 ∧
      (L.map fun t => t.invR * t.change v (fun d => if d = wall then 1 else 0) ^ 2).sum = 0) ∧
    terms 0 u y = .ub ∧ ∀ K : Int, K < 0 → terms K u y = .exc := by
  refine ⟨⟨_, rfl, List.mem_cons_self .., ?_⟩, rfl, fun K hK => if_pos hK⟩
  simp [Term.change, Term.jacobians, one, pos, wall]

/-- Noise-free data: with odometry that does not go back, measurements of the true positions and at least two steps, the residuals
are all zero exactly at the truth, among all values with the robot away from the wall. -/
theorem C93_truth (K : Int) (hK : 2 ≤ K) (u y v : Nat → ℝ) (hu : ∀ k, 0 ≤ u k) (hy : ∀ k, y k = 1 / (trueW - positions u k))
    (L : List Term) (hL : terms K u y = .ok L) (hv : ∀ t ∈ L, t.Away v) :
    (∀ t ∈ L, t.residual v = 0) ↔ v wall = trueW ∧ ∀ k, k < K.toNat → v (pos k) = positions u k := by
  have hpos : ∀ k, 0 ≤ positions u k := by
    intro k
    induction k with
    | zero => exact le_refl _
    | succ k ih => exact add_nonneg ih (hu _)
  have htrue : ∀ k, trueW - positions u k ≠ 0 := by
    intro k
    have := hpos k
    simp only [trueW]
    intro h
    linarith
  obtain ⟨-, hp, hm⟩ := mem_terms hL
  constructor
  · intro h
    have hx : ∀ j, j < K.toNat → v (pos j) = positions u j := by
      intro j
      induction j with
      | zero =>
        intro _
        have := h _ hp
        simp only [Term.residual, sub_zero] at this
        exact this
      | succ j ih =>
        intro hj
        have h1 := h _ (hm j hj).1
        simp only [Term.residual] at h1
        have := ih (by omega)
        simp only [positions]
        linarith
    refine ⟨?_, hx⟩
    have hk : 0 + 1 < K.toNat := by omega
    have h1 := h _ (hm 0 hk).2
    have h2 : v wall ≠ v (pos 1) := hv _ (hm 0 hk).2
    simp only [Term.residual, hy, Nat.zero_add] at h1
    rw [hx 1 hk] at h1 h2
    have h3 : v wall - positions u 1 ≠ 0 := sub_ne_zero.2 h2
    have h4 : 1 / (trueW - positions u 1) = 1 / (v wall - positions u 1) := by linarith
    rw [one_div, one_div, inv_inj] at h4
    linarith
  · rintro ⟨hw, hx⟩ t ht
    unfold terms at hL
    rw [if_neg (by omega), if_neg (by omega)] at hL
    cases hL
    rcases List.mem_cons.1 ht with rfl | ht
    · simp only [Term.residual, hx 0 (by omega), positions, sub_zero]
    · obtain ⟨k, hk, hkt⟩ := List.mem_flatMap.1 ht
      have hk' := List.mem_range.1 hk
      simp only [stepTerms, Nat.add_sub_cancel, List.mem_cons, List.not_mem_nil, or_false] at hkt
      rcases hkt with rfl | rfl
      · simp only [Term.residual, hx k (by omega), hx (k + 1) (by omega), positions]
        ring
      · simp only [Term.residual, hx (k + 1) (by omega), hw, hy, sub_self]

example : ∃ L, terms 2 (fun _ => 1) (fun k => 1 / (trueW - positions (fun _ => 1) k)) = .ok L ∧
    (∀ k : Nat, (0 : ℝ) ≤ (fun _ => 1) k) ∧ ∀ t ∈ L, t.Away fun d => if d = wall then -4 else d := by
  refine ⟨_, rfl, fun _ => zero_le_one, ?_⟩
  simp [stepTerms, Term.Away, wall, pos]
  norm_num

end Verif.Tutorial
