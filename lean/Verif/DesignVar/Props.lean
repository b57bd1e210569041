import Verif.DesignVar.Lemmas

/-! C63: the contract of the design variables. -/
namespace Verif.DesignVar
open Verif.Quat (Q4 axisAngle2quat dot4 quatPlus Mode Geometry)
open Matrix

variable {debug : Bool}

/-- A freshly constructed object that shows the value of its parameters. -/
def Fresh {k : Cls} (s : St k) : Prop := s.shown = k.eval s.val ∧ (k.inits = true → s.prev = some s.val)

/-- The call is made to the object itself (not a write to memory it maps). -/
def Op.Own {k : Cls} : Op k → Prop
  | .write _ => False
  | _ => True

theorem step_shown {k : Cls} {s s' : St k} {o : Op k} (ho : o.Own) (h : step debug s o = .ok s') : s'.shown = k.eval s'.val := by
  cases o with
  | update dp => rw [(update_ok h).2]
  | revert =>
    simp only [step, revert] at h
    split at h
    · cases h
    · cases h
      rfl
  | set p =>
    obtain ⟨M, _, rfl⟩ := set_ok h
    rfl
  | write x => exact ho.elim
  | remap x =>
    simp only [step] at h
    split at h
    · cases h
      rfl
    · cases h

/-- The value shown by the expression of a design variable is the value of its parameters, after every history of calls. -/
theorem C63_shown {k : Cls} (s₀ s : St k) (ops : List (Op k)) (h0 : Fresh s₀) (hown : ∀ o ∈ ops, o.Own)
    (h : Res.run (step debug) s₀ ops = .ok s) : s.shown = k.eval s.val := by
  suffices H : ∀ (ops : List (Op k)) (s₀ : St k), s₀.shown = k.eval s₀.val → (∀ o ∈ ops, o.Own) →
      Res.run (step debug) s₀ ops = .ok s → s.shown = k.eval s.val from H ops s₀ h0.1 hown h
  intro ops
  induction ops with
  | nil =>
    intro s₀ h1 _ h
    simp only [Res.run_nil] at h
    cases h
    exact h1
  | cons o os ih =>
    intro s₀ h1 hown h
    rw [Res.run_cons] at h
    cases hs : step debug s₀ o with
    | ok s1 =>
      rw [hs, Res.bind_ok] at h
      exact ih s1 (step_shown (hown o (by simp)) hs) (fun o' ho' => hown o' (by simp [ho'])) h
    | exc => rw [hs] at h; cases h
    | ub => rw [hs] at h; cases h

/-- `revertUpdate` after `update`: whatever happened before, the parameters and the value shown are those from before the
update, and reverting again changes nothing.  Every class, every history, every step that is accepted. -/
theorem C63_undo_update (sm : Sm) (c : Class) (s₀ s s₁ : St (c.cls sm)) (ops : List (Op (c.cls sm))) (dp : List ℝ)
    (h0 : Fresh s₀) (hown : ∀ o ∈ ops, o.Own) (h : Res.run (step debug) s₀ ops = .ok s) (hu : update debug s dp = .ok s₁) :
    ∃ s₂, revert s₁ = .ok s₂ ∧ get s₂ = get s ∧ s₂.shown = s.shown ∧ revert s₂ = .ok s₂ := by
  obtain ⟨_, rfl⟩ := update_ok hu
  exact ⟨⟨s.val, some s.val, (c.cls sm).eval s.val⟩, rfl, rfl, (C63_shown s₀ s ops h0 hown h).symm, rfl⟩

/-- A step of the right size is accepted by every class in every state. -/
theorem C63_update_accepted (sm : Sm) (c : Class) (s : St (c.cls sm)) (dp : List ℝ) (h : dp.length = (c.cls sm).d) :
    ∃ s', update debug s dp = .ok s' := ⟨_, update_fits s dp h⟩

/-- The class saves the value replaced by `setParameters`. -/
def Class.Saving : Class → Prop
  | .genericVector _ => False
  | .unitQuaternion _ _ => False
  | _ => True

/-- `revertUpdate` after `setParameters`.  Partial: the generic vector and the unit quaternion are excluded (see the
counterexample). -/
theorem C63_undo_set_partial (sm : Sm) (c : Class) (hc : c.Saving) (s₀ s s₁ : St (c.cls sm)) (ops : List (Op (c.cls sm))) (p : Param)
    (h0 : Fresh s₀) (hown : ∀ o ∈ ops, o.Own) (h : Res.run (step debug) s₀ ops = .ok s) (hs : set s p = .ok s₁) :
    ∃ s₂, revert s₁ = .ok s₂ ∧ get s₂ = get s ∧ s₂.shown = s.shown := by
  obtain ⟨M, _, rfl⟩ := set_ok hs
  have hsv : (c.cls sm).saves = true := by
    cases c <;> first | exact hc.elim | rfl
  have : revert (k := c.cls sm) ⟨M, if (c.cls sm).saves then some s.val else s.prev, (c.cls sm).eval M⟩ =
      .ok ⟨s.val, some s.val, (c.cls sm).eval s.val⟩ := by
    rw [hsv]
    rfl
  exact ⟨_, this, rfl, (C63_shown s₀ s ops h0 hown h).symm⟩

/-- A history of a rotation: constructed, updated, set, then updated and reverted. -/
example : ∃ s s₁ : St (Class.rotationQuaternion.cls smQuat),
    Fresh (make (Class.rotationQuaternion.cls smQuat) (unvec ![0, 0, 0, 1])) ∧
    Res.run (step true) (make (Class.rotationQuaternion.cls smQuat) (unvec ![0, 0, 0, 1]))
      [.update [1, 2, 3], .set ⟨4, 1, unvec ![1, 0, 0, 0]⟩, .revert] = .ok s ∧
    update true s [1, 0, 0] = .ok s₁ ∧ Class.rotationQuaternion.Saving :=
  ⟨_, _, ⟨rfl, fun _ => rfl⟩,
    run_ok (update_fits _ _ rfl) (run_ok (set_fits (k := Class.rotationQuaternion.cls smQuat) _ _ nofun) (run_ok rfl rfl)),
    update_fits _ _ rfl, trivial⟩

/-- `getParameters` returns what `setParameters` was given (every class but the two scalars). -/
theorem C63_get_set (sm : Sm) (c : Class) (hc : c ≠ .scalar ∧ c ≠ .genericScalar) (s s' : St (c.cls sm)) (p : Param)
    (h : set s p = .ok s') : get s' = p ∧ s'.shown = (c.cls sm).eval s'.val := by
  obtain ⟨M, hM, rfl⟩ := set_ok h
  have : (c.cls sm).setCheck ≠ .front := by
    cases c <;> first | exact absurd rfl hc.1 | exact absurd rfl hc.2 | exact fun h => nomatch h
  exact ⟨(readParam_ok this hM).symm, rfl⟩

theorem one_entry (p : Param) (hp : 0 < p.rows ∧ 0 < p.cols) (h1 : p.rows = 1 ∧ p.cols = 1) :
    (⟨1, 1, fun _ _ => p.M ⟨0, hp.1⟩ ⟨0, hp.2⟩⟩ : Param) = p := by
  obtain ⟨r, c, M⟩ := p
  obtain ⟨rfl, rfl⟩ := h1
  congr 1
  funext i j
  rw [Subsingleton.elim i 0, Subsingleton.elim j 0]
  rfl

/-- The two scalars keep the first entry of what `setParameters` was given; a single number comes back unchanged. -/
theorem C63_get_set_scalar (sm : Sm) (c : Class) (hc : c = .scalar ∨ c = .genericScalar) (s s' : St (c.cls sm)) (p : Param)
    (h : set s p = .ok s') : ∃ h : 0 < p.rows ∧ 0 < p.cols, get s' = ⟨1, 1, fun _ _ => p.M ⟨0, h.1⟩ ⟨0, h.2⟩⟩ ∧
      (p.rows = 1 ∧ p.cols = 1 → get s' = p) := by
  obtain ⟨M, hM, rfl⟩ := set_ok h
  rcases hc with rfl | rfl
  · obtain ⟨hp, rfl⟩ := readParam_front rfl hM
    exact ⟨hp, rfl, fun h1 => one_entry p hp h1⟩
  · obtain ⟨hp, rfl⟩ := readParam_front rfl hM
    exact ⟨hp, rfl, fun h1 => one_entry p hp h1⟩

example : set (make (Class.scalar.cls smQuat) fun _ _ => 3) ⟨1, 1, fun _ _ => 5⟩ =
    .ok ⟨fun _ _ => 5, some fun _ _ => 3, fun _ => 5⟩ := rfl

/-- Every class accepts parameters of the size it reports. -/
theorem C63_set_accepted (sm : Sm) (c : Class) (s t : St (c.cls sm)) : ∃ s', set s (get t) = .ok s' ∧ get s' = get t := by
  by_cases hf : (c.cls sm).setCheck = .front
  · have hc : c = .scalar ∨ c = .genericScalar := by
      cases c <;> first | exact Or.inl rfl | exact Or.inr rfl | exact nomatch hf
    rcases hc with rfl | rfl
    · exact ⟨_, rfl, (one_entry (get t) ⟨Nat.one_pos, Nat.one_pos⟩ ⟨rfl, rfl⟩)⟩
    · exact ⟨_, rfl, (one_entry (get t) ⟨Nat.one_pos, Nat.one_pos⟩ ⟨rfl, rfl⟩)⟩
  · exact ⟨_, set_fits s t.val hf, rfl⟩

theorem additive_zero {n : Nat} {uc : UpdCheck} {sc : SetCheck} {mp : Bool} (s : St (additive n uc sc mp .current)) (x : Param) :
    difference s x = .ok (fun _ => 0) ↔ x = get s := by
  constructor
  · intro h
    obtain ⟨M, rfl, hy⟩ := difference_inv s rfl h
    suffices H : ∀ A B : Mat n 1, (fun _ => 0) = vec A - vec B → B = A from congrArg (Param.mk n 1) (H s.val M hy)
    intro A B hAB
    have h2 : vec A = vec B := sub_eq_zero.mp hAB.symm
    rw [← unvec_vec B, ← h2, unvec_vec]
  · rintro rfl
    refine (difference_current s rfl s.val).trans (congrArg Res.ok ?_)
    exact sub_self (vec (n := n) s.val)

theorem additive_update {n : Nat} {uc : UpdCheck} {sc : SetCheck} {mp : Bool} (s : St (additive n uc sc mp .current)) (δ : Fin n → ℝ) :
    ∃ s', update debug s (List.ofFn δ) = .ok s' ∧ difference s' (get s) = .ok δ := by
  refine ⟨_, update_fits s _ (List.length_ofFn (f := δ)), (difference_current _ rfl s.val).trans (congrArg Res.ok ?_)⟩
  have H : ∀ A : Mat n 1, vec (unvec (vec A + fun i : Fin n => (List.ofFn δ).getD i.val 0)) - vec A = δ := by
    intro A
    rw [getD_ofFn, vec_unvec, add_sub_cancel_left]
  exact H s.val

theorem quaternion_difference {sm : Sm} (hsm : sm.Lawful) {S : Type} {ev : Q4 ℝ → S} {uc : UpdCheck} {mp ca : Bool}
    (s : St (quaternion sm S ev uc mp ca .current)) (q : Q4 ℝ) (hq : dot4 q q = 1) (hs : get s = ⟨4, 1, unvec q⟩) :
    difference s (get s) = .ok (fun _ => 0) ∧
    ∀ dp : List ℝ, ∀ a b d : ℝ, dp = [a, b, d] → a * a + b * b + d * d < Real.pi ^ 2 →
      ∃ s', update debug s dp = .ok s' ∧ (∃ x, difference s' (get s) = .ok x ∧ List.ofFn x = dp) ∧
        ∃ q', get s' = ⟨4, 1, unvec q'⟩ ∧ dot4 q' q' = 1 := by
  have hv : s.val = unvec q := param_inj (r := 4) (c := 1) hs
  refine ⟨?_, ?_⟩
  · refine (difference_current s rfl s.val).trans (congrArg Res.ok ?_)
    have H : sm.qlog (sm.qplus q (sm.quatInv q)) = fun _ => 0 := by
      rw [hsm.inv q hq]
      have h0 : axisAngle2quat (fun _ => 0) = ![0, 0, 0, 1] := by
        funext i
        fin_cases i <;> simp [axisAngle2quat]
      rw [← h0]
      exact hsm.log (fun _ => 0) (by simpa using pow_pos Real.pi_pos 2)
    rw [hv]
    exact H
  · rintro _ a b d rfl hπ
    have hδ : (fun i : Fin 3 => ([a, b, d] : List ℝ).getD i.val 0) = ![a, b, d] := by
      funext i
      fin_cases i <;> rfl
    refine ⟨_, update_fits s _ rfl, ⟨_, difference_current _ rfl s.val, ?_⟩, ?_⟩
    · have H : List.ofFn (sm.qlog (sm.qplus (sm.updateQuat q fun i : Fin 3 => ([a, b, d] : List ℝ).getD i.val 0) (sm.quatInv q))) = [a, b, d] := by
        rw [hδ, hsm.undo q _ hq, hsm.log _ (by simpa using hπ)]
        simp [List.ofFn_succ]
      rw [hv]
      exact H
    · refine ⟨sm.updateQuat q fun i : Fin 3 => ([a, b, d] : List ℝ).getD i.val 0, ?_, hsm.unit q _ hq⟩
      have H : ∀ A : Mat 4 1, A = unvec q → (⟨4, 1, unvec (sm.updateQuat (vec A) fun i : Fin 3 => ([a, b, d] : List ℝ).getD i.val 0)⟩ : Param) =
          ⟨4, 1, unvec (sm.updateQuat q fun i : Fin 3 => ([a, b, d] : List ℝ).getD i.val 0)⟩ := by
        rintro _ rfl
        rfl
      exact H s.val hv

/-- The design variables whose step is added to the value and whose difference reads the current value. -/
def Class.Vector : Class → Prop
  | .euclideanPoint => True
  | .vector _ => True
  | .scalar => True
  | .genericScalar => True
  | _ => False

/-- The difference of vectors and scalars is zero exactly at the current value.  Partial: see the counterexample for the mapped
variables; rotations below; directions, matrices and generic vectors have none. -/
theorem C63_difference_zero_partial (sm : Sm) (c : Class) (hc : c.Vector) (s : St (c.cls sm)) (x : Param) :
    difference s x = .ok (fun _ => 0) ↔ x = get s := by
  cases c with
  | euclideanPoint => exact additive_zero s x
  | vector n => exact additive_zero s x
  | scalar => exact additive_zero s x
  | genericScalar => exact additive_zero s x
  | _ => exact hc.elim

/-- The difference of vectors and scalars inverts the update: after a step `δ`, in any state, the difference to the value before
is `δ`. -/
theorem C63_difference_update_partial (sm : Sm) (c : Class) (hc : c.Vector) (s : St (c.cls sm)) (δ : Fin (c.cls sm).d → ℝ) :
    ∃ s', update debug s (List.ofFn δ) = .ok s' ∧ difference s' (get s) = .ok δ := by
  cases c with
  | euclideanPoint => exact additive_update s δ
  | vector n => exact additive_update s δ
  | scalar => exact additive_update s δ
  | genericScalar => exact additive_update s δ
  | _ => exact hc.elim

example : (Class.vector 7).Vector ∧ Class.euclideanPoint.Vector := ⟨trivial, trivial⟩

/-- The difference of rotations and homogeneous points that are not mapped inverts every update by less than half a turn, from
every unit quaternion; it is zero at the current value.  The laws of the external quaternion functions are assumed (they hold
for `smQuat`). -/
theorem C63_difference_rotation_partial (sm : Sm) (hsm : sm.Lawful) (c : Class) (hc : c = .rotationQuaternion ∨ c = .homogeneousPoint)
    (s : St (c.cls sm)) (q : Q4 ℝ) (hq : dot4 q q = 1) (hs : get s = ⟨4, 1, unvec q⟩) :
    difference s (get s) = .ok (fun _ => 0) ∧
    ∀ dp : List ℝ, ∀ a b d : ℝ, dp = [a, b, d] → a * a + b * b + d * d < Real.pi ^ 2 →
      ∃ s', update debug s dp = .ok s' ∧ (∃ x, difference s' (get s) = .ok x ∧ List.ofFn x = dp) ∧
        ∃ q', get s' = ⟨4, 1, unvec q'⟩ ∧ dot4 q' q' = 1 := by
  rcases hc with rfl | rfl
  · exact quaternion_difference hsm s q hq hs
  · exact quaternion_difference hsm s q hq hs

example : smQuat.Lawful ∧ ∃ s : St (Class.rotationQuaternion.cls smQuat), get s = ⟨4, 1, unvec ![0, 0, 0, 1]⟩ ∧
    dot4 (![0, 0, 0, 1] : Q4 ℝ) ![0, 0, 0, 1] = 1 ∧ (1 : ℝ) * 1 + 0 * 0 + 0 * 0 < Real.pi ^ 2 :=
  ⟨smQuat_lawful, make _ (unvec ![0, 0, 0, 1]), rfl, by simp [dot4], by nlinarith [Real.two_le_pi]⟩

/-- The constructor of homogeneous points normalises, so the hypothesis above holds at the start. -/
theorem C63_homogeneous_unit (sm : Sm) (p : Q4 ℝ) (hp : p ≠ 0) :
    ∃ q, get (homogeneousPoint sm p) = ⟨4, 1, unvec q⟩ ∧ dot4 q q = 1 := by
  refine ⟨(1 / Real.sqrt (dot4 p p)) • p, rfl, ?_⟩
  have hpos : 0 < dot4 p p := by
    have h : ∃ i, p i ≠ 0 := by
      by_contra hcon
      push Not at hcon
      exact hp (funext hcon)
    obtain ⟨i, hi⟩ := h
    have := mul_self_pos.mpr hi
    have h0 := mul_self_nonneg (p 0)
    have h1 := mul_self_nonneg (p 1)
    have h2 := mul_self_nonneg (p 2)
    have h3 := mul_self_nonneg (p 3)
    simp only [dot4]
    fin_cases i <;> simp only [Fin.zero_eta, Fin.mk_one, Fin.reduceFinMk] at this <;> linarith
  have hs := Real.mul_self_sqrt hpos.le
  have hs0 : Real.sqrt (dot4 p p) ≠ 0 := (Real.sqrt_pos.mpr hpos).ne'
  have : dot4 ((1 / Real.sqrt (dot4 p p)) • p) ((1 / Real.sqrt (dot4 p p)) • p) =
      dot4 p p / (Real.sqrt (dot4 p p) * Real.sqrt (dot4 p p)) := by
    simp only [dot4, Pi.smul_apply, smul_eq_mul]
    field_simp
  rw [this, hs, div_self hpos.ne']

example : (![0, 0, 3, 4] : Q4 ℝ) ≠ 0 := fun h => by simpa using congrFun h 2

/-- The mapped variables measure the difference from the value before the last change: after any step from any state the
difference to the old value is that of the old value to itself, so zero for vectors and points whatever the step. -/
theorem C63_mapped_difference_counterexample (sm : Sm) (n : Nat) (s : St ((Class.mappedVector n).cls sm)) (δ : Fin n → ℝ) :
    ∃ s', update debug s (List.ofFn δ) = .ok s' ∧ difference s' (get s) = .ok (fun _ => 0) ∧
      (δ ≠ 0 → get s' ≠ get s) := by
  refine ⟨_, update_fits s _ (List.length_ofFn (f := δ)), (difference_previous _ rfl s.val s.val rfl).trans (congrArg Res.ok ?_), ?_⟩
  · exact sub_self (vec (n := n) s.val)
  · intro hδ hg
    have H : ∀ A : Mat n 1, unvec (vec A + fun i : Fin n => (List.ofFn δ).getD i.val 0) = A → δ = 0 := by
      intro A h1
      rw [getD_ofFn] at h1
      funext i
      have := congrFun (congrFun h1 i) 0
      simp only [unvec, vec, Pi.add_apply] at this
      simpa using this
    exact hδ (H s.val (param_inj hg))

/-- Generic vectors: reverting after `setParameters` does not restore the value replaced but an older one. -/
theorem C63_generic_set_counterexample (sm : Sm) : ∃ s₁ s₂ s₃ : St ((Class.genericVector 1).cls sm),
    Res.run (step debug) (make ((Class.genericVector 1).cls sm) (unvec ![1])) [.update [1]] = .ok s₁ ∧
    set s₁ ⟨1, 1, unvec ![7]⟩ = .ok s₂ ∧ revert s₂ = .ok s₃ ∧
      get s₁ = ⟨1, 1, fun _ _ => 2⟩ ∧ get s₃ = ⟨1, 1, fun _ _ => 1⟩ :=
  ⟨_, _, _, run_ok (update_fits _ _ rfl) rfl, set_fits (k := (Class.genericVector 1).cls sm) _ _ nofun, rfl,
    congrArg (Param.mk 1 1) (by
      have H : ∀ i : Fin 1, ![(1 : ℝ)] i + [(1 : ℝ)].getD i.val 0 = 2 := fun i => by rw [Subsingleton.elim i 0]; norm_num
      exact funext fun i => funext fun _ => H i),
    congrArg (Param.mk 1 1) (by
      have H : ∀ i : Fin 1, ![(1 : ℝ)] i = 1 := fun i => by rw [Subsingleton.elim i 0]; rfl
      exact funext fun i => funext fun _ => H i)⟩

/-- Generic vectors and unit quaternions: reverting before the first update reads memory that was never written, also after
`setParameters`. -/
theorem C63_generic_revert_counterexample (sm : Sm) (n : Nat) (x p : Mat n 1) (m : Mode) (g : Geometry) (q : Mat 4 1) :
    Res.run (step debug) (make ((Class.genericVector n).cls sm) x) [.set ⟨n, 1, p⟩, .revert] = .ub ∧
    revert (make ((Class.unitQuaternion m g).cls sm) q) = .ub := by
  refine ⟨?_, rfl⟩
  rw [Res.run_cons, show step debug _ (.set ⟨n, 1, p⟩) = _ from set_fits (k := (Class.genericVector n).cls sm) _ p nofun, Res.bind_ok]
  rfl

theorem quat2r_11 (a b c d : ℝ) : smQuat.quat2r ![a, b, c, d] 1 1 = b * b + d * d - a * a - c * c := by
  have e0 : (![a, b, c, d] : Q4 ℝ) 0 = a := rfl
  have e1 : (![a, b, c, d] : Q4 ℝ) 1 = b := rfl
  have e2 : (![a, b, c, d] : Q4 ℝ) 2 = c := rfl
  have e3 : (![a, b, c, d] : Q4 ℝ) 3 = d := rfl
  generalize (![a, b, c, d] : Q4 ℝ) = q at e0 e1 e2 e3
  subst e0 e1 e2 e3
  have h : smQuat.quat2r q 1 1 = Verif.Quat.rotate ⟨false, true⟩ q ![0, 1, 0] 1 := by
    have : (Pi.single 1 1 : Fin 3 → ℝ) = ![0, 1, 0] := by
      funext i
      fin_cases i <;> simp
    change Verif.Quat.rotate ⟨false, true⟩ q (Pi.single 1 1) 1 = _
    rw [this]
  rw [h]
  simp [Verif.Quat.rotate, Verif.Quat.imag, Verif.Quat.mult, Verif.Quat.multPR, Verif.Quat.multTradPR, Verif.Quat.multTrad,
    Verif.Quat.conjugate, Verif.Quat.mk, Mode.ii, Mode.ji, Mode.ki, Mode.ri]
  ring

/-- Mapped rotations: after a write to the mapped memory the expression still shows the old rotation although
`getParameters` returns the new quaternion. -/
theorem C63_mapped_rotation_counterexample : ∃ s : St (Class.mappedRotationQuaternion.cls smQuat),
    Res.run (step debug) (make (Class.mappedRotationQuaternion.cls smQuat) (unvec ![0, 0, 0, 1])) [.write (unvec ![1, 0, 0, 0])] = .ok s ∧
      get s = ⟨4, 1, unvec ![1, 0, 0, 0]⟩ ∧ s.shown ≠ smQuat.quat2r ![1, 0, 0, 0] := by
  refine ⟨_, run_ok rfl rfl, rfl, fun h => ?_⟩
  have h2 : smQuat.quat2r ![0, 0, 0, 1] 1 1 = smQuat.quat2r ![1, 0, 0, 0] 1 1 := congrFun (congrFun h 1) 1
  rw [quat2r_11, quat2r_11] at h2
  norm_num at h2

/-- A rotation constructed from a matrix that is not exactly the rotation of the quaternion computed from it (rounding): an
update followed by a revert shows another matrix than before. -/
theorem C63_rotation_matrix_counterexample (sm : Sm) (q : Q4 ℝ) (C : Mat 3 3) (h : sm.quat2r q ≠ C) (dp : List ℝ) (hd : dp.length = 3) :
    ∃ s₁ s₂, update debug (rotationFromMatrix sm q C) dp = .ok s₁ ∧ revert s₁ = .ok s₂ ∧
      get s₂ = get (rotationFromMatrix sm q C) ∧ s₂.shown ≠ (rotationFromMatrix sm q C).shown :=
  ⟨_, _, update_fits _ _ hd, rfl, rfl, h⟩

/-- **C63** (revert before any update). A rotation constructed from a matrix has a value to go back to from the start: `revertUpdate()` before the first update returns normally, keeps the parameters and shows the rotation of the quaternion. -/
theorem C63_rotation_matrix_revert (sm : Sm) (q : Q4 ℝ) (C : Mat 3 3) :
    ∃ s, revert (rotationFromMatrix sm q C) = .ok s ∧ get s = ⟨4, 1, unvec q⟩ ∧ s.shown = sm.quat2r (vec (unvec q)) :=
  ⟨_, rfl, rfl, rfl⟩

example : smQuat.quat2r ![0, 0, 0, 1] ≠ 0 := fun h => by
  have h2 := congrFun (congrFun h 1) 1
  rw [quat2r_11] at h2
  norm_num at h2

/-- The adapter restores the wrapped object's parameters when a change is reverted, in any state, provided the wrapped class
returns the parameters it was given whenever they are its own. -/
theorem C63_adapter_partial (u : User) (hu : ∀ x y : u.T, ∃ z, u.set x (u.get y) = some z ∧ u.get z = u.get y)
    (s s₁ : ASt u) (o : AOp) (ho : o ≠ .revert) (h : s.step o = .ok s₁) :
    ∃ s₂, s₁.step .revert = .ok s₂ ∧ u.get s₂.dv = u.get s.dv := by
  have hb : s₁.backup = u.get s.dv := by
    cases o with
    | update dp => cases h; rfl
    | revert => exact absurd rfl ho
    | set p =>
      simp only [ASt.step] at h
      split at h
      · cases h
      · cases h
        rfl
  obtain ⟨z, hz, hg⟩ := hu s₁.dv s.dv
  refine ⟨⟨z, s₁.backup⟩, ?_, hg⟩
  simp only [ASt.step, hb, hz]

/-- A wrapped class for the two statements about the adapter: a number. -/
noncomputable def number : User where
  T := ℝ
  get x := ⟨1, 1, fun _ _ => x⟩
  set _ p := (p.to 1 1).map fun M => M 0 0
  upd x dp := x + dp.sum

example : (∀ x y : number.T, ∃ z, number.set x (number.get y) = some z ∧ number.get z = number.get y) ∧
    (ASt.make (u := number) (3 : ℝ)).step (.update [1, 2]) = .ok ⟨(3 : ℝ) + ([1, 2] : List ℝ).sum, number.get (3 : ℝ)⟩ :=
  ⟨fun x y => ⟨y, congrArg (Option.map fun M : Mat 1 1 => M 0 0) (Param.to_mk (r := 1) (c := 1) fun _ _ => y), rfl⟩, rfl⟩

/-- The adapter's difference leaves the output untouched, so it reports whatever was there; and reverting before the first
change hands an empty matrix to the wrapped class. -/
theorem C63_adapter_counterexample :
    (∀ out, (ASt.make (u := number) (3 : ℝ)).difference (number.get (5 : ℝ)) out = .ok out) ∧
      (ASt.make (u := number) (3 : ℝ)).step .revert = .ub := by
  refine ⟨fun _ => rfl, ?_⟩
  simp [ASt.step, ASt.make, number, Param.to]

end Verif.DesignVar
