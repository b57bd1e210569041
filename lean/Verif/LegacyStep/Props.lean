import Verif.LegacyStep.Model
import Verif.Hessian.Props
import Verif.Schur.Props
import Verif.LegacyInit.Props
import Mathlib.Data.List.GetD

/-!
C119: an iteration of the legacy optimizer moves every active variable by its scaling times its part of a solution of the damped normal equations of the whole problem, marginalised or not.
-/
namespace Verif.LegacyStep
open Verif.MatrixStack (DMat)
open Verif.Jacobian (Env)
open Verif.Jacobian.Spec (Event total)
open Verif.SBM Verif.Hessian Verif.Schur

variable {R : Type} [CommRing R]

/-- Coefficient `(a, b)` of the block of variables `d`, `d'` in the damped normal equations `∑ Jᵀ W J + λ`. -/
def lhs (env : Env R) (ts : List (Term R × List (Event R))) (lm : Bool) (lambda : R) (d d' a b : Nat) : R :=
  (ts.map fun p => JtWJ env p.1 p.2 d d' a b).sum + if lm = true ∧ d = d' ∧ a = b then lambda else 0

/-- No error term depends on two different marginalised variables: for any two of them one of the Jacobians is zero. -/
def Uncoupled (ts : List (Term R × List (Event R))) (marg : List Nat) : Prop :=
  ∀ p ∈ ts, ∀ d ∈ marg, ∀ d' ∈ marg, d ≠ d' → (∀ v a, total p.2 d v a = 0) ∨ ∀ v a, total p.2 d' v a = 0

/-- `inv` inverts the blocks of the marginalised variables in the damped normal equations. -/
def Inverts (env : Env R) (ts : List (Term R × List (Event R))) (lm : Bool) (lambda : R) (inv : DMat R → DMat R) (marg : List Nat) : Prop :=
  ∀ d ∈ marg, ∀ V : DMat R, V.rows = env.dim d → (∀ a b, a < env.dim d → b < env.dim d → V.e a b = lhs env ts lm lambda d d a b) → IsInverse V (inv V)

theorem weight_symm (t : Term R) (v v' : Nat) : weight t v v' = weight t v' v := by
  unfold weight
  congr 1
  exact Finset.sum_congr rfl fun u _ => mul_comm _ _

theorem JtWJ_symm (env : Env R) (t : Term R) (ev : List (Event R)) (d d' a b : Nat) : JtWJ env t ev d d' a b = JtWJ env t ev d' d b a := by
  unfold JtWJ
  rw [Finset.sum_comm]
  refine Finset.sum_congr rfl fun v _ => Finset.sum_congr rfl fun v' _ => ?_
  rw [weight_symm t v' v]
  ring

theorem sum_JtWJ_symm (env : Env R) (ts : List (Term R × List (Event R))) (d d' a b : Nat) :
    (ts.map fun p => JtWJ env p.1 p.2 d d' a b).sum = (ts.map fun p => JtWJ env p.1 p.2 d' d b a).sum := by
  congr 1
  exact List.map_congr_left fun p _ => JtWJ_symm env p.1 p.2 d d' a b

theorem uncoupled_zero (env : Env R) {ts : List (Term R × List (Event R))} {marg : List Nat} (h : Uncoupled ts marg) {d d' : Nat} (hd : d ∈ marg) (hd' : d' ∈ marg) (hne : d ≠ d') (a b : Nat) :
    (ts.map fun p => JtWJ env p.1 p.2 d d' a b).sum = 0 := by
  apply List.sum_eq_zero
  intro x hx
  obtain ⟨p, hp, rfl⟩ := List.mem_map.1 hx
  unfold JtWJ
  refine Finset.sum_eq_zero fun v _ => Finset.sum_eq_zero fun v' _ => ?_
  rcases h p hp d hd d' hd' hne with h0 | h0
  · simp [scaledJ, h0]
  · simp [scaledJ, h0]

theorem denseUpdates_spec (env : Env R) (dx : Nat → R) (ds : List Nat) : ∀ (start : Nat) (i : Nat), i < ds.length →
    (denseUpdates env dx ds start)[i]? = some (ds.getD i 0, fun a => dx (start + ∑ k ∈ Finset.range i, env.dim (ds.getD k 0) + a) * env.scaling (ds.getD i 0)) := by
  induction ds with
  | nil => intro _ i h; simp at h
  | cons d ds ih =>
    intro start i hi
    cases i with
    | zero => simp [denseUpdates]
    | succ i =>
      rw [denseUpdates, List.getElem?_cons_succ, ih _ i (by simpa using hi), Finset.sum_range_succ']
      simp only [List.getD_cons_succ, List.getD_cons_zero]
      congr 2
      funext a
      congr 2
      omega

theorem denseUpdates_length (env : Env R) (dx : Nat → R) (ds : List Nat) : ∀ start, (denseUpdates env dx ds start).length = ds.length := by
  induction ds with
  | nil => intro; rfl
  | cons d ds ih => intro start; simp [denseUpdates, ih]

theorem sparseUpdates_spec (env : Env R) (dvs : List Nat) (m : Nat) (H : SBM R) (rhs dx : Nat → R) (Ws : List (DMat R)) : ∀ (k i : Nat) (W : DMat R), Ws[i]? = some W →
    (sparseUpdates env dvs m H rhs dx Ws k)[i]? = some (dvs.getD (m + (k + i)) 0, fun a => buildDsi H rhs m (k + i) W dx a * env.scaling (dvs.getD (m + (k + i)) 0)) := by
  induction Ws with
  | nil => intro _ _ _ h; simp at h
  | cons V Ws ih =>
    intro k i W h
    cases i with
    | zero => simp at h; subst h; simp [sparseUpdates]
    | succ i =>
      rw [sparseUpdates, List.getElem?_cons_succ, ih (k + 1) i W (by simpa using h), show k + 1 + i = k + (i + 1) by omega]

theorem sparseUpdates_length (env : Env R) (dvs : List Nat) (m : Nat) (H : SBM R) (rhs dx : Nat → R) (Ws : List (DMat R)) : ∀ k, (sparseUpdates env dvs m H rhs dx Ws k).length = Ws.length := by
  induction Ws with
  | nil => intro; rfl
  | cons d ds ih => intro start; simp [sparseUpdates, ih]

theorem base_eq (env : Env R) (dvs : List Nat) (r : Nat) : (dvLayout env dvs).base r = ∑ k ∈ Finset.range r, env.dim (dvs.getD k 0) := by
  unfold Layout.base dvLayout
  cases r with
  | zero => simp
  | succ r => simp

/-- Coefficient `a` of the right-hand side `-∑ Jᵀ W e` of the normal equations for variable `d`. -/
def grad (env : Env R) (ts : List (Term R × List (Event R))) (d a : Nat) : R := - (ts.map fun q => JtWe env q.1 q.2 d a).sum

/-- An iteration of the optimizer: the statement of C119, what the first part of the solution is, and the product of the solution with the right-hand side in terms of the reduced system. -/
theorem step_full (debug : Bool) (align : Nat) (ha : 0 < align) (inv : DMat R → DMat R) (env : Env R) (dvs : List Nat) (hnd : dvs.Nodup) (hix : Indexed env dvs) (ts : List (Term R × List (Event R)))
    (ht : ∀ q ∈ ts, Hessian.Legal env align q.1 q.2) (lambda : R) (lm : Bool) (m p : Nat) (hmp : dvs.length = m + p) (hun : Uncoupled ts (dvs.drop m)) (hinv : Inverts env ts lm lambda inv (dvs.drop m))
    (s : Sys R) (hs : SysOk (dvLayout env dvs) s) (A : SBM R) (hA : Solver.Square A) (hAl : A.rl = dvLayout env (dvs.take m)) :
    ∃ s' r, reduce debug align inv env (ts.map Prod.fst) lambda m p lm s A = .ok (s', r) ∧
      ∀ dx : Nat → R, (∀ i, i < (dvLayout env (dvs.take m)).total → ∑ j ∈ Finset.range (dvLayout env (dvs.take m)).total, upper r.A.toDense.e i j * dx j = r.b i) →
        ∃ z : Nat → Nat → R,
          (applyStateUpdate env dvs m r.H s'.rhs r.invV dx).map Prod.fst = dvs ∧
          (∀ (i : Nat) (u : Nat × (Nat → R)), (applyStateUpdate env dvs m r.H s'.rhs r.invV dx)[i]? = some u → ∀ a, a < env.dim u.1 → u.2 a = z i a * env.scaling u.1) ∧
          (∀ i a, i < dvs.length → a < env.dim (dvs.getD i 0) →
            ∑ c ∈ Finset.range dvs.length, ∑ b ∈ Finset.range (env.dim (dvs.getD c 0)), lhs env ts lm lambda (dvs.getD i 0) (dvs.getD c 0) a b * z c b =
              - (ts.map fun q => JtWe env q.1 q.2 (dvs.getD i 0) a).sum) ∧
          (∀ c b, c < m → b < env.dim (dvs.getD c 0) → z c b = dx ((dvLayout env dvs).base c + b)) ∧
          ∃ W : Nat → Nat → Nat → R,
            (∀ i, m ≤ i → i < dvs.length → ∀ a b, a < env.dim (dvs.getD i 0) → b < env.dim (dvs.getD i 0) →
              ∑ t ∈ Finset.range (env.dim (dvs.getD i 0)), lhs env ts lm lambda (dvs.getD i 0) (dvs.getD i 0) a t * W i t b = if a = b then 1 else 0) ∧
            ∑ c ∈ Finset.range dvs.length, ∑ b ∈ Finset.range (env.dim (dvs.getD c 0)), z c b * grad env ts (dvs.getD c 0) b =
              ∑ j ∈ Finset.range (dvLayout env (dvs.take m)).total, dx j * r.b j +
              ∑ i ∈ Finset.range p, ∑ a ∈ Finset.range (env.dim (dvs.getD (m + i) 0)), ∑ t ∈ Finset.range (env.dim (dvs.getD (m + i) 0)),
                grad env ts (dvs.getD (m + i) 0) a * (W (m + i) a t * grad env ts (dvs.getD (m + i) 0) t) := by
  obtain ⟨hc, hz⟩ := clear_ok hs (fun _ => 0)
  obtain ⟨s', e, h', hHat, hB⟩ := run_terms debug align ha env dvs hix ts ht _ hc
  simp only [hz, zero_add] at hHat
  simp only [zero_sub] at hB
  have hsq : Solver.Square s'.H := ⟨h'.wf, by rw [h'.cl, h'.rl], h'.st⟩
  have hn : s'.H.rl.n = m + p := by rw [h'.rl]; exact hmp
  have hsize : ∀ r, s'.H.rl.size r = env.dim (dvs.getD r 0) := fun r => by rw [h'.rl, dvLayout_size]
  have hmem : ∀ r, m ≤ r → r < m + p → dvs.getD r 0 ∈ dvs.drop m := by
    intro r h1 h2
    rw [List.mem_drop_iff_getElem]
    refine ⟨r - m, by omega, ?_⟩
    rw [List.getD_eq_getElem _ _ (by omega)]
    congr 1; omega
  have hinj : ∀ r c, r < m + p → c < m + p → dvs.getD r 0 = dvs.getD c 0 → r = c := by
    intro r c hr hc' he
    rw [List.getD_eq_getElem _ _ (by omega), List.getD_eq_getElem _ _ (by omega)] at he
    exact (List.Nodup.getElem_inj_iff hnd).1 he
  have hlegal : Schur.Legal s'.H A m p inv lambda lm := by
    refine ⟨hsq, hA, ⟨?_, by rw [hn]; omega, ?_⟩, hn, ?_, ?_, ?_⟩
    · rw [hAl]; simp [dvLayout]; omega
    · intro i hi
      rw [hAl, h'.rl]
      simp only [dvLayout]
      refine Finset.sum_congr rfl fun k hk => ?_
      have := Finset.mem_range.1 hk
      simp only [List.getD_eq_getElem?_getD]
      rw [List.getElem?_take_of_lt (by omega)]
    · intro r c h1 h2 h3 a b ha' hb'
      rw [hsize] at ha' hb'
      rw [hHat r c a b (by omega) (by omega) ha' hb', if_pos h2.le]
      exact uncoupled_zero env hun (hmem r h1 (by omega)) (hmem c (by omega) h3) (fun h0 => by have := hinj r c (by omega) h3 h0; omega) a b
    · intro r a b hr ha' hb'
      rw [hsize] at ha' hb'
      rw [hHat r r a b (by omega) (by omega) ha' hb', hHat r r b a (by omega) (by omega) hb' ha', if_pos le_rfl, if_pos le_rfl]
      exact sum_JtWJ_symm env ts _ _ a b
    · intro i hi
      refine hinv (dvs.getD (m + i) 0) (hmem (m + i) (by omega) (by omega)) _ ?_ ?_
      · rw [damped_rows hsq lm lambda (by omega), hsize]
      · intro a b ha' hb'
        rw [damped_e, hHat (m + i) (m + i) a b (by omega) (by omega) ha' hb', if_pos le_rfl]
        simp [lhs]
  obtain ⟨r, er, hlen, hinvV, hrl, -, hcong, hiff⟩ := schur_full debug inv s'.H A s'.rhs lambda m p lm hlegal
  have mono := dvLayout_mono env dvs
  set L := dvLayout env dvs with hL
  have hbase : ∀ r, r ≤ m → (dvLayout env (dvs.take m)).base r = L.base r := by
    intro r hr
    rw [base_eq, hL, base_eq]
    refine Finset.sum_congr rfl fun k hk => ?_
    have := Finset.mem_range.1 hk
    simp only [List.getD_eq_getElem?_getD]
    rw [List.getElem?_take_of_lt (by omega)]
  have htot : (dvLayout env (dvs.take m)).total = L.base m := by
    rw [Layout.total_eq, ← hbase m le_rfl]
    congr 1
    simp [dvLayout]; omega
  refine ⟨s', r, ?_, ?_⟩
  · unfold reduce
    have : buildSystem debug align env (ts.map Prod.fst) s = .ok s' := e
    rw [this, Res.bind_ok, er, Res.bind_ok]
  intro dx hdx
  rw [htot] at hdx
  have hg : ∀ i, i < p → ∃ W, r.invV[i]? = some W := fun i hi => ⟨r.invV[i], List.getElem?_eq_getElem (by omega)⟩
  -- the whole vector
  set zz : Nat → R := fun j => if j < L.base m then dx j else buildDsi r.H s'.rhs m (L.upperBound j - m) (r.invV.getD (L.upperBound j - m) ⟨0, 0, fun _ _ => 0⟩) dx (j - L.base (L.upperBound j)) with hzz
  have hzlow : ∀ j, j < L.base m → zz j = dx j := fun j hj => by simp only [hzz, if_pos hj]
  have hLn : L.n = m + p := hmp
  have hzhigh : ∀ i a W, r.invV[i]? = some W → a < L.size (m + i) → zz (L.base (m + i) + a) = buildDsi r.H s'.rhs m i W dx a := by
    intro i a W hW ha'
    have hi : i < p := by rw [← hlen]; exact (List.getElem?_eq_some_iff.1 hW).1
    have h1 := Layout.base_le mono (show m ≤ m + i by omega) (by rw [hLn]; omega)
    have hub : L.upperBound (L.base (m + i) + a) = m + i := Layout.upperBound_eq mono (by rw [hLn]; omega) (by omega) (by omega)
    simp only [hzz]
    rw [if_neg (by omega), hub, show m + i - m = i by omega, show L.base (m + i) + a - L.base (m + i) = a by omega, List.getD_eq_getElem?_getD, hW]
    rfl
  have hbacksub : ∀ i a W, r.invV[i]? = some W → a < s'.H.rl.size (m + i) → zz (s'.H.rl.base (m + i) + a) = buildDsi r.H s'.rhs m i W zz a := by
    intro i a W hW ha'
    have hi : i < p := by rw [← hlen]; exact (List.getElem?_eq_some_iff.1 hW).1
    rw [h'.rl] at ha' ⊢
    rw [hzhigh i a W hW ha']
    exact hcong i W dx zz hi (fun j hj => by rw [h'.rl] at hj; exact (hzlow j hj).symm) a
  have hsol := (hiff zz).1.2 ⟨?_, hbacksub⟩
  · refine ⟨fun c b => zz (L.base c + b), ?_, ?_, ?_, ?_, fun i => (inv (damped lm lambda s'.H i)).e, ?_, ?_⟩
    · unfold applyStateUpdate
      apply List.ext_getElem?
      intro i
      rw [List.getElem?_map]
      by_cases him : i < m
      · rw [List.getElem?_append_left (by rw [denseUpdates_length, List.length_take]; omega), denseUpdates_spec env dx _ 0 i (by rw [List.length_take]; omega)]
        simp only [Option.map_some]
        rw [List.getD_eq_getElem?_getD, List.getElem?_take_of_lt him, List.getElem?_eq_getElem (show i < dvs.length by omega)]
        rfl
      · rw [List.getElem?_append_right (by rw [denseUpdates_length, List.length_take]; omega), denseUpdates_length, List.length_take, show min m dvs.length = m by omega]
        by_cases hip : i - m < p
        · obtain ⟨W, hW⟩ := hg (i - m) hip
          rw [sparseUpdates_spec env dvs m r.H s'.rhs dx r.invV 0 (i - m) W hW]
          simp only [Option.map_some]
          rw [show m + (0 + (i - m)) = i by omega, List.getD_eq_getElem?_getD, List.getElem?_eq_getElem (show i < dvs.length by omega)]
          rfl
        · rw [List.getElem?_eq_none (by rw [sparseUpdates_length]; omega), List.getElem?_eq_none (show dvs.length ≤ i by omega)]
          rfl
    · intro i u hu a hau
      unfold applyStateUpdate at hu
      by_cases him : i < m
      · rw [List.getElem?_append_left (by rw [denseUpdates_length, List.length_take]; omega), denseUpdates_spec env dx _ 0 i (by rw [List.length_take]; omega)] at hu
        cases hu
        have hgi : (dvs.take m).getD i 0 = dvs.getD i 0 := by simp only [List.getD_eq_getElem?_getD]; rw [List.getElem?_take_of_lt him]
        dsimp only at hau ⊢
        have h1 := Layout.base_add_size mono (show i < L.n by rw [hLn]; omega)
        have h2 := Layout.base_le mono (show i + 1 ≤ m by omega) (by rw [hLn]; omega)
        have h3 : L.size i = env.dim (dvs.getD i 0) := dvLayout_size env dvs i
        rw [hgi] at hau
        rw [hzlow _ (by omega), Nat.zero_add, ← base_eq, hbase i him.le]
      · rw [List.getElem?_append_right (by rw [denseUpdates_length, List.length_take]; omega), denseUpdates_length, List.length_take, show min m dvs.length = m by omega] at hu
        by_cases hip : i - m < p
        · obtain ⟨W, hW⟩ := hg (i - m) hip
          rw [sparseUpdates_spec env dvs m r.H s'.rhs dx r.invV 0 (i - m) W hW] at hu
          cases hu
          dsimp only at hau ⊢
          rw [show m + (0 + (i - m)) = i by omega] at hau ⊢
          rw [Nat.zero_add]
          have h3 : L.size i = env.dim (dvs.getD i 0) := dvLayout_size env dvs i
          have := hzhigh (i - m) a W hW (by rw [show m + (i - m) = i by omega, h3]; exact hau)
          rw [show m + (i - m) = i by omega] at this
          rw [this]
        · rw [List.getElem?_eq_none (by rw [sparseUpdates_length]; omega)] at hu
          cases hu
    · intro i a hi hai
      have hia : L.base i + a < L.total := by
        have := Layout.base_add_size_le_total mono (show i < L.n by rw [hLn]; omega)
        have h3 : L.size i = env.dim (dvs.getD i 0) := dvLayout_size env dvs i
        omega
      have h0 := hsol (L.base i + a) (by rw [h'.rl]; exact hia)
      rw [hB i a hi hai] at h0
      rw [← h0, h'.rl, Layout.sum_blocks mono, show L.n = dvs.length from rfl]
      refine Finset.sum_congr rfl fun c hc => ?_
      have hc' := Finset.mem_range.1 hc
      have hsc : L.size c = env.dim (dvs.getD c 0) := dvLayout_size env dvs c
      rw [hsc]
      refine Finset.sum_congr rfl fun b hb => ?_
      have hb' := Finset.mem_range.1 hb
      congr 1
      have hup := upper_at hsq (r := i) (c := c) (a := a) (b := b) (by rw [hn]; omega) (by rw [hn]; omega) (by rw [hsize]; exact hai) (by rw [hsize]; exact hb')
      rw [h'.rl] at hup
      rw [hup]
      unfold lhs
      have hdiag : (L.base i + a = L.base c + b) ↔ (dvs.getD i 0 = dvs.getD c 0 ∧ a = b) := by
        constructor
        · intro he
          have e1 : L.upperBound (L.base i + a) = i := Layout.upperBound_eq mono (by rw [hLn]; omega) (by omega) (by rw [show L.size i = env.dim (dvs.getD i 0) from dvLayout_size env dvs i]; omega)
          have e2 : L.upperBound (L.base c + b) = c := Layout.upperBound_eq mono (by rw [hLn]; omega) (by omega) (by rw [hsc]; omega)
          rw [he, e2] at e1
          subst e1
          exact ⟨rfl, by omega⟩
        · rintro ⟨he, rfl⟩
          rw [hinj i c (by omega) (by omega) he]
      congr 1
      · rcases Nat.lt_trichotomy i c with h | h | h
        · rw [if_pos h, hHat i c a b hi hc' hai hb', if_pos h.le]
        · subst h
          rw [if_neg (lt_irrefl i), if_neg (lt_irrefl i)]
          by_cases hab : a ≤ b
          · rw [if_pos hab, hHat i i a b hi hi hai hb', if_pos le_rfl]
          · rw [if_neg hab, hHat i i b a hi hi hb' hai, if_pos le_rfl]
            exact sum_JtWJ_symm env ts (dvs.getD i 0) (dvs.getD i 0) a b
        · rw [if_neg (by omega), if_pos h, hHat c i b a hc' hi hb' hai, if_pos h.le]
          exact sum_JtWJ_symm env ts (dvs.getD i 0) (dvs.getD c 0) a b
      · exact if_congr (and_congr_right fun _ => hdiag.symm) rfl rfl
    · intro c b hc hb
      have h1 := Layout.base_add_size mono (show c < L.n by rw [hLn]; omega)
      have h2 := Layout.base_le mono (show c + 1 ≤ m by omega) (by rw [hLn]; omega)
      have h3 : L.size c = env.dim (dvs.getD c 0) := dvLayout_size env dvs c
      exact hzlow _ (by omega)
    · intro i h1 h2 a b ha' hb'
      obtain ⟨i, rfl⟩ : ∃ k, i = m + k := ⟨i - m, by omega⟩
      have hr := damped_rows hsq lm lambda (r := m + i) (by omega)
      have := (hlegal.inv i (by omega)).mul a b (by rw [hr, hsize]; exact ha') (by rw [hr, hsize]; exact hb')
      rw [hr, hsize] at this
      rw [← this]
      refine Finset.sum_congr rfl fun t ht => ?_
      rw [damped_e, hHat (m + i) (m + i) a t (by omega) (by omega) ha' (Finset.mem_range.1 ht), if_pos le_rfl]
      simp [lhs]
    · have h0 := (hiff zz).2 hbacksub
      rw [h'.rl, Layout.sum_blocks mono, show L.n = dvs.length from rfl] at h0
      have hgrad : ∀ c b, c < dvs.length → b < env.dim (dvs.getD c 0) → s'.rhs (L.base c + b) = grad env ts (dvs.getD c 0) b := fun c b hc hb => hB c b hc hb
      have hsc : ∀ c, L.size c = env.dim (dvs.getD c 0) := fun c => dvLayout_size env dvs c
      have e1 : ∑ c ∈ Finset.range dvs.length, ∑ b ∈ Finset.range (env.dim (dvs.getD c 0)), zz (L.base c + b) * grad env ts (dvs.getD c 0) b =
          ∑ c ∈ Finset.range dvs.length, ∑ b ∈ Finset.range (L.size c), zz (L.base c + b) * s'.rhs (L.base c + b) := by
        refine Finset.sum_congr rfl fun c hc => ?_
        rw [hsc c]
        refine Finset.sum_congr rfl fun b hb => ?_
        rw [hgrad c b (Finset.mem_range.1 hc) (Finset.mem_range.1 hb)]
      rw [e1, h0, htot]
      congr 1
      · exact Finset.sum_congr rfl fun j hj => by rw [hzlow j (Finset.mem_range.1 hj)]
      · refine Finset.sum_congr rfl fun i hi => ?_
        have hi' := Finset.mem_range.1 hi
        rw [hsc (m + i), List.getD_eq_getElem?_getD (l := r.invV), hinvV i hi']
        refine Finset.sum_congr rfl fun a ha' => Finset.sum_congr rfl fun t ht => ?_
        rw [hgrad (m + i) a (by omega) (Finset.mem_range.1 ha'), hgrad (m + i) t (by omega) (Finset.mem_range.1 ht)]
        rfl
  · intro i hi
    have hi' : i < L.base m := by rw [h'.rl] at hi; exact hi
    rw [← hdx i hi', h'.rl]
    exact Finset.sum_congr rfl fun j hj => by rw [hzlow j (Finset.mem_range.1 hj)]

/-- **C119.** Let the active variables be indexed, the marginalised ones last, from position `m` on; let every error term evaluate its Jacobians by legal calls; let no term depend on two marginalised variables; and let
the inverse of the (damped) block of every marginalised variable be exact. Then, whatever the matrices contained before, building and reducing the system succeeds, and if `dx` solves the reduced system then the
updates applied are, for every variable once and in order, the scaling of the variable times its part of a vector `z` that solves the damped normal equations of all error terms in all active
variables: `∑ over d' of (∑ Jᵀ W J + λ) z = -∑ Jᵀ W e`, with the scaled Jacobians. -/
theorem C119_step (debug : Bool) (align : Nat) (ha : 0 < align) (inv : DMat R → DMat R) (env : Env R) (dvs : List Nat) (hnd : dvs.Nodup) (hix : Indexed env dvs) (ts : List (Term R × List (Event R)))
    (ht : ∀ q ∈ ts, Hessian.Legal env align q.1 q.2) (lambda : R) (lm : Bool) (m p : Nat) (hmp : dvs.length = m + p) (hun : Uncoupled ts (dvs.drop m)) (hinv : Inverts env ts lm lambda inv (dvs.drop m))
    (s : Sys R) (hs : SysOk (dvLayout env dvs) s) (A : SBM R) (hA : Solver.Square A) (hAl : A.rl = dvLayout env (dvs.take m)) :
    ∃ s' r, reduce debug align inv env (ts.map Prod.fst) lambda m p lm s A = .ok (s', r) ∧
      ∀ dx : Nat → R, (∀ i, i < (dvLayout env (dvs.take m)).total → ∑ j ∈ Finset.range (dvLayout env (dvs.take m)).total, upper r.A.toDense.e i j * dx j = r.b i) →
        ∃ z : Nat → Nat → R,
          (applyStateUpdate env dvs m r.H s'.rhs r.invV dx).map Prod.fst = dvs ∧
          (∀ (i : Nat) (u : Nat × (Nat → R)), (applyStateUpdate env dvs m r.H s'.rhs r.invV dx)[i]? = some u → ∀ a, a < env.dim u.1 → u.2 a = z i a * env.scaling u.1) ∧
          ∀ i a, i < dvs.length → a < env.dim (dvs.getD i 0) →
            ∑ c ∈ Finset.range dvs.length, ∑ b ∈ Finset.range (env.dim (dvs.getD c 0)), lhs env ts lm lambda (dvs.getD i 0) (dvs.getD c 0) a b * z c b =
              - (ts.map fun q => JtWe env q.1 q.2 (dvs.getD i 0) a).sum := by
  obtain ⟨s', r, h1, h2⟩ := step_full debug align ha inv env dvs hnd hix ts ht lambda lm m p hmp hun hinv s hs A hA hAl
  refine ⟨s', r, h1, fun dx hdx => ?_⟩
  obtain ⟨z, h3, h4, h5, -⟩ := h2 dx hdx
  exact ⟨z, h3, h4, h5⟩

/-- **C119** (from the problem on). After every history of an optimization problem, whenever `initialize` of the legacy optimizer succeeds: with the block indices and the order of variables it has chosen,
the statement of `C119_step` holds for the error terms it has collected and the matrices it has laid out; the variables that the Schur complement eliminates are exactly the marginalised ones. `active`, `dim` are what the
variables answer; variables that are active belong to the problem. -/
theorem C119_initialized (debug : Bool) (w : Problem.World) (ops : List Problem.Op) (ps : Problem.State) (h : Problem.Reach debug w ops ps) (e : LegacyInit.Env) (schur : Bool) (b : Nat → Int)
    (l : LegacyInit.Layout) (hl : LegacyInit.initOpt e schur ps b = .ok l) (align : Nat) (ha : 0 < align) (inv : DMat R → DMat R) (env : Env R)
    (hblock : env.blockIndex = l.block) (hact : env.active = e.active) (hin : ∀ d, e.active d = true → d ∈ ps.dvs)
    (term : Nat → Term R × List (Event R)) (ht : ∀ t ∈ l.terms, Hessian.Legal env align (term t).1 (term t).2) (lambda : R) (lm : Bool)
    (hun : Uncoupled (l.terms.map term) (l.dvs.filter fun d => e.marg d && schur)) (hinv : Inverts env (l.terms.map term) lm lambda inv (l.dvs.filter fun d => e.marg d && schur))
    (s : Sys R) (hs : SysOk (dvLayout env l.dvs) s) (A : SBM R) (hA : Solver.Square A) (hAl : A.rl = dvLayout env (l.dvs.take l.start)) :
    ∃ s' r, reduce debug align inv env ((l.terms.map term).map Prod.fst) lambda l.start l.invVi lm s A = .ok (s', r) ∧
      ∀ dx : Nat → R, (∀ i, i < (dvLayout env (l.dvs.take l.start)).total → ∑ j ∈ Finset.range (dvLayout env (l.dvs.take l.start)).total, upper r.A.toDense.e i j * dx j = r.b i) →
        ∃ z : Nat → Nat → R,
          (applyStateUpdate env l.dvs l.start r.H s'.rhs r.invV dx).map Prod.fst = l.dvs ∧
          (∀ (i : Nat) (u : Nat × (Nat → R)), (applyStateUpdate env l.dvs l.start r.H s'.rhs r.invV dx)[i]? = some u → ∀ a, a < env.dim u.1 → u.2 a = z i a * env.scaling u.1) ∧
          ∀ i a, i < l.dvs.length → a < env.dim (l.dvs.getD i 0) →
            ∑ c ∈ Finset.range l.dvs.length, ∑ k ∈ Finset.range (env.dim (l.dvs.getD c 0)), lhs env (l.terms.map term) lm lambda (l.dvs.getD i 0) (l.dvs.getD c 0) a k * z c k =
              - ((l.terms.map term).map fun q => JtWe env q.1 q.2 (l.dvs.getD i 0) a).sum := by
  obtain ⟨-, -, hok⟩ := LegacyInit.C115_layout debug w ops ps h e schur b
  obtain ⟨hnd, hmem, hpos, -, -, hlen, -⟩ := hok l hl
  have hdrop : ∀ d ∈ l.dvs.drop l.start, d ∈ l.dvs.filter fun d => e.marg d && schur := by
    intro d hd
    obtain ⟨i, hi, rfl⟩ := List.mem_drop_iff_getElem.1 hd
    refine List.mem_filter.2 ⟨List.getElem_mem _, ?_⟩
    have := (hpos (l.start + i) (by omega)).2.1
    by_contra hne
    have := this.2 (by simpa using hne)
    omega
  refine C119_step debug align ha inv env l.dvs hnd ⟨?_, ?_⟩ (l.terms.map term) ?_ lambda lm l.start l.invVi hlen.symm ?_ ?_ s hs A hA hAl
  · intro i hi
    rw [hblock, List.getD_eq_getElem _ _ hi]
    exact (hpos i hi).1
  · intro d hd
    rw [hact] at hd
    obtain ⟨i, hi, he⟩ := List.mem_iff_getElem.1 ((hmem d).2 ⟨hin d hd, hd⟩)
    exact ⟨i, hi, by rw [List.getD_eq_getElem _ _ hi]; exact he⟩
  · intro q hq
    obtain ⟨t, ht', rfl⟩ := List.mem_map.1 hq
    exact ht t ht'
  · exact fun q hq d hd d' hd' => hun q hq d (hdrop d hd) d' (hdrop d' hd')
  · exact fun d hd => hinv d (hdrop d hd)

/-! A concrete problem: variables 0, 1, 2 of dimension one, 1 and 2 marginalised; term 5 depends on 0 and 1, term 6 on 0 and 2. -/

/-- Variables of the example; variable 0 has scaling 2. -/
def demoEnv : Env ℚ := ⟨fun d => if d = 0 then 0 else if d = 1 then 1 else if d = 2 then 2 else -1, fun _ => 0, fun _ => 1, fun d => decide (d < 3), fun d => if d = 0 then 2 else 1⟩

/-- A term of dimension one with Jacobian 1 with respect to the given variables and error 1. -/
def demoTerm (ds : List Nat) : Term ℚ × List (Event ℚ) := (⟨1, ds.map fun d => .add d ⟨1, 1, fun _ _ => 1⟩, fun _ => 1, ⟨1, 1, fun _ _ => 1⟩, 1⟩, ds.map fun d => (d, Verif.Jacobian.Spec.contribution [] ⟨1, 1, fun _ _ => 1⟩))

/-- The inverse of a 1x1 matrix. -/
def demoInv (B : DMat ℚ) : DMat ℚ := ⟨1, 1, fun _ _ => 1 / B.e 0 0⟩

/-- The matrices of the example before the iteration. -/
def demoSys : Sys ℚ := ⟨new (dvLayout demoEnv [0, 1, 2]) (dvLayout demoEnv [0, 1, 2]), fun _ => 7, 3⟩

/-- The matrix of the reduced system of the example. -/
def demoA : SBM ℚ := new (dvLayout demoEnv [0]) (dvLayout demoEnv [0])

theorem demo_indexed : Indexed demoEnv [0, 1, 2] where
  block i hi := by
    have : i = 0 ∨ i = 1 ∨ i = 2 := by simp at hi; omega
    rcases this with rfl | rfl | rfl <;> decide
  mem d h := by
    have : d < 3 := by simpa [demoEnv] using h
    refine ⟨d, this, ?_⟩
    have : d = 0 ∨ d = 1 ∨ d = 2 := by omega
    rcases this with rfl | rfl | rfl <;> rfl

theorem demo_sys : SysOk (dvLayout demoEnv [0, 1, 2]) demoSys :=
  ⟨new_WF _ _ (dvLayout_mono _ _) (dvLayout_mono _ _) _, rfl, rfl, rfl, by
    simp [Layout.total, dvLayout, Finset.sum_range_succ, demoEnv, demoSys]⟩

theorem demo_square : Solver.Square demoA := ⟨new_WF _ _ (dvLayout_mono _ _) (dvLayout_mono _ _) _, rfl, rfl⟩

theorem demo_term (d d' : Nat) (hd : d < 3) (hd' : d' < 3) : Hessian.Legal demoEnv 1 (demoTerm [d, d']).1 (demoTerm [d, d']).2 := by
  refine ⟨by simp [demoTerm], rfl, [], .cons (s' := ([], [(d, Verif.Jacobian.Spec.contribution [] ⟨1, 1, fun _ _ => 1⟩)])) ?_ (by simp [MatrixStack.Spec.Fits]) (.cons ?_ (by simp [MatrixStack.Spec.Fits]) (.nil _))⟩
  · simp [Verif.Jacobian.Spec.step, Verif.Jacobian.Spec.record, demoEnv, hd, demoTerm, MatrixStack.Spec.cols]
  · simp [Verif.Jacobian.Spec.step, Verif.Jacobian.Spec.record, demoEnv, hd', demoTerm, MatrixStack.Spec.cols]

theorem demo_inverts (ts : List (Term ℚ × List (Event ℚ))) (marg : List Nat) (h : ∀ d ∈ marg, lhs demoEnv ts true 1 d d 0 0 ≠ 0) : Inverts demoEnv ts true 1 demoInv marg := by
  intro d hd V hr hV
  have hr' : V.rows = 1 := hr
  refine ⟨hr'.symm, hr'.symm, ?_⟩
  intro a b ha hb
  rw [hr'] at ha hb ⊢
  obtain rfl : a = 0 := by omega
  obtain rfl : b = 0 := by omega
  have := hV 0 0 (by simp [demoEnv]) (by simp [demoEnv])
  have h0 := h d hd
  rw [← this] at h0
  simp [demoInv, h0]

/-- The hypotheses of `C119_step` are met by the example. -/
theorem demo_meets : [0, 1, 2].Nodup ∧ Indexed demoEnv [0, 1, 2] ∧ (∀ q ∈ [demoTerm [0, 1], demoTerm [0, 2]], Hessian.Legal demoEnv 1 q.1 q.2) ∧ Uncoupled [demoTerm [0, 1], demoTerm [0, 2]] ([0, 1, 2].drop 1) ∧
    Inverts demoEnv [demoTerm [0, 1], demoTerm [0, 2]] true 1 demoInv ([0, 1, 2].drop 1) ∧ SysOk (dvLayout demoEnv [0, 1, 2]) demoSys ∧ Solver.Square demoA ∧ demoA.rl = dvLayout demoEnv ([0, 1, 2].take 1) := by
  refine ⟨by decide, demo_indexed, ?_, ?_, ?_, demo_sys, demo_square, rfl⟩
  · intro q hq
    simp only [List.mem_cons, List.not_mem_nil, or_false] at hq
    rcases hq with rfl | rfl <;> exact demo_term _ _ (by decide) (by decide)
  · intro q hq d hd d' hd' hne
    simp only [List.mem_cons, List.not_mem_nil, or_false, List.drop] at hq hd hd'
    rcases hq with rfl | rfl <;> rcases hd with rfl | rfl <;> rcases hd' with rfl | rfl <;> simp_all [demoTerm, total]
  · apply demo_inverts
    intro d hd
    simp only [List.mem_cons, List.not_mem_nil, or_false, List.drop] at hd
    rcases hd with rfl | rfl
    · decide +kernel
    · decide +kernel

/-- **C119** (why no term may depend on two marginalised variables). One term with Jacobian 1 with respect to variables 1 and 2, both marginalised, λ = 1. All other hypotheses of `C119_step` hold, the solver
solves the reduced system, and the updates applied do not solve the normal equations: the block between the two marginalised variables has been ignored without an error. -/
theorem C119_coupled_counterexample :
    (∀ q ∈ [demoTerm [1, 2]], Hessian.Legal demoEnv 1 q.1 q.2) ∧ Inverts demoEnv [demoTerm [1, 2]] true 1 demoInv ([0, 1, 2].drop 1) ∧
    ∃ s' r, reduce true 1 demoInv demoEnv [(demoTerm [1, 2]).1] 1 1 2 true demoSys demoA = .ok (s', r) ∧
      upper r.A.toDense.e 0 0 * 0 = r.b 0 ∧
      (applyStateUpdate demoEnv [0, 1, 2] 1 r.H s'.rhs r.invV (fun _ => 0)).map (fun u => (u.1, u.2 0)) = [(0, 0), (1, -1 / 2), (2, -1 / 2)] ∧
      lhs demoEnv [demoTerm [1, 2]] true 1 1 0 0 0 * 0 + lhs demoEnv [demoTerm [1, 2]] true 1 1 1 0 0 * (-1 / 2) + lhs demoEnv [demoTerm [1, 2]] true 1 1 2 0 0 * (-1 / 2) ≠
        - ([demoTerm [1, 2]].map fun q => JtWe demoEnv q.1 q.2 1 0).sum := by
  refine ⟨?_, ?_, ?_⟩
  · intro q hq
    simp only [List.mem_cons, List.not_mem_nil, or_false] at hq
    subst hq
    exact demo_term _ _ (by decide) (by decide)
  · apply demo_inverts
    intro d hd
    simp only [List.mem_cons, List.not_mem_nil, or_false, List.drop] at hd
    rcases hd with rfl | rfl
    · decide +kernel
    · decide +kernel
  · refine ⟨_, _, rfl, ?_, ?_, ?_⟩
    · decide +kernel
    · decide +kernel
    · decide +kernel

end Verif.LegacyStep
