import Verif.LegacyStep.Gain
import Verif.Schur.Definite

/-!
C120: with positive damping the reduced system of a Levenberg-Marquardt step is positive definite, so the Cholesky factorisation exists and the step is unique, whatever the Jacobians are.
-/
namespace Verif.LegacyStep
open Verif.MatrixStack (DMat)
open Verif.Jacobian (Env)
open Verif.Jacobian.Spec (Event total)
open Verif.SBM Verif.Hessian Verif.Schur

variable {K : Type} [Field K] [LinearOrder K] [IsStrictOrderedRing K]

/-- **C120** (definiteness). In the setting of `C119_step` with Levenberg-Marquardt damping `λ`: the quadratic form of the reduced matrix (symmetric, upper triangle stored) is at least `λ` times the square of the vector. For `λ > 0` it is positive definite, even if the
error terms do not determine the variables. -/
theorem C120_definite (debug : Bool) (align : Nat) (ha : 0 < align) (inv : DMat K → DMat K) (env : Env K) (dvs : List Nat) (hnd : dvs.Nodup) (hix : Indexed env dvs) (ts : List (Term K × List (Event K)))
    (ht : ∀ q ∈ ts, Hessian.Legal env align q.1 q.2) (lambda : K) (hlam : 0 ≤ lambda) (m p : Nat) (hmp : dvs.length = m + p) (hun : Uncoupled ts (dvs.drop m)) (hinv : Inverts env ts true lambda inv (dvs.drop m))
    (s : Sys K) (hs : SysOk (dvLayout env dvs) s) (A : SBM K) (hA : Solver.Square A) (hAl : A.rl = dvLayout env (dvs.take m)) :
    ∃ s' r, reduce debug align inv env (ts.map Prod.fst) lambda m p true s A = .ok (s', r) ∧
      ∀ x : Nat → K, lambda * ∑ i ∈ Finset.range (dvLayout env (dvs.take m)).total, x i * x i ≤
        ∑ i ∈ Finset.range (dvLayout env (dvs.take m)).total, ∑ j ∈ Finset.range (dvLayout env (dvs.take m)).total, x i * (upper r.A.toDense.e i j * x j) := by
  set lm : Bool := true with hlm
  obtain ⟨hc, hz⟩ := clear_ok hs (fun _ => 0)
  obtain ⟨s', e, h', hHat, hB⟩ := run_terms debug align ha env dvs hix ts ht _ hc
  simp only [hz, zero_add] at hHat
  simp only [zero_sub] at hB
  have hsq : Solver.Square s'.H := ⟨h'.wf, by rw [h'.cl, h'.rl], h'.st⟩
  have hn : s'.H.rl.n = m + p := by rw [h'.rl]; exact hmp
  have hsize : ∀ r, s'.H.rl.size r = env.dim (dvs.getD r 0) := fun r => by rw [h'.rl, dvLayout_size]
  have hmem : ∀ r, m ≤ r → r < m + p → dvs.getD r 0 ∈ dvs.drop m := by
    intro r h1 h2
    rw [List.mem_drop_iff_getElem]
    refine ⟨r - m, by omega, ?_⟩
    rw [List.getD_eq_getElem _ _ (by omega)]
    congr 1; omega
  have hinj : ∀ r c, r < m + p → c < m + p → dvs.getD r 0 = dvs.getD c 0 → r = c := by
    intro r c hr hc' he
    rw [List.getD_eq_getElem _ _ (by omega), List.getD_eq_getElem _ _ (by omega)] at he
    exact (List.Nodup.getElem_inj_iff hnd).1 he
  have hlegal : Schur.Legal s'.H A m p inv lambda lm := by
    refine ⟨hsq, hA, ⟨?_, by rw [hn]; omega, ?_⟩, hn, ?_, ?_, ?_⟩
    · rw [hAl]; simp [dvLayout]; omega
    · intro i hi
      rw [hAl, h'.rl]
      simp only [dvLayout]
      refine Finset.sum_congr rfl fun k hk => ?_
      have := Finset.mem_range.1 hk
      simp only [List.getD_eq_getElem?_getD]
      rw [List.getElem?_take_of_lt (by omega)]
    · intro r c h1 h2 h3 a b ha' hb'
      rw [hsize] at ha' hb'
      rw [hHat r c a b (by omega) (by omega) ha' hb', if_pos h2.le]
      exact uncoupled_zero env hun (hmem r h1 (by omega)) (hmem c (by omega) h3) (fun h0 => by have := hinj r c (by omega) h3 h0; omega) a b
    · intro r a b hr ha' hb'
      rw [hsize] at ha' hb'
      rw [hHat r r a b (by omega) (by omega) ha' hb', hHat r r b a (by omega) (by omega) hb' ha', if_pos le_rfl, if_pos le_rfl]
      exact sum_JtWJ_symm env ts _ _ a b
    · intro i hi
      refine hinv (dvs.getD (m + i) 0) (hmem (m + i) (by omega) (by omega)) _ ?_ ?_
      · rw [damped_rows hsq lm lambda (by omega), hsize]
      · intro a b ha' hb'
        rw [damped_e, hHat (m + i) (m + i) a b (by omega) (by omega) ha' hb', if_pos le_rfl]
        simp [lhs]
  obtain ⟨r, er, hform⟩ := C48_reduced_form debug inv s'.H A s'.rhs lambda m p lm hlegal
  have mono := dvLayout_mono env dvs
  set L := dvLayout env dvs with hL
  have hbase : ∀ r, r ≤ m → (dvLayout env (dvs.take m)).base r = L.base r := by
    intro r hr
    rw [base_eq, hL, base_eq]
    refine Finset.sum_congr rfl fun k hk => ?_
    have := Finset.mem_range.1 hk
    simp only [List.getD_eq_getElem?_getD]
    rw [List.getElem?_take_of_lt (by omega)]
  have htot : (dvLayout env (dvs.take m)).total = L.base m := by
    rw [Layout.total_eq, ← hbase m le_rfl]
    congr 1
    simp [dvLayout]; omega
  have hLn : L.n = m + p := hmp
  refine ⟨s', r, ?_, ?_⟩
  · unfold reduce
    have : buildSystem debug align env (ts.map Prod.fst) s = .ok s' := e
    rw [this, Res.bind_ok, er, Res.bind_ok]
  intro x
  obtain ⟨zz, hlow, hf⟩ := hform x
  rw [h'.rl] at hlow hf
  rw [htot, hf]
  have hentry : ∀ i c a b, i < dvs.length → c < dvs.length → a < env.dim (dvs.getD i 0) → b < env.dim (dvs.getD c 0) →
      (upper s'.H.toDense.e (L.base i + a) (L.base c + b) + if lm = true ∧ L.base i + a = L.base c + b then lambda else 0) = lhs env ts lm lambda (dvs.getD i 0) (dvs.getD c 0) a b := by
    intro i c a b hi hc' hai hb'
    have hsc : L.size c = env.dim (dvs.getD c 0) := dvLayout_size env dvs c
    have hup := upper_at hsq (r := i) (c := c) (a := a) (b := b) (by rw [hn]; omega) (by rw [hn]; omega) (by rw [hsize]; exact hai) (by rw [hsize]; exact hb')
    rw [h'.rl] at hup
    rw [hup]
    unfold lhs
    have hdiag : (L.base i + a = L.base c + b) ↔ (dvs.getD i 0 = dvs.getD c 0 ∧ a = b) := by
      constructor
      · intro he
        have e1 : L.upperBound (L.base i + a) = i := Layout.upperBound_eq mono (by rw [hLn]; omega) (by omega) (by rw [show L.size i = env.dim (dvs.getD i 0) from dvLayout_size env dvs i]; omega)
        have e2 : L.upperBound (L.base c + b) = c := Layout.upperBound_eq mono (by rw [hLn]; omega) (by omega) (by rw [hsc]; omega)
        rw [he, e2] at e1
        subst e1
        exact ⟨rfl, by omega⟩
      · rintro ⟨he, rfl⟩
        rw [hinj i c (by omega) (by omega) he]
    congr 1
    · rcases Nat.lt_trichotomy i c with h | h | h
      · rw [if_pos h, hHat i c a b hi hc' hai hb', if_pos h.le]
      · subst h
        rw [if_neg (lt_irrefl i), if_neg (lt_irrefl i)]
        by_cases hab : a ≤ b
        · rw [if_pos hab, hHat i i a b hi hi hai hb', if_pos le_rfl]
        · rw [if_neg hab, hHat i i b a hi hi hb' hai, if_pos le_rfl]
          exact (sum_JtWJ_symm env ts (dvs.getD i 0) (dvs.getD i 0) a b).symm
      · rw [if_neg (by omega), if_pos h, hHat c i b a hc' hi hb' hai, if_pos h.le]
        exact (sum_JtWJ_symm env ts (dvs.getD i 0) (dvs.getD c 0) a b).symm
    · exact if_congr (and_congr_right fun _ => hdiag) rfl rfl
  set z : Nat → Nat → K := fun c b => zz (L.base c + b) with hz'
  have hsz : ∀ c, L.size c = env.dim (dvs.getD c 0) := fun c => dvLayout_size env dvs c
  have hfull : ∑ i ∈ Finset.range L.total, ∑ j ∈ Finset.range L.total, zz i * ((upper s'.H.toDense.e i j + if lm = true ∧ i = j then lambda else 0) * zz j) = dot env dvs z (mulLhs env dvs ts lambda z) := by
    unfold dot mulLhs
    rw [Layout.sum_blocks mono, show L.n = dvs.length from rfl]
    refine Finset.sum_congr rfl fun c hc => ?_
    rw [hsz c]
    refine Finset.sum_congr rfl fun a ha' => ?_
    rw [← Finset.mul_sum]
    congr 1
    rw [Layout.sum_blocks mono, show L.n = dvs.length from rfl]
    refine Finset.sum_congr rfl fun c' hc' => ?_
    rw [hsz c']
    refine Finset.sum_congr rfl fun b hb => ?_
    rw [hentry c c' a b (Finset.mem_range.1 hc) (Finset.mem_range.1 hc') (Finset.mem_range.1 ha') (Finset.mem_range.1 hb)]
  rw [hfull]
  refine le_trans (mul_le_mul_of_nonneg_left ?_ hlam) (form_ge env dvs hnd ts lambda z)
  have hsq2 : dot env dvs z z = ∑ j ∈ Finset.range L.total, zz j * zz j := by
    rw [Layout.sum_blocks mono, show L.n = dvs.length from rfl]
    unfold dot
    refine Finset.sum_congr rfl fun c _ => ?_
    rw [hsz c]
  have hle : L.base m ≤ L.total := by rw [Layout.total_eq]; exact Layout.base_le mono (by rw [hLn]; omega) le_rfl
  rw [hsq2]
  calc ∑ i ∈ Finset.range (L.base m), x i * x i = ∑ i ∈ Finset.range (L.base m), zz i * zz i := Finset.sum_congr rfl fun i hi => by rw [hlow i (Finset.mem_range.1 hi)]
    _ ≤ _ := Finset.sum_le_sum_of_subset_of_nonneg (Finset.range_mono hle) fun _ _ _ => mul_self_nonneg _

/-- The hypotheses are met by the example of C119. -/
example : ∃ s' r, reduce true 1 demoInv demoEnv ([demoTerm [0, 1], demoTerm [0, 2]].map Prod.fst) 1 1 2 true demoSys demoA = .ok (s', r) ∧ (1 : ℚ) ≤ upper r.A.toDense.e 0 0 := by
  obtain ⟨h1, h2, h3, h4, h5, h6, h7, h8⟩ := demo_meets
  obtain ⟨s', r, h, hx⟩ := C120_definite true 1 (by decide) demoInv demoEnv [0, 1, 2] h1 h2 _ h3 1 (by norm_num) 1 2 rfl h4 h5 demoSys h6 demoA h7 h8
  refine ⟨s', r, h, ?_⟩
  have := hx fun _ => 1
  have ht : (dvLayout demoEnv ([0, 1, 2].take 1)).total = 1 := by decide
  rw [ht] at this
  simpa using this

end Verif.LegacyStep
