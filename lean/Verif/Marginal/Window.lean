import Verif.Marginal.Chain

/-! C98 for any number of calls: a sliding window that is reduced call by call. -/
namespace Verif.Marginal
variable {K : Type} [Field K] [LinearOrder K] [IsStrictOrderedRing K]

/-- A sliding window, use of `marginalize` (M:23-199) with its own result. `Window dim edim L p gone kept ets s`: after some calls the last prior is `p`, its variables are `kept`, the variables `gone`
have been removed, the terms `ets` have been used, and the variables have moved by `s` since the first call. `L` has the linear terms as seen by the first call. -/
inductive Window (dim edim : Nat → Nat) (L : Terms K) : Prior K → List Nat → List Nat → List Nat → (Nat → Nat → K) → Prop
  | first {A B ets : List Nat} {sys : Env → Option (Fact K)} {top : Nat} {env : Env} {p : Prior K}
      (f : Faithful dim edim L (A ++ B) ets A.length sys)
      (h : (marginalize dim edim sys (A ++ B) ets A.length top env).prior = .ok p) : Window dim edim L p A B ets fun _ _ => 0
  /-- The variables move by `δ`; the next call removes `B`, keeps `C` and the new variables `D`, and uses the last prior, as term `t₀` with the Jacobian and the error it reports, and the terms `ets₂`. -/
  | next {p p₂ : Prior K} {A B C D ets ets₂ : List Nat} {s δ : Nat → Nat → K} {t₀ : Nat} {L' : Terms K} {sys : Env → Option (Fact K)} {top : Nat} {env : Env}
      (before : Window dim edim L p A (B ++ C) ets s)
      (hnew : ∀ v ∈ D, v ∉ A ++ (B ++ C))
      (hdep₁ : ∀ t ∈ ets, ∀ r < edim t, ∀ v ∈ D, ∀ c < dim v, L.lin t r v c = 0)
      (hdep₂ : ∀ t ∈ ets₂, ∀ r < edim t, ∀ v ∈ A, ∀ c < dim v, L.lin t r v c = 0)
      (hlin : ∀ t ∈ ets₂, ∀ r < edim t, L'.rhs t r = -L.err dim (B ++ (C ++ D)) (fun v i => s v i + δ v i) t r ∧
        ∀ v ∈ B ++ (C ++ D), ∀ c < dim v, L'.lin t r v c = L.lin t r v c)
      (hdim : edim t₀ = p.n)
      (hprior : p.jacobian ((B ++ C).map fun v => (dim v, fun i j => if i = j then 1 else 0)) 0 =
        (B ++ C).map fun v => (dim v, fun r c => L'.lin t₀ r v c))
      (hrest : ∀ r < p.n, ∀ v ∈ D, ∀ c < dim v, L'.lin t₀ r v c = 0)
      (herr : ∀ r < p.n, L'.rhs t₀ r = -p.error (flat dim (B ++ C) δ) r)
      (f : Faithful dim edim L' (B ++ (C ++ D)) (t₀ :: ets₂) B.length sys)
      (h : (marginalize dim edim sys (B ++ (C ++ D)) (t₀ :: ets₂) B.length top env).prior = .ok p₂) :
      Window dim edim L p₂ (A ++ B) (C ++ D) (ets ++ ets₂) fun v i => s v i + δ v i

omit [LinearOrder K] [IsStrictOrderedRing K] in
theorem lincost_congr (dim edim : Nat → Nat) (L : Terms K) {vs ets : List Nat} {x y : Nat → Nat → K} (h : ∀ v ∈ vs, x v = y v) :
    L.cost dim edim vs ets x = L.cost dim edim vs ets y := by
  unfold Terms.cost
  simp only [err_congr dim L vs _ _ h]

omit [LinearOrder K] [IsStrictOrderedRing K] in
/-- Variables on which no term depends may be left out. -/
theorem lincost_drop (dim edim : Nat → Nat) (L : Terms K) {us vs ws ets : List Nat} (h : ∀ t ∈ ets, ∀ r < edim t, ∀ v ∈ vs, ∀ c < dim v, L.lin t r v c = 0)
    (x : Nat → Nat → K) : L.cost dim edim (us ++ (vs ++ ws)) ets x = L.cost dim edim (us ++ ws) ets x := by
  unfold Terms.cost
  congr 1
  refine List.map_congr_left fun t ht => Finset.sum_congr rfl fun r hr => ?_
  have h0 : (vs.map fun v => ∑ c ∈ Finset.range (dim v), L.lin t r v c * x v c).sum = 0 := by
    refine List.sum_eq_zero fun y hy => ?_
    obtain ⟨v, hv, rfl⟩ := List.mem_map.1 hy
    exact Finset.sum_eq_zero fun c hc => by rw [h t ht r (Finset.mem_range.1 hr) v hv c (Finset.mem_range.1 hc), zero_mul]
  have : L.err dim (us ++ (vs ++ ws)) x t r = L.err dim (us ++ ws) x t r := by
    unfold Terms.err
    simp only [List.map_append, List.sum_append, h0, zero_add]
  rw [this]

/-- The last prior is the minimum over the removed variables, up to a constant. -/
theorem window_min {dim edim : Nat → Nat} {L : Terms K} {p : Prior K} {A kept ets : List Nat} {s : Nat → Nat → K} (w : Window dim edim L p A kept ets s) :
    p.dvs = kept ∧ p.n = (kept.map dim).sum ∧ (A ++ kept).Nodup ∧
    (∃ pos b, Laid dim pos kept b) ∧
    ∃ c, (∀ x : Nat → Nat → K, p.cost (flat dim kept x) + c ≤ L.cost dim edim (A ++ kept) ets fun v i => x v i + s v i) ∧
      ∀ x : Nat → Nat → K, ∃ x' : Nat → Nat → K, (∀ v ∈ kept, x' v = x v) ∧ L.cost dim edim (A ++ kept) ets (fun v i => x' v i + s v i) = p.cost (flat dim kept x) + c := by
  induction w with
  | first f h =>
    obtain ⟨d, n, nd, c, l, a⟩ := marginalize_min f h
    obtain ⟨_, e, _, hd, _⟩ := marginalize_ok h
    exact ⟨d, n, nd, ⟨_, _, hd.append.2⟩, c, by simpa using l, by simpa using a⟩
  | @next p p₂ A B C D ets ets₂ s δ t₀ L' sys top env before hnew hdep₁ hdep₂ hlin hdim hprior hrest herr f h ih =>
    obtain ⟨_, n1, nd1, _, c₁, l1, a1⟩ := ih
    obtain ⟨d2, n2, nd2, c₂, l2, a2⟩ := marginalize_min f h
    obtain ⟨_, e, _, hd, _⟩ := marginalize_ok h
    have hsplit (x : Nat → Nat → K) : L.cost dim edim (A ++ B ++ (C ++ D)) (ets ++ ets₂) x =
        L.cost dim edim (A ++ (B ++ C)) ets x + L.cost dim edim (B ++ (C ++ D)) ets₂ x := by
      have e1 := lincost_drop dim edim L (us := A ++ (B ++ C)) (vs := D) (ws := []) hdep₁ x
      have e2 := lincost_drop dim edim L (us := []) (vs := A) (ws := B ++ (C ++ D)) hdep₂ x
      simp only [List.append_nil, List.nil_append, List.append_assoc] at e1 e2 ⊢
      rw [← e1, ← e2]
      unfold Terms.cost
      rw [List.map_append, List.sum_append]
    have h2cost (x : Nat → Nat → K) : L'.cost dim edim (B ++ (C ++ D)) (t₀ :: ets₂) x =
        p.cost (flat dim (B ++ C) fun v i => x v i + δ v i) + L.cost dim edim (B ++ (C ++ D)) ets₂ (fun v i => x v i + (s v i + δ v i)) := by
      unfold Terms.cost
      rw [List.map_cons, List.sum_cons]
      congr 1
      · unfold Prior.cost
        rw [hdim]
        refine Finset.sum_congr rfl fun r hr => ?_
        have : L'.err dim (B ++ (C ++ D)) x t₀ r = p.error (flat dim (B ++ C) fun v i => x v i + δ v i) r := by
          unfold Terms.err
          have h0 : (D.map fun v => ∑ c ∈ Finset.range (dim v), L'.lin t₀ r v c * x v c).sum = 0 := by
            refine List.sum_eq_zero fun y hy => ?_
            obtain ⟨v, hv, rfl⟩ := List.mem_map.1 hy
            exact Finset.sum_eq_zero fun c hc => by rw [hrest r (Finset.mem_range.1 hr) v hv c (Finset.mem_range.1 hc), zero_mul]
          rw [← List.append_assoc, List.map_append, List.sum_append, h0, add_zero,
            prior_blocks dim p (L'.lin t₀) x r (B ++ C) 0 hprior, herr r (Finset.mem_range.1 hr)]
          simp only [Prior.error, Nat.zero_add, flat_add, mul_add, Finset.sum_add_distrib]
          rw [n1]
          ring
        rw [this]
      · congr 1
        refine List.map_congr_left fun t ht => Finset.sum_congr rfl fun r hr => ?_
        obtain ⟨hb, hl⟩ := hlin t ht r (Finset.mem_range.1 hr)
        have : L'.err dim (B ++ (C ++ D)) x t r = L.err dim (B ++ (C ++ D)) (fun v i => x v i + (s v i + δ v i)) t r := by
          have e1 : L'.err dim (B ++ (C ++ D)) x t r = L.err dim (B ++ (C ++ D)) x t r + L.rhs t r - L'.rhs t r := by
            unfold Terms.err
            have : ((B ++ (C ++ D)).map fun v => ∑ c ∈ Finset.range (dim v), L'.lin t r v c * x v c) =
                (B ++ (C ++ D)).map fun v => ∑ c ∈ Finset.range (dim v), L.lin t r v c * x v c :=
              List.map_congr_left fun v hv => Finset.sum_congr rfl fun c hc => by rw [hl v hv c (Finset.mem_range.1 hc)]
            rw [this]
            ring
          rw [e1, hb]
          unfold Terms.err
          have e2 : ((B ++ (C ++ D)).map fun v => ∑ c ∈ Finset.range (dim v), L.lin t r v c * (x v c + (s v c + δ v c))).sum =
              ((B ++ (C ++ D)).map fun v => ∑ c ∈ Finset.range (dim v), L.lin t r v c * x v c).sum +
                ((B ++ (C ++ D)).map fun v => ∑ c ∈ Finset.range (dim v), L.lin t r v c * (s v c + δ v c)).sum := by
            rw [← List.sum_map_add]
            congr 1
            refine List.map_congr_left fun v _ => ?_
            rw [← Finset.sum_add_distrib]
            exact Finset.sum_congr rfl fun c _ => mul_add _ _ _
          rw [e2]
          ring
        rw [this]
    have nd : (A ++ B ++ (C ++ D)).Nodup := by
      rw [← List.append_assoc, List.append_assoc A B C]
      refine List.nodup_append.2 ⟨nd1, ?_, fun v hv w hw => ?_⟩
      · exact (List.nodup_append.1 (List.nodup_append.1 nd2).2.1).2.1
      · rintro rfl; exact hnew v hw hv
    refine ⟨d2, n2, nd, ⟨_, _, hd.append.2⟩, c₁ + c₂, ?_, ?_⟩
    · intro x
      rw [hsplit]
      have e2 := l2 x
      rw [h2cost] at e2
      have e1 := l1 fun v i => x v i + δ v i
      have e3 : (fun v i => x v i + δ v i + s v i) = fun v i => x v i + (s v i + δ v i) := by funext v i; ring
      rw [e3] at e1
      linarith
    · intro x
      obtain ⟨z, hz, hzc⟩ := a2 x
      rw [h2cost] at hzc
      obtain ⟨y, hy, hyc⟩ := a1 fun v i => z v i + δ v i
      have e3 : (fun v i => y v i + s v i) = fun v i => (y v i - δ v i) + (s v i + δ v i) := by funext v i; ring
      rw [e3] at hyc
      let w : Nat → Nat → K := fun v => if v ∈ D then z v else fun i => y v i - δ v i
      have hwD : ∀ v ∈ D, w v = z v := fun v hv => if_pos hv
      have hw : ∀ v ∈ A ++ (B ++ C), w v = fun i => y v i - δ v i := fun v hv => if_neg fun hD => hnew v hD hv
      have hwz : ∀ v ∈ B ++ (C ++ D), w v = z v := by
        intro v hv
        by_cases hD : v ∈ D
        · exact hwD v hD
        · have hBC : v ∈ B ++ C := by
            rw [← List.append_assoc] at hv
            exact (List.mem_append.1 hv).resolve_right hD
          rw [hw v (List.mem_append_right _ hBC), hy v hBC]
          funext i
          ring
      refine ⟨w, fun v hv => by rw [hwz v (List.mem_append_right _ hv), hz v hv], ?_⟩
      rw [hsplit, lincost_congr dim edim L (vs := A ++ (B ++ C)) (y := fun v i => (y v i - δ v i) + (s v i + δ v i)) (fun v hv => by rw [hw v hv]), hyc,
        lincost_congr dim edim L (vs := B ++ (C ++ D)) (y := fun v i => z v i + (s v i + δ v i)) (fun v hv => by rw [hwz v hv])]
      linarith

/-- **C98** for any number of calls. A window is reduced call by call: each call removes variables with the prior of the call before and new terms, which depend on the remaining and on new variables
only; between the calls the variables move. Up to a constant the last prior has at all values of the remaining variables the cost of the prior that one call removing all the removed variables with
all terms returns, and the two priors have the same information matrix `RᵀR`. -/
theorem C98_sliding_window {dim edim : Nat → Nat} {L : Terms K} {p pJ : Prior K} {gone kept ets : List Nat} {s : Nat → Nat → K} (w : Window dim edim L p gone kept ets s)
    {sys : Env → Option (Fact K)} {top : Nat} {env : Env} (f : Faithful dim edim L (gone ++ kept) ets gone.length sys)
    (h : (marginalize dim edim sys (gone ++ kept) ets gone.length top env).prior = .ok pJ) :
    p.dvs = kept ∧ pJ.dvs = kept ∧ p.n = (kept.map dim).sum ∧ pJ.n = (kept.map dim).sum ∧
      (∃ c, ∀ x, p.cost (flat dim kept x) = pJ.cost (flat dim kept fun v i => x v i + s v i) + c) ∧
      ∀ i j, i < p.n → j < p.n → ∑ k ∈ Finset.range p.n, p.R k i * p.R k j = ∑ k ∈ Finset.range pJ.n, pJ.R k i * pJ.R k j := by
  obtain ⟨d1, n1, nd, ⟨pos, b, hl⟩, c₁, l1, a1⟩ := window_min w
  obtain ⟨dJ, nJ, _, cJ, lJ, aJ⟩ := marginalize_min f h
  have main : ∀ x, p.cost (flat dim kept x) = pJ.cost (flat dim kept fun v i => x v i + s v i) + (cJ - c₁) := by
    intro x
    refine le_antisymm ?_ ?_
    · obtain ⟨y, hy, hyc⟩ := aJ fun v i => x v i + s v i
      have e1 := l1 fun v i => y v i - s v i
      have e2 : (fun v i => y v i - s v i + s v i) = y := by funext v i; ring
      rw [e2, hyc] at e1
      have e3 : flat dim kept (fun v i => y v i - s v i) = flat dim kept x := by
        refine flat_congr dim kept fun v hv => ?_
        funext i
        rw [hy v hv]
        ring
      rw [e3] at e1
      linarith
    · obtain ⟨z, hz, hzc⟩ := a1 x
      have e1 := lJ fun v i => z v i + s v i
      rw [hzc] at e1
      have e3 : flat dim kept (fun v i => z v i + s v i) = flat dim kept fun v i => x v i + s v i := by
        refine flat_congr dim kept fun v hv => ?_
        funext i
        rw [hz v hv]
      rw [e3] at e1
      linarith
  refine ⟨d1, dJ, n1, nJ, ⟨_, main⟩, ?_⟩
  refine information_eq p pJ (n1.trans nJ.symm) (flat dim kept s) (cJ - c₁) fun u => ?_
  have hu := flat_surj dim pos kept b hl u
  rw [cost_congr p (fun j hj => (hu j (n1 ▸ hj)).symm), main]
  refine congrArg (· + _) (cost_congr pJ fun j hj => ?_)
  rw [flat_add, hu j (nJ ▸ hj)]

/-! Three calls that meet the hypotheses: the window of `Chain` goes on. The third call removes variable 2 with the prior of the second call (term 10) and the term `3/4 x₃ = 5`, after all variables
have moved by 1. -/
section example_

/-- The terms of `exL` and `3/4 x₃ = 5`. -/
def exM : Terms ℚ :=
  ⟨fun t _ v _ => rows [[1, -1, 0, 0], [0, 1, -1, 0], [0, 0, 1, 0], [0, 0, 3/4, 5/4], [0, 0, 0, 3/4]] t v, fun t _ => entries [1, 2, 3, 4, 5] t⟩

/-- The terms of the third call. -/
def exM'' : Terms ℚ :=
  ⟨fun t r v c => if t = 10 then if c = 0 then rows [[1, -1, 0], [0, 5/4, 3/4], [0, 0, 1]] (1 + r) (v - 1) else 0 else rows [[], [], [], [], [0, 0, 0, 3/4]] t v,
    fun t r => if t = 10 then entries [-39/20, -13/5] r else 2⟩

def exEdim₃ : Nat → Nat := fun t => if t = 9 then 2 else if t = 10 then 2 else 1
def exF₃ : Fact ℚ := ⟨3, 2, rows [[5/4, 3/4], [0, 5/4], [0, 0]], entries [-39/20, -22/25, 79/25]⟩
def exFJ₃ : Fact ℚ := ⟨5, 4, rows [[1, -1, 0, 0], [0, 1, -1, 0], [0, 0, 5/4, 3/4], [0, 0, 0, 5/4], [0, 0, 0, 0]], entries [1, 2, 24/5, 103/25, 79/25]⟩

theorem ex_window₁ : Faithful exDim exEdim₃ exM [0, 1, 2] [0, 1, 2] 1 (fun _ => some exF₁) := by
  rintro e f ⟨c0, c1, c2, -⟩ ⟨r0, r1, r2, -⟩ hf
  obtain rfl := Option.some.inj hf
  refine ⟨by decide +kernel, by decide +kernel, ⟨rows [[1, -1, 0], [0, 1, -1], [0, 0, 1]], entries [1, 2, 3], rows exOne, ?_, ?_⟩, by decide +kernel⟩
  · exact isQR_rows 3 3 _ _ _ _ _ (by decide) (by decide) (by decide +kernel) (by decide +kernel) (by decide +kernel) (by decide +kernel) (by decide +kernel)
  · simp only [List.mem_cons, List.not_mem_nil, or_false]
    rintro t (rfl | rfl | rfl) r hr <;> obtain rfl : r = 0 := Nat.lt_one_iff.1 hr <;> simp only [r0, r1, r2] <;> refine ⟨by decide +kernel, ?_⟩ <;>
      rintro v (rfl | rfl | rfl) c hc <;> obtain rfl : c = 0 := Nat.lt_one_iff.1 hc <;> simp only [c0, c1, c2] <;> decide +kernel

theorem ex_window₂ : Faithful exDim exEdim₃ exL' [1, 2, 3] [9, 3] 1 (fun _ => some exF₂) := by
  rintro e f ⟨c0, c1, c2, -⟩ ⟨r0, r1, -⟩ hf
  obtain rfl := Option.some.inj hf
  refine ⟨by decide +kernel, by decide +kernel, ⟨rows [[1, -1, 0], [0, 1, 0], [0, 3/4, 5/4]], entries [3, 1, -5/4],
    rows [[1, 0, 0], [0, 4/5, -3/5], [0, 3/5, 4/5]], ?_, ?_⟩, by decide +kernel⟩
  · exact isQR_rows 3 3 _ _ _ _ _ (by decide) (by decide) (by decide +kernel) (by decide +kernel) (by decide +kernel) (by decide +kernel) (by decide +kernel)
  · simp only [List.mem_cons, List.not_mem_nil, or_false]
    rintro t (rfl | rfl) r hr
    · have hr' : r < 2 := hr
      obtain rfl | rfl : r = 0 ∨ r = 1 := by omega
      all_goals
        simp only [r0]
        refine ⟨by decide +kernel, ?_⟩
        rintro v (rfl | rfl | rfl) c hc <;> obtain rfl : c = 0 := Nat.lt_one_iff.1 hc <;> simp only [c0, c1, c2] <;> decide +kernel
    · obtain rfl : r = 0 := Nat.lt_one_iff.1 hr
      simp only [r1]
      refine ⟨by decide +kernel, ?_⟩
      rintro v (rfl | rfl | rfl) c hc <;> obtain rfl : c = 0 := Nat.lt_one_iff.1 hc <;> simp only [c0, c1, c2] <;> decide +kernel

theorem ex_window₃ : Faithful exDim exEdim₃ exM'' [2, 3] [10, 4] 1 (fun _ => some exF₃) := by
  rintro e f ⟨c0, c1, -⟩ ⟨r0, r1, -⟩ hf
  obtain rfl := Option.some.inj hf
  refine ⟨by decide +kernel, by decide +kernel, ⟨rows [[5/4, 3/4], [0, 1], [0, 3/4]], entries [-39/20, -13/5, 2],
    rows [[1, 0, 0], [0, 4/5, -3/5], [0, 3/5, 4/5]], ?_, ?_⟩, by decide +kernel⟩
  · exact isQR_rows 3 2 _ _ _ _ _ (by decide) (by decide) (by decide +kernel) (by decide +kernel) (by decide +kernel) (by decide +kernel) (by decide +kernel)
  · simp only [List.mem_cons, List.not_mem_nil, or_false]
    rintro t (rfl | rfl) r hr
    · have hr' : r < 2 := hr
      obtain rfl | rfl : r = 0 ∨ r = 1 := by omega
      all_goals
        simp only [r0]
        refine ⟨by decide +kernel, ?_⟩
        rintro v (rfl | rfl) c hc <;> obtain rfl : c = 0 := Nat.lt_one_iff.1 hc <;> simp only [c0, c1] <;> decide +kernel
    · obtain rfl : r = 0 := Nat.lt_one_iff.1 hr
      simp only [r1]
      refine ⟨by decide +kernel, ?_⟩
      rintro v (rfl | rfl) c hc <;> obtain rfl : c = 0 := Nat.lt_one_iff.1 hc <;> simp only [c0, c1] <;> decide +kernel

theorem ex_windowJ : Faithful exDim exEdim₃ exM [0, 1, 2, 3] [0, 1, 2, 3, 4] 3 (fun _ => some exFJ₃) := by
  rintro e f ⟨c0, c1, c2, c3, -⟩ ⟨r0, r1, r2, r3, r4, -⟩ hf
  obtain rfl := Option.some.inj hf
  refine ⟨by decide +kernel, by decide +kernel, ⟨rows [[1, -1, 0, 0], [0, 1, -1, 0], [0, 0, 1, 0], [0, 0, 3/4, 5/4], [0, 0, 0, 3/4]], entries [1, 2, 3, 4, 5],
    rows [[1, 0, 0, 0, 0], [0, 1, 0, 0, 0], [0, 0, 4/5, -12/25, 9/25], [0, 0, 3/5, 16/25, -12/25], [0, 0, 0, 3/5, 4/5]], ?_, ?_⟩, by decide +kernel⟩
  · exact isQR_rows 5 4 _ _ _ _ _ (by decide) (by decide) (by decide +kernel) (by decide +kernel) (by decide +kernel) (by decide +kernel) (by decide +kernel)
  · simp only [List.mem_cons, List.not_mem_nil, or_false]
    rintro t (rfl | rfl | rfl | rfl | rfl) r hr <;> obtain rfl : r = 0 := Nat.lt_one_iff.1 hr <;> simp only [r0, r1, r2, r3, r4] <;> refine ⟨by decide +kernel, ?_⟩ <;>
      rintro v (rfl | rfl | rfl | rfl) c hc <;> obtain rfl : c = 0 := Nat.lt_one_iff.1 hc <;> simp only [c0, c1, c2, c3] <;> decide +kernel

theorem ex_window : Window exDim exEdim₃ exM (cut exF₃ 1 [3]) [0, 1, 2] [3] [0, 1, 2, 3, 4] fun v _ => 0 + (v : ℚ) + 1 := by
  have w₁ : Window exDim exEdim₃ exM (cut exF₁ 1 [1, 2]) [0] [1, 2] [0, 1, 2] fun _ _ => 0 := .first (A := [0]) (top := 0) (env := exEnv) ex_window₁ rfl
  have w₂ : Window exDim exEdim₃ exM (cut exF₂ 1 [2, 3]) [0, 1] [2, 3] [0, 1, 2, 3] fun v _ => 0 + (v : ℚ) := by
    refine .next (A := [0]) (B := [1]) (C := [2]) (D := [3]) (ets := [0, 1, 2]) (ets₂ := [3]) (t₀ := 9) (L' := exL') (δ := fun v _ => (v : ℚ)) (top := 0) (env := exEnv) w₁
      ?_ ?_ ?_ ?_ rfl ?_ ?_ ?_ ex_window₂ rfl
    · decide +kernel
    · decide +kernel
    · decide +kernel
    · decide +kernel
    · simp only [List.cons_append, List.nil_append, List.map_cons, List.map_nil, Prior.jacobian, exDim, List.cons.injEq, Prod.mk.injEq, true_and, and_true,
        Finset.sum_range_one, mul_ite, mul_one, mul_zero]
      refine ⟨?_, ?_⟩ <;> funext r c <;> simp only [exL', cut, exF₁, eq_comm] <;> rfl
    · decide +kernel
    · decide +kernel
  refine .next (A := [0, 1]) (B := [2]) (C := [3]) (D := []) (ets := [0, 1, 2, 3]) (ets₂ := [4]) (t₀ := 10) (L' := exM'') (δ := fun _ _ => (1 : ℚ)) (top := 0) (env := exEnv) w₂
    ?_ ?_ ?_ ?_ rfl ?_ ?_ ?_ ex_window₃ rfl
  · decide +kernel
  · decide +kernel
  · decide +kernel
  · decide +kernel
  · simp only [List.cons_append, List.nil_append, List.map_cons, List.map_nil, Prior.jacobian, exDim, List.cons.injEq, Prod.mk.injEq, true_and, and_true,
      Finset.sum_range_one, mul_ite, mul_one, mul_zero]
    refine ⟨?_, ?_⟩ <;> funext r c <;> simp only [exM'', cut, exF₂, eq_comm] <;> rfl
  · decide +kernel
  · decide +kernel

example : ∃ pJ : Prior ℚ, (marginalize exDim exEdim₃ (fun _ => some exFJ₃) [0, 1, 2, 3] [0, 1, 2, 3, 4] 3 0 exEnv).prior = .ok pJ ∧
    ∃ c, ∀ x : Nat → Nat → ℚ, (cut exF₃ 1 [3]).cost (flat exDim [3] x) = pJ.cost (flat exDim [3] fun v i => x v i + (0 + (v : ℚ) + 1)) + c :=
  ⟨cut exFJ₃ 3 [3], rfl, (C98_sliding_window ex_window (top := 0) (env := exEnv) ex_windowJ rfl).2.2.2.2.1⟩

end example_

end Verif.Marginal
