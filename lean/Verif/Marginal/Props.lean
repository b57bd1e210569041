import Verif.Marginal.Model
import Mathlib.Algebra.Order.BigOperators.Ring.Finset
import Mathlib.Tactic.LinearCombination
import Mathlib.Tactic.Linarith
import Mathlib.Tactic.NormNum

/-! C50 (indices after marginalisation) and C49 (the prior keeps the marginal cost). -/
namespace Verif.Marginal

/-! ### C50 -/

theorem assignDvs_spec (dim : Nat → Nat) (vs : List Nat) (hn : vs.Nodup) (i base : Nat) (env : Env) (saved : List (Int × Int)) :
    (assignDvs dim vs i base env saved).2 = saved ++ vs.map (fun v => (env.blk v, env.col v)) ∧
    (assignDvs dim vs i base env saved).1.row = env.row ∧
    ∀ v, v ∉ vs → (assignDvs dim vs i base env saved).1.blk v = env.blk v ∧ (assignDvs dim vs i base env saved).1.col v = env.col v := by
  induction vs generalizing i base env saved with
  | nil => simp [assignDvs]
  | cons w vs ih =>
    rw [List.nodup_cons] at hn
    unfold assignDvs
    obtain ⟨h1, h2, h3⟩ := ih hn.2 (i + 1) (base + dim w) { env with blk := Function.update env.blk w i, col := Function.update env.col w base } (saved ++ [(env.blk w, env.col w)])
    refine ⟨?_, h2, ?_⟩
    · rw [h1, List.append_assoc, List.map_cons]
      congr 1
      rw [List.singleton_append]
      congr 1
      apply List.map_congr_left
      intro v hv
      have : v ≠ w := fun h => hn.1 (h ▸ hv)
      simp [Function.update_of_ne this]
    · intro v hv
      simp only [List.mem_cons, not_or] at hv
      obtain ⟨h4, h5⟩ := h3 v hv.2
      rw [h4, h5]
      simp [Function.update_of_ne hv.1]

theorem assignEts_spec (edim : Nat → Nat) (ts : List Nat) (hn : ts.Nodup) (base : Nat) (env : Env) (saved : List Nat) :
    (assignEts edim ts base env saved).2 = saved ++ ts.map env.row ∧ (assignEts edim ts base env saved).1.blk = env.blk ∧ (assignEts edim ts base env saved).1.col = env.col ∧
    ∀ t, t ∉ ts → (assignEts edim ts base env saved).1.row t = env.row t := by
  induction ts generalizing base env saved with
  | nil => simp [assignEts]
  | cons w ts ih =>
    rw [List.nodup_cons] at hn
    unfold assignEts
    obtain ⟨h1, h2, h3, h4⟩ := ih hn.2 (base + edim w) { env with row := Function.update env.row w base } (saved ++ [env.row w])
    refine ⟨?_, h2, h3, ?_⟩
    · rw [h1, List.append_assoc, List.map_cons]
      congr 1
      rw [List.singleton_append]
      congr 1
      apply List.map_congr_left
      intro v hv
      have : v ≠ w := fun h => hn.1 (h ▸ hv)
      simp [Function.update_of_ne this]
    · intro t ht
      simp only [List.mem_cons, not_or] at ht
      rw [h4 t ht.2]
      simp [Function.update_of_ne ht.1]

theorem restoreDvs_spec (f g : Nat → Int) (vs : List Nat) (env : Env) :
    (restoreDvs vs (vs.map fun v => (f v, g v)) env).row = env.row ∧
    (∀ v, v ∉ vs → (restoreDvs vs (vs.map fun v => (f v, g v)) env).blk v = env.blk v ∧ (restoreDvs vs (vs.map fun v => (f v, g v)) env).col v = env.col v) ∧
    (∀ v ∈ vs, (restoreDvs vs (vs.map fun v => (f v, g v)) env).blk v = f v ∧ (restoreDvs vs (vs.map fun v => (f v, g v)) env).col v = g v) := by
  induction vs generalizing env with
  | nil => simp [restoreDvs]
  | cons w vs ih =>
    rw [List.map_cons]
    unfold restoreDvs
    obtain ⟨h1, h2, h3⟩ := ih { env with blk := Function.update env.blk w (f w, g w).1, col := Function.update env.col w (f w, g w).2 }
    refine ⟨h1, ?_, ?_⟩
    · intro v hv
      simp only [List.mem_cons, not_or] at hv
      obtain ⟨h4, h5⟩ := h2 v hv.2
      rw [h4, h5]
      simp [Function.update_of_ne hv.1]
    · intro v hv
      by_cases hvs : v ∈ vs
      · exact h3 v hvs
      · have hvw : v = w := by simpa [hvs] using hv
        subst hvw
        obtain ⟨h4, h5⟩ := h2 v hvs
        rw [h4, h5]
        simp

theorem restoreEts_spec (f : Nat → Nat) (ts : List Nat) (env : Env) :
    (restoreEts ts (ts.map f) env).blk = env.blk ∧ (restoreEts ts (ts.map f) env).col = env.col ∧
    (∀ t, t ∉ ts → (restoreEts ts (ts.map f) env).row t = env.row t) ∧ ∀ t ∈ ts, (restoreEts ts (ts.map f) env).row t = f t := by
  induction ts generalizing env with
  | nil => simp [restoreEts]
  | cons w ts ih =>
    rw [List.map_cons]
    unfold restoreEts
    obtain ⟨h1, h2, h3, h4⟩ := ih { env with row := Function.update env.row w (f w) }
    refine ⟨h1, h2, ?_, ?_⟩
    · intro t ht
      simp only [List.mem_cons, not_or] at ht
      rw [h3 t ht.2]
      simp [Function.update_of_ne ht.1]
    · intro t ht
      by_cases hts : t ∈ ts
      · exact h4 t hts
      · have : t = w := by simpa [hts] using ht
        subst this
        rw [h3 t hts]
        simp

/-- **C50, normal return.** Whenever `marginalize` returns a prior, every block index, column base and row base, of the variables and terms in the lists and of all others, is what it was before.
What is missing is the exceptional exit: see `C50_exception_counterexample`. -/
theorem C50_indices_partial {K : Type} (dim edim : Nat → Nat) (system : Env → Option (Fact K)) (dvs ets : List Nat) (remove top : Nat) (env : Env) (p : Prior K)
    (h : (marginalize dim edim system dvs ets remove top env).prior = .ok p) : (marginalize dim edim system dvs ets remove top env).env = env := by
  unfold marginalize at h ⊢
  by_cases h1 : dvs.Nodup
  · by_cases h2 : ets.Nodup
    · rw [if_neg (by simpa using h1), if_neg (by simpa using h2)] at h ⊢
      obtain ⟨a1, a2, a3⟩ := assignDvs_spec dim dvs h1 0 0 env []
      generalize assignDvs dim dvs 0 0 env [] = a at a1 a2 a3 h ⊢
      obtain ⟨b1, b2, b3, b4⟩ := assignEts_spec edim ets h2 0 a.1 []
      dsimp only at h ⊢
      generalize assignEts edim ets 0 a.1 [] = b at b1 b2 b3 b4 h ⊢
      cases hs : system b.1 with
      | none => rw [hs] at h; cases h
      | some f =>
        rw [hs] at h
        dsimp only at h ⊢
        split_ifs at h ⊢
        show restoreEts ets b.2 (restoreDvs dvs a.2 b.1) = env
        rw [List.nil_append] at a1 b1
        rw [a1, b1, a2]
        obtain ⟨c1, c2, c3⟩ := restoreDvs_spec env.blk env.col dvs b.1
        generalize restoreDvs dvs (dvs.map fun v => (env.blk v, env.col v)) b.1 = c at c1 c2 c3 ⊢
        obtain ⟨d1, d2, d3, d4⟩ := restoreEts_spec env.row ets c
        generalize restoreEts ets (ets.map env.row) c = d at d1 d2 d3 d4 ⊢
        have e1 : d.blk = env.blk := by
          funext v
          rw [d1]
          by_cases hv : v ∈ dvs
          · exact (c3 v hv).1
          · rw [(c2 v hv).1, b2, (a3 v hv).1]
        have e2 : d.col = env.col := by
          funext v
          rw [d2]
          by_cases hv : v ∈ dvs
          · exact (c3 v hv).2
          · rw [(c2 v hv).2, b3, (a3 v hv).2]
        have e3 : d.row = env.row := by
          funext t
          by_cases ht : t ∈ ets
          · exact d4 t ht
          · rw [d3 t ht, c1, b4 t ht, a2]
        cases d; cases env
        simp only at e1 e2 e3
        subst e1; subst e2; subst e3
        rfl
    · rw [if_neg (by simpa using h1), if_pos h2] at h; cases h
  · rw [if_pos h1] at h; cases h

/-- **C50** (duplicates). A variable or an error term that occurs twice in its list makes `marginalize` throw, and no index has been changed. -/
theorem C50_duplicates {K : Type} (dim edim : Nat → Nat) (system : Env → Option (Fact K)) (dvs ets : List Nat) (remove top : Nat) (env : Env)
    (h : ¬ dvs.Nodup ∨ ¬ ets.Nodup) : marginalize dim edim system dvs ets remove top env = ⟨env, .exc⟩ := by
  unfold marginalize
  by_cases h1 : dvs.Nodup
  · rw [if_neg (by simpa using h1), if_pos (h.resolve_left (by simpa using h1))]
  · rw [if_pos h1]

/-- The same error term given twice meets the hypothesis. -/
example : ¬ ([0, 1] : List Nat).Nodup ∨ ¬ ([2, 0, 2] : List Nat).Nodup := by decide

/-- **C50 fails on the exceptional exit.** Two variables of dimension one and one scalar error term: the system is underdetermined, `marginalize` throws, and the variables keep the indices 0 and 1 instead of
their own 5 and 9. -/
theorem C50_exception_counterexample :
    let env : Env := ⟨fun v => if v = 0 then 5 else 9, fun v => if v = 0 then 50 else 90, fun _ => 7⟩
    let o := marginalize (K := ℚ) (fun _ => 1) (fun _ => 1) (fun _ => some ⟨1, 2, fun _ _ => 1, fun _ => 1⟩) [0, 1] [0] 1 0 env
    (o.prior matches .exc) ∧ env.blk 0 = 5 ∧ env.blk 1 = 9 ∧ o.env.blk 0 = 0 ∧ o.env.blk 1 = 1 ∧ o.env.col 1 = 1 ∧ env.row 0 = 7 ∧ o.env.row 0 = 0 := by
  decide +kernel

/-- A call that returns a prior: one variable removed, one kept. -/
example : (marginalize (K := ℚ) (fun _ => 1) (fun _ => 2) (fun _ => some ⟨2, 2, fun _ _ => 1, fun _ => 1⟩) [0, 1] [0] 1 0 ⟨fun _ => 5, fun _ => 5, fun _ => 5⟩).prior matches .ok _ := by
  decide +kernel

/-! ### C49 -/

section cost
variable {K : Type} [Field K] [LinearOrder K] [IsStrictOrderedRing K]

/-- The squared residual `|A x - b|²` of a system with `m` rows and `n` columns. -/
def residual (m n : Nat) (A : Nat → Nat → K) (b x : Nat → K) : K :=
  ∑ i ∈ Finset.range m, (∑ j ∈ Finset.range n, A i j * x j - b i) * (∑ j ∈ Finset.range n, A i j * x j - b i)

/-- What is assumed of the Householder QR of an `m`×`n` matrix `J` and right-hand side `b`, `m ≥ n`: `J = Q R` with `Q` orthogonal, `R` upper triangular, `d = Qᵀ b`. -/
structure IsQR (m n : Nat) (J : Nat → Nat → K) (b : Nat → K) (Q R : Nat → Nat → K) (d : Nat → K) : Prop where
  le : n ≤ m
  orth : ∀ i j, i < m → j < m → ∑ k ∈ Finset.range m, Q k i * Q k j = if i = j then 1 else 0
  orth' : ∀ i j, i < m → j < m → ∑ k ∈ Finset.range m, Q i k * Q j k = if i = j then 1 else 0
  fac : ∀ i j, i < m → j < n → J i j = ∑ k ∈ Finset.range m, Q i k * R k j
  tri : ∀ i j, j < i → R i j = 0
  d : ∀ i, i < m → d i = ∑ k ∈ Finset.range m, Q k i * b k

theorem orth_norm (m : Nat) (Q : Nat → Nat → K) (h : ∀ i j, i < m → j < m → ∑ k ∈ Finset.range m, Q k i * Q k j = if i = j then 1 else 0) (v : Nat → K) :
    ∑ k ∈ Finset.range m, (∑ i ∈ Finset.range m, Q k i * v i) * (∑ i ∈ Finset.range m, Q k i * v i) = ∑ i ∈ Finset.range m, v i * v i := by
  have h1 : ∀ k ∈ Finset.range m, (∑ i ∈ Finset.range m, Q k i * v i) * (∑ i ∈ Finset.range m, Q k i * v i) = ∑ i ∈ Finset.range m, ∑ j ∈ Finset.range m, (Q k i * Q k j) * (v i * v j) := by
    intro k _
    rw [Finset.sum_mul_sum]
    exact Finset.sum_congr rfl fun i _ => Finset.sum_congr rfl fun j _ => by ring
  rw [Finset.sum_congr rfl h1, Finset.sum_comm]
  refine Finset.sum_congr rfl fun i hi => ?_
  rw [Finset.sum_comm]
  have h2 : ∀ j ∈ Finset.range m, ∑ k ∈ Finset.range m, (Q k i * Q k j) * (v i * v j) = if i = j then v i * v j else 0 := by
    intro j hj
    rw [← Finset.sum_mul, h i j (Finset.mem_range.1 hi) (Finset.mem_range.1 hj)]
    split_ifs <;> simp
  rw [Finset.sum_congr rfl h2, Finset.sum_ite_eq, if_pos hi]

/-- The residual of the system and of its triangular form are equal. -/
theorem residual_qr {m n : Nat} {J : Nat → Nat → K} {b : Nat → K} {Q R : Nat → Nat → K} {d : Nat → K} (h : IsQR m n J b Q R d) (x : Nat → K) :
    residual m n J b x = residual m n R d x := by
  unfold residual
  rw [← orth_norm m Q h.orth (fun i => ∑ j ∈ Finset.range n, R i j * x j - d i)]
  refine Finset.sum_congr rfl fun k hk => ?_
  have hk' := Finset.mem_range.1 hk
  have hb : b k = ∑ i ∈ Finset.range m, Q k i * d i := by
    have : ∀ i ∈ Finset.range m, Q k i * d i = ∑ l ∈ Finset.range m, (Q k i * Q l i) * b l := by
      intro i hi
      rw [h.d i (Finset.mem_range.1 hi), Finset.mul_sum]
      exact Finset.sum_congr rfl fun l _ => by ring
    rw [Finset.sum_congr rfl this, Finset.sum_comm]
    have h2 : ∀ l ∈ Finset.range m, ∑ i ∈ Finset.range m, (Q k i * Q l i) * b l = if k = l then b l else 0 := by
      intro l hl
      rw [← Finset.sum_mul, h.orth' k l hk' (Finset.mem_range.1 hl)]
      split_ifs <;> simp
    rw [Finset.sum_congr rfl h2, Finset.sum_ite_eq, if_pos hk]
  have hJ : ∑ j ∈ Finset.range n, J k j * x j = ∑ i ∈ Finset.range m, Q k i * ∑ j ∈ Finset.range n, R i j * x j := by
    have : ∀ j ∈ Finset.range n, J k j * x j = ∑ i ∈ Finset.range m, Q k i * (R i j * x j) := by
      intro j hj
      rw [h.fac k j hk' (Finset.mem_range.1 hj), Finset.sum_mul]
      exact Finset.sum_congr rfl fun i _ => by ring
    rw [Finset.sum_congr rfl this, Finset.sum_comm]
    exact Finset.sum_congr rfl fun i _ => by rw [Finset.mul_sum]
  have : ∑ j ∈ Finset.range n, J k j * x j - b k = ∑ i ∈ Finset.range m, Q k i * (∑ j ∈ Finset.range n, R i j * x j - d i) := by
    rw [hJ, hb, ← Finset.sum_sub_distrib]
    exact Finset.sum_congr rfl fun i _ => by ring
  rw [this]

/-- An upper triangular system with non-zero diagonal has a solution. -/
theorem tri_solve (p : Nat) (R : Nat → Nat → K) (hd : ∀ i, i < p → R i i ≠ 0) (c : Nat → K) :
    ∃ u : Nat → K, ∀ i, i < p → ∑ j ∈ Finset.range p, (if j < i then 0 else R i j) * u j = c i := by
  induction p generalizing c with
  | zero => exact ⟨fun _ => 0, by simp⟩
  | succ p ih =>
    obtain ⟨u, hu⟩ := ih (fun i hi => hd i (by omega)) (fun i => c i - R i p * (c p / R p p))
    refine ⟨Function.update u p (c p / R p p), ?_⟩
    intro i hi
    rw [Finset.sum_range_succ, Function.update_self]
    have h1 : ∑ j ∈ Finset.range p, (if j < i then 0 else R i j) * Function.update u p (c p / R p p) j = ∑ j ∈ Finset.range p, (if j < i then 0 else R i j) * u j := by
      refine Finset.sum_congr rfl fun j hj => ?_
      have : j ≠ p := by have := Finset.mem_range.1 hj; omega
      rw [Function.update_of_ne this]
    rw [h1]
    by_cases hip : i = p
    · subst hip
      have h2 : ∑ j ∈ Finset.range i, (if j < i then 0 else R i j) * u j = 0 := by
        refine Finset.sum_eq_zero fun j hj => ?_
        rw [if_pos (Finset.mem_range.1 hj), zero_mul]
      rw [h2, if_neg (lt_irrefl i), zero_add, mul_div_cancel₀ _ (hd i hi)]
    · rw [hu i (by omega), if_neg (by omega)]
      ring

/-- **C49.** Let the linearised problem be `min |J x - b|²` with `J = Q R`, and let the first `p` coordinates belong to the removed variables, with a regular factor (`R` has non-zero diagonal there: the columns of
the removed variables are independent). Then there is a constant such that for every value `v` of the kept coordinates the cost of the prior cut out of the factorisation plus the constant is the minimum of the
cost over the removed coordinates: a lower bound that is attained. -/
theorem C49_marginal_cost (m n p : Nat) (hp : p ≤ n) (J : Nat → Nat → K) (b : Nat → K) (Q R : Nat → Nat → K) (d : Nat → K) (h : IsQR m n J b Q R d) (hreg : ∀ i, i < p → R i i ≠ 0) (dvs : List Nat) :
    ∃ c, ∀ v : Nat → K,
      (∀ u : Nat → K, (cut ⟨m, n, R, d⟩ p dvs).cost v + c ≤ residual m n J b (fun j => if j < p then u j else v (j - p))) ∧
      ∃ u : Nat → K, residual m n J b (fun j => if j < p then u j else v (j - p)) = (cut ⟨m, n, R, d⟩ p dvs).cost v + c := by
  have hle := h.le
  obtain ⟨q, rfl⟩ : ∃ q, n = p + q := ⟨n - p, by omega⟩
  obtain ⟨w, rfl⟩ : ∃ w, m = (p + q) + w := ⟨m - (p + q), by omega⟩
  have hsplit : ∀ u v : Nat → K, ∀ i, ∑ j ∈ Finset.range (p + q), R i j * (if j < p then u j else v (j - p)) =
      ∑ j ∈ Finset.range p, R i j * u j + ∑ j ∈ Finset.range q, R i (p + j) * v j := by
    intro u v i
    rw [Finset.sum_range_add]
    congr 1
    · exact Finset.sum_congr rfl fun j hj => by rw [if_pos (Finset.mem_range.1 hj)]
    · exact Finset.sum_congr rfl fun j _ => by rw [if_neg (by omega), Nat.add_sub_cancel_left]
  have hres : ∀ u v : Nat → K, residual ((p + q) + w) (p + q) J b (fun j => if j < p then u j else v (j - p)) =
      (∑ i ∈ Finset.range p, (∑ j ∈ Finset.range p, R i j * u j + ∑ j ∈ Finset.range q, R i (p + j) * v j - d i) * (∑ j ∈ Finset.range p, R i j * u j + ∑ j ∈ Finset.range q, R i (p + j) * v j - d i)) +
      (cut ⟨(p + q) + w, p + q, R, d⟩ p dvs).cost v + ∑ i ∈ Finset.range w, d (p + q + i) * d (p + q + i) := by
    intro u v
    rw [residual_qr h]
    unfold residual
    rw [Finset.sum_range_add, Finset.sum_range_add]
    congr 1
    · congr 1
      · exact Finset.sum_congr rfl fun i _ => by rw [hsplit]
      · unfold Prior.cost Prior.error cut
        simp only [Nat.add_sub_cancel_left]
        refine Finset.sum_congr rfl fun i _ => ?_
        rw [hsplit]
        have : ∑ j ∈ Finset.range p, R (p + i) j * u j = 0 := Finset.sum_eq_zero fun j hj => by rw [h.tri (p + i) j (by have := Finset.mem_range.1 hj; omega), zero_mul]
        rw [this]
        ring
    · refine Finset.sum_congr rfl fun i _ => ?_
      have : ∑ j ∈ Finset.range (p + q), R (p + q + i) j * (if j < p then u j else v (j - p)) = 0 :=
        Finset.sum_eq_zero fun j hj => by rw [h.tri (p + q + i) j (by have := Finset.mem_range.1 hj; omega), zero_mul]
      rw [this]
      ring
  refine ⟨∑ i ∈ Finset.range w, d (p + q + i) * d (p + q + i), fun v => ⟨?_, ?_⟩⟩
  · intro u
    rw [hres u v]
    have := Finset.sum_nonneg (s := Finset.range p) fun i _ => mul_self_nonneg (∑ j ∈ Finset.range p, R i j * u j + ∑ j ∈ Finset.range q, R i (p + j) * v j - d i)
    linarith
  · obtain ⟨u, hu⟩ := tri_solve p R hreg (fun i => d i - ∑ j ∈ Finset.range q, R i (p + j) * v j)
    refine ⟨u, ?_⟩
    rw [hres u v]
    have h0 : ∀ i ∈ Finset.range p, (∑ j ∈ Finset.range p, R i j * u j + ∑ j ∈ Finset.range q, R i (p + j) * v j - d i) * (∑ j ∈ Finset.range p, R i j * u j + ∑ j ∈ Finset.range q, R i (p + j) * v j - d i) = 0 := by
      intro i hi
      have h1 := hu i (Finset.mem_range.1 hi)
      have h2 : ∑ j ∈ Finset.range p, (if j < i then 0 else R i j) * u j = ∑ j ∈ Finset.range p, R i j * u j := by
        refine Finset.sum_congr rfl fun j _ => ?_
        split_ifs with hlt
        · rw [h.tri i j hlt]
        · rfl
      rw [h2] at h1
      rw [h1]
      ring
    rw [Finset.sum_eq_zero h0]
    ring

/-- The loop numbers the variables in list order: variable `k` of the list gets block index `i + k` and the column base `base` plus the dimensions before it. -/
theorem assignDvs_index (dim : Nat → Nat) (vs : List Nat) (hn : vs.Nodup) (i base : Nat) (env : Env) (saved : List (Int × Int)) (k : Nat) (hk : k < vs.length) :
    (assignDvs dim vs i base env saved).1.blk vs[k] = ((i + k : Nat) : Int) ∧ (assignDvs dim vs i base env saved).1.col vs[k] = ((base + ((vs.take k).map dim).sum : Nat) : Int) := by
  induction vs generalizing i base env saved k with
  | nil => simp at hk
  | cons w vs ih =>
    rw [List.nodup_cons] at hn
    unfold assignDvs
    cases k with
    | zero =>
      obtain ⟨_, _, h3⟩ := assignDvs_spec dim vs hn.2 (i + 1) (base + dim w) { env with blk := Function.update env.blk w i, col := Function.update env.col w base } (saved ++ [(env.blk w, env.col w)])
      obtain ⟨h4, h5⟩ := h3 w hn.1
      simp only [List.getElem_cons_zero]
      rw [h4, h5]
      simp
    | succ k =>
      obtain ⟨h4, h5⟩ := ih hn.2 (i + 1) (base + dim w) { env with blk := Function.update env.blk w i, col := Function.update env.col w base } (saved ++ [(env.blk w, env.col w)]) k (by simpa using hk)
      simp only [List.getElem_cons_succ, List.take_succ_cons, List.map_cons, List.sum_cons]
      rw [h4, h5]
      constructor <;> congr 1 <;> omega

/-- **C49 for the whole call.** Suppose that for every numbering of the variables the factorisation is a QR decomposition of the Jacobian and right-hand side of that numbering, with one column per
dimension, and is regular on the removed variables. If `marginalize` returns a prior, then the system was built with the variables numbered in the order of the list, the prior is about the variables after the
first `remove`, and up to a constant its cost is the minimum of the linearised cost over the removed variables. -/
theorem C49_marginalize (dim edim : Nat → Nat) (system : Env → Option (Fact K)) (J : Env → Nat → Nat → K) (b : Env → Nat → K) (dvs ets : List Nat) (remove top : Nat) (env : Env)
    (hsys : ∀ e f, system e = some f → f.jcols = (dvs.map dim).sum ∧ (∃ Q, IsQR f.jrows f.jcols (J e) (b e) Q f.R f.d) ∧ ∀ i, i < ((dvs.take remove).map dim).sum → f.R i i ≠ 0)
    (p : Prior K) (h : (marginalize dim edim system dvs ets remove top env).prior = .ok p) :
    ∃ (e : Env) (m : Nat) (c : K),
      (∀ k, (hk : k < dvs.length) → e.blk dvs[k] = k ∧ e.col dvs[k] = (((dvs.take k).map dim).sum : Nat)) ∧
      p.dvs = dvs.drop remove ∧ p.n = ((dvs.drop remove).map dim).sum ∧
      ∀ v : Nat → K,
        (∀ u : Nat → K, p.cost v + c ≤ residual m (dvs.map dim).sum (J e) (b e) (fun j => if j < ((dvs.take remove).map dim).sum then u j else v (j - ((dvs.take remove).map dim).sum))) ∧
        ∃ u : Nat → K, residual m (dvs.map dim).sum (J e) (b e) (fun j => if j < ((dvs.take remove).map dim).sum then u j else v (j - ((dvs.take remove).map dim).sum)) = p.cost v + c := by
  have hsum : (dvs.map dim).sum = ((dvs.take remove).map dim).sum + ((dvs.drop remove).map dim).sum := by
    rw [← List.sum_append, ← List.map_append, List.take_append_drop]
  unfold marginalize at h
  by_cases h1 : dvs.Nodup
  · by_cases h2 : ets.Nodup
    · rw [if_neg (by simpa using h1), if_neg (by simpa using h2)] at h
      have a1 := assignDvs_index dim dvs h1 0 0 env []
      generalize assignDvs dim dvs 0 0 env [] = a at a1 h
      obtain ⟨b1, b2, b3, b4⟩ := assignEts_spec edim ets h2 0 a.1 []
      dsimp only at h
      generalize assignEts edim ets 0 a.1 [] = b at b1 b2 b3 b4 h
      cases hs : system b.1 with
      | none => rw [hs] at h; cases h
      | some f =>
        rw [hs] at h
        dsimp only at h
        split_ifs at h
        injection h with h
        obtain ⟨g1, ⟨Q, g2⟩, g3⟩ := hsys b.1 f hs
        obtain ⟨m, n, R, d⟩ := f
        simp only at g1 g2 g3
        subst g1
        obtain ⟨c, hc⟩ := C49_marginal_cost m _ ((dvs.take remove).map dim).sum (by omega) _ _ Q R d g2 g3 (dvs.drop remove)
        refine ⟨b.1, m, c, ?_, ?_, ?_, ?_⟩
        · intro k hk
          rw [b2, b3]
          have := a1 k hk
          simpa using this
        · rw [← h]; rfl
        · rw [← h]
          show (dvs.map dim).sum - ((dvs.take remove).map dim).sum = _
          omega
        · rw [← h]; exact hc
    · rw [if_neg (by simpa using h1), if_pos h2] at h; cases h
  · rw [if_pos h1] at h; cases h

/-- A call that meets the hypotheses: two scalar variables, the first one removed, with the system `[[1, 2], [0, 3]] x = (4, 5)`. -/
example : (∀ (e : Env) (f : Fact ℚ), (fun _ => some (⟨2, 2, fun i j => if i = 0 then (if j = 0 then 1 else 2) else (if i = 1 ∧ j = 1 then 3 else 0), fun i => if i = 0 then 4 else 5⟩ : Fact ℚ)) e = some f →
      f.jcols = (([0, 1] : List Nat).map fun _ => 1).sum ∧
      (∃ Q, IsQR f.jrows f.jcols (fun i j => if i = 0 then (if j = 0 then 1 else 2) else (if i = 1 ∧ j = 1 then 3 else 0)) (fun i => if i = 0 then 4 else 5) Q f.R f.d) ∧
      ∀ i, i < ((([0, 1] : List Nat).take 1).map fun _ => 1).sum → f.R i i ≠ 0) ∧
    ((marginalize (fun _ => 1) (fun _ => 2) (fun _ => some (⟨2, 2, fun i j => if i = 0 then (if j = 0 then 1 else 2) else (if i = 1 ∧ j = 1 then 3 else 0), fun i => if i = 0 then 4 else 5⟩ : Fact ℚ))
      [0, 1] [0] 1 0 ⟨fun _ => 5, fun _ => 5, fun _ => 5⟩).prior matches .ok _) := by
  refine ⟨?_, by decide +kernel⟩
  intro e f hf
  injection hf with hf
  subst hf
  refine ⟨rfl, ⟨fun i j => if i = j then 1 else 0, le_rfl, ?_, ?_, ?_, ?_, ?_⟩, ?_⟩
  · intro i j hi hj
    have h1 : i = 0 ∨ i = 1 := by simp only at hi; omega
    have h2 : j = 0 ∨ j = 1 := by simp only at hj; omega
    rcases h1 with rfl | rfl <;> rcases h2 with rfl | rfl <;> simp [Finset.sum_range_succ]
  · intro i j hi hj
    have h1 : i = 0 ∨ i = 1 := by simp only at hi; omega
    have h2 : j = 0 ∨ j = 1 := by simp only at hj; omega
    rcases h1 with rfl | rfl <;> rcases h2 with rfl | rfl <;> simp [Finset.sum_range_succ]
  · intro i j hi hj
    have h1 : i = 0 ∨ i = 1 := by simp only at hi; omega
    have h2 : j = 0 ∨ j = 1 := by simp only at hj; omega
    rcases h1 with rfl | rfl <;> rcases h2 with rfl | rfl <;> simp [Finset.sum_range_succ]
  · intro i j hij
    have h1 : i ≠ 0 := by omega
    by_cases h2 : i = 1
    · have : j = 0 := by omega
      subst this; simp [h2]
    · simp [h1, h2]
  · intro i hi
    have h1 : i = 0 ∨ i = 1 := by simp only at hi; omega
    rcases h1 with rfl | rfl <;> simp [Finset.sum_range_succ]
  · intro i hi
    have : i = 0 := by simpa using hi
    subst this
    simp

/-- A concrete factorisation: `J = [[3, 1], [4, 2]]`, `Q` a rotation. -/
example : IsQR 2 2 (fun i j => if i = 0 then (if j = 0 then (3 : ℚ) else 1) else (if j = 0 then 4 else 2)) (fun i => if i = 0 then 5 else 10)
    (fun i j => if i = 0 then (if j = 0 then 3/5 else -4/5) else (if j = 0 then 4/5 else 3/5)) (fun i j => if i = 0 then (if j = 0 then 5 else 11/5) else (if i = 1 ∧ j = 1 then 2/5 else 0))
    (fun i => if i = 0 then 11 else 2) := by
  refine ⟨le_rfl, ?_, ?_, ?_, ?_, ?_⟩
  · intro i j hi hj
    have h1 : i = 0 ∨ i = 1 := by omega
    have h2 : j = 0 ∨ j = 1 := by omega
    rcases h1 with rfl | rfl <;> rcases h2 with rfl | rfl <;> simp [Finset.sum_range_succ] <;> norm_num
  · intro i j hi hj
    have h1 : i = 0 ∨ i = 1 := by omega
    have h2 : j = 0 ∨ j = 1 := by omega
    rcases h1 with rfl | rfl <;> rcases h2 with rfl | rfl <;> simp [Finset.sum_range_succ] <;> norm_num
  · intro i j hi hj
    have h1 : i = 0 ∨ i = 1 := by omega
    have h2 : j = 0 ∨ j = 1 := by omega
    rcases h1 with rfl | rfl <;> rcases h2 with rfl | rfl <;> simp [Finset.sum_range_succ] <;> norm_num
  · intro i j hij
    have h1 : i ≠ 0 := by omega
    by_cases h2 : i = 1
    · have : j = 0 := by omega
      subst this; simp [h2]
    · simp [h1, h2]
  · intro i hi
    have h1 : i = 0 ∨ i = 1 := by omega
    rcases h1 with rfl | rfl <;> simp [Finset.sum_range_succ] <;> norm_num

/-- **Without independent columns the prior loses information.** A system whose removed variable does not appear, `J = [[0, 1], [0, 0]]`: the code only warns about the rank, the prior has cost 0 for every value
of the kept variable `v`, while the minimum over the removed variable is `v²`. -/
theorem C49_rank_deficient_counterexample :
    IsQR 2 2 (fun i j => if i = 0 ∧ j = 1 then (1 : ℚ) else 0) (fun _ => 0) (fun i j => if i = j then 1 else 0) (fun i j => if i = 0 ∧ j = 1 then 1 else 0) (fun _ => 0) ∧
    ∀ u v : ℚ, (cut ⟨2, 2, fun i j => if i = 0 ∧ j = 1 then (1 : ℚ) else 0, fun _ => 0⟩ 1 []).cost (fun _ => v) = 0 ∧
      residual 2 2 (fun i j => if i = 0 ∧ j = 1 then (1 : ℚ) else 0) (fun _ => 0) (fun j => if j < 1 then u else v) = v * v := by
  refine ⟨⟨le_rfl, ?_, ?_, ?_, ?_, ?_⟩, ?_⟩
  · intro i j hi hj
    have h1 : i = 0 ∨ i = 1 := by omega
    have h2 : j = 0 ∨ j = 1 := by omega
    rcases h1 with rfl | rfl <;> rcases h2 with rfl | rfl <;> simp [Finset.sum_range_succ]
  · intro i j hi hj
    have h1 : i = 0 ∨ i = 1 := by omega
    have h2 : j = 0 ∨ j = 1 := by omega
    rcases h1 with rfl | rfl <;> rcases h2 with rfl | rfl <;> simp [Finset.sum_range_succ]
  · intro i j hi hj
    have h1 : i = 0 ∨ i = 1 := by omega
    have h2 : j = 0 ∨ j = 1 := by omega
    rcases h1 with rfl | rfl <;> rcases h2 with rfl | rfl <;> simp [Finset.sum_range_succ]
  · intro i j hij
    have : i ≠ 0 := by omega
    simp [this]
  · intro i hi
    simp
  · intro u v
    constructor
    · simp [Prior.cost, Prior.error, cut]
    · simp [residual, Finset.sum_range_succ]

/-- **C49, covariance.** For a square system the matrix `R⁻¹ R⁻ᵀ` the marginalizer returns (its leading block) is the inverse of `JᵀJ`. `S` is the computed inverse of `R`. -/
theorem C49_covariance (n : Nat) (J : Nat → Nat → K) (b : Nat → K) (Q R : Nat → Nat → K) (d : Nat → K) (h : IsQR n n J b Q R d) (S : Nat → Nat → K)
    (hS : ∀ i j, i < n → j < n → ∑ k ∈ Finset.range n, R i k * S k j = if i = j then 1 else 0)
    (hS' : ∀ i j, i < n → j < n → ∑ k ∈ Finset.range n, S i k * R k j = if i = j then 1 else 0) (i j : Nat) (hi : i < n) (hj : j < n) :
    ∑ k ∈ Finset.range n, (∑ l ∈ Finset.range n, J l i * J l k) * (∑ t ∈ Finset.range n, S k t * S j t) = if i = j then 1 else 0 := by
  -- JᵀJ = RᵀR
  have hJJ : ∀ k, k < n → ∑ l ∈ Finset.range n, J l i * J l k = ∑ l ∈ Finset.range n, R l i * R l k := by
    intro k hk
    have h1 : ∀ l ∈ Finset.range n, J l i * J l k = ∑ s ∈ Finset.range n, ∑ t ∈ Finset.range n, (Q l s * Q l t) * (R s i * R t k) := by
      intro l hl
      rw [h.fac l i (Finset.mem_range.1 hl) hi, h.fac l k (Finset.mem_range.1 hl) hk, Finset.sum_mul_sum]
      exact Finset.sum_congr rfl fun s _ => Finset.sum_congr rfl fun t _ => by ring
    rw [Finset.sum_congr rfl h1, Finset.sum_comm]
    refine Finset.sum_congr rfl fun s hs => ?_
    rw [Finset.sum_comm]
    have h2 : ∀ t ∈ Finset.range n, ∑ l ∈ Finset.range n, (Q l s * Q l t) * (R s i * R t k) = if s = t then R s i * R t k else 0 := by
      intro t ht
      rw [← Finset.sum_mul, h.orth s t (Finset.mem_range.1 hs) (Finset.mem_range.1 ht)]
      split_ifs <;> simp
    rw [Finset.sum_congr rfl h2, Finset.sum_ite_eq, if_pos hs]
  have h3 : ∀ k ∈ Finset.range n, (∑ l ∈ Finset.range n, J l i * J l k) * (∑ t ∈ Finset.range n, S k t * S j t) =
      ∑ l ∈ Finset.range n, ∑ t ∈ Finset.range n, R l i * (R l k * S k t) * S j t := by
    intro k hk
    rw [hJJ k (Finset.mem_range.1 hk), Finset.sum_mul_sum]
    exact Finset.sum_congr rfl fun l _ => Finset.sum_congr rfl fun t _ => by ring
  rw [Finset.sum_congr rfl h3, Finset.sum_comm]
  have h4 : ∀ l ∈ Finset.range n, ∑ k ∈ Finset.range n, ∑ t ∈ Finset.range n, R l i * (R l k * S k t) * S j t = S j l * R l i := by
    intro l hl
    rw [Finset.sum_comm]
    have h5 : ∀ t ∈ Finset.range n, ∑ k ∈ Finset.range n, R l i * (R l k * S k t) * S j t = if l = t then R l i * S j t else 0 := by
      intro t ht
      rw [← Finset.sum_mul, ← Finset.mul_sum, hS l t (Finset.mem_range.1 hl) (Finset.mem_range.1 ht)]
      split_ifs <;> simp
    rw [Finset.sum_congr rfl h5, Finset.sum_ite_eq, if_pos hl, mul_comm]
  rw [Finset.sum_congr rfl h4, hS' j i hj hi]
  simp [eq_comm]

/-- The hypotheses of `C49_covariance` for a 1×1 system. -/
example : IsQR 1 1 (fun _ _ => (2 : ℚ)) (fun _ => 1) (fun _ _ => 1) (fun i j => if j < i then 0 else 2) (fun _ => 1) ∧
    ∀ i j, i < 1 → j < 1 → ∑ k ∈ Finset.range 1, (if k < i then 0 else (2 : ℚ)) * (1 / 2) = if i = j then 1 else 0 := by
  refine ⟨⟨le_rfl, ?_, ?_, ?_, ?_, ?_⟩, ?_⟩
  · intro i j hi hj
    have : i = j := by omega
    simp [this]
  · intro i j hi hj
    have : i = j := by omega
    simp [this]
  · intro i j hi hj; simp
  · intro i j hij; simp [hij]
  · intro i hi; simp
  · intro i j hi hj
    have h1 : i = 0 := by omega
    have h2 : j = 0 := by omega
    subst h1; subst h2
    simp

/-! ### The prior term -/

/-- Total dimension of a list of variables. -/
def dims {α : Type} (vs : List (Nat × α)) : Nat := (vs.map Prod.fst).sum

/-- **C49, the prior as an error term.** For variables whose minimal difference is affine in the update with Jacobian `M` (Euclidean variables with `M` the identity), the error after an update is exactly the error
before plus the reported Jacobian blocks times the updates. -/
theorem C49_prior_jacobian (p : Prior K) (vs : List (Nat × (Nat → K) × (Nat → Nat → K) × (Nat → K))) (hn : p.n = dims vs) (i : Nat) :
    p.error (stackDiff (vs.map fun v => (v.1, fun t => v.2.1 t + ∑ s ∈ Finset.range v.1, v.2.2.1 t s * v.2.2.2 s))) i =
      p.error (stackDiff (vs.map fun v => (v.1, v.2.1))) i +
      (List.zipWith (fun (B : Nat × (Nat → Nat → K)) v => ∑ s ∈ Finset.range B.1, B.2 i s * v.2.2.2 s) (p.jacobian (vs.map fun v => (v.1, v.2.2.1)) 0) vs).sum := by
  have key : ∀ (vs : List (Nat × (Nat → K) × (Nat → Nat → K) × (Nat → K))) (col : Nat),
      ∑ j ∈ Finset.range (dims vs), p.R i (col + j) * stackDiff (vs.map fun v => (v.1, fun t => v.2.1 t + ∑ s ∈ Finset.range v.1, v.2.2.1 t s * v.2.2.2 s)) j =
      ∑ j ∈ Finset.range (dims vs), p.R i (col + j) * stackDiff (vs.map fun v => (v.1, v.2.1)) j +
      (List.zipWith (fun (B : Nat × (Nat → Nat → K)) v => ∑ s ∈ Finset.range B.1, B.2 i s * v.2.2.2 s) (p.jacobian (vs.map fun v => (v.1, v.2.2.1)) col) vs).sum := by
    intro vs
    induction vs with
    | nil => intro col; simp [dims, Prior.jacobian]
    | cons v vs ih =>
      intro col
      have hd : dims (v :: vs) = v.1 + dims vs := by simp [dims]
      have hstep : ∀ (w : Nat × (Nat → K)) (ws : List (Nat × (Nat → K))), w.1 = v.1 → ∑ j ∈ Finset.range (v.1 + dims vs), p.R i (col + j) * stackDiff (w :: ws) j =
          ∑ j ∈ Finset.range v.1, p.R i (col + j) * w.2 j + ∑ j ∈ Finset.range (dims vs), p.R i ((col + v.1) + j) * stackDiff ws j := by
        intro w ws hw
        rw [Finset.sum_range_add]
        congr 1
        · refine Finset.sum_congr rfl fun j hj => ?_
          unfold stackDiff
          rw [if_pos (by rw [hw]; exact Finset.mem_range.1 hj)]
        · refine Finset.sum_congr rfl fun j _ => ?_
          have : stackDiff (w :: ws) (v.1 + j) = stackDiff ws j := by
            conv_lhs => unfold stackDiff
            rw [if_neg (by omega), hw, Nat.add_sub_cancel_left]
          rw [this, Nat.add_assoc]
      rw [hd, List.map_cons, List.map_cons, List.map_cons, hstep _ _ rfl, hstep _ _ rfl, ih (col + v.1)]
      rw [Prior.jacobian, List.zipWith_cons_cons, List.sum_cons]
      have h1 : ∑ j ∈ Finset.range v.1, p.R i (col + j) * (v.2.1 j + ∑ s ∈ Finset.range v.1, v.2.2.1 j s * v.2.2.2 s) =
          ∑ j ∈ Finset.range v.1, p.R i (col + j) * v.2.1 j + ∑ s ∈ Finset.range v.1, (∑ t ∈ Finset.range v.1, p.R i (col + t) * v.2.2.1 t s) * v.2.2.2 s := by
        simp only [mul_add, Finset.sum_add_distrib]
        congr 1
        simp only [Finset.mul_sum, Finset.sum_mul]
        rw [Finset.sum_comm]
        exact Finset.sum_congr rfl fun s _ => Finset.sum_congr rfl fun t _ => by ring
      simp only [h1]
      ring
  have h0 := key vs 0
  simp only [Nat.zero_add] at h0
  unfold Prior.error
  rw [hn, h0]
  ring

/-- One variable of dimension one, one of dimension two. -/
example : dims ([(1, (fun _ => 0), (fun _ _ => 1), fun _ => 1), (2, (fun _ => 0), (fun a b => if a = b then 1 else 0), fun _ => 3)] : List (Nat × (Nat → ℚ) × (Nat → Nat → ℚ) × (Nat → ℚ))) = 3 := rfl

end cost
end Verif.Marginal
