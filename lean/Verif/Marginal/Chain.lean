import Verif.Marginal.Props

/-! C98: marginalising in two calls is marginalising in one. -/
namespace Verif.Marginal

/-- The members of a list lie one after the other from `base` on: `pos` is where each begins, `len` how long it is. -/
def Laid (len pos : Nat → Nat) : List Nat → Nat → Prop
  | [], _ => True
  | v :: vs, base => pos v = base ∧ Laid len pos vs (base + len v)

/-- The linearised error terms: `e_t(x)` has in row `r` the value `∑ lin t r v c * x v c - rhs t r`, the sum over the variables `v`
and their coordinates `c`. -/
structure Terms (K : Type) where
  lin : Nat → Nat → Nat → Nat → K
  rhs : Nat → Nat → K

section
variable {K : Type} [Field K] [LinearOrder K] [IsStrictOrderedRing K]

/-- Row `r` of the linearised error of term `t`. -/
def Terms.err (dim : Nat → Nat) (L : Terms K) (dvs : List Nat) (x : Nat → Nat → K) (t r : Nat) : K :=
  (dvs.map fun v => ∑ c ∈ Finset.range (dim v), L.lin t r v c * x v c).sum - L.rhs t r

/-- The linearised cost of a list of terms. -/
def Terms.cost (dim edim : Nat → Nat) (L : Terms K) (dvs ets : List Nat) (x : Nat → Nat → K) : K :=
  (ets.map fun t => ∑ r ∈ Finset.range (edim t), L.err dim dvs x t r * L.err dim dvs x t r).sum

/-- The coordinates of some variables, one after the other. -/
def flat (dim : Nat → Nat) (dvs : List Nat) (x : Nat → Nat → K) : Nat → K := stackDiff (dvs.map fun v => (dim v, x v))

/-- What is assumed of building and factorising the system (M:98-153) for a numbering in which the variables and the terms
lie one after the other: the entries of the Jacobian and of the right-hand side are those of the terms, at the places the
numbering gives (C16), and it is factorised by a QR decomposition which is regular on the removed variables. -/
def Faithful (dim edim : Nat → Nat) (L : Terms K) (dvs ets : List Nat) (remove : Nat) (system : Env → Option (Fact K)) : Prop :=
  ∀ e f, Laid dim (fun v => (e.col v).toNat) dvs 0 → Laid edim e.row ets 0 → system e = some f →
    f.jrows = (ets.map edim).sum ∧ f.jcols = (dvs.map dim).sum ∧
    (∃ J b Q, IsQR f.jrows f.jcols J b Q f.R f.d ∧
      ∀ t ∈ ets, ∀ r < edim t, b (e.row t + r) = L.rhs t r ∧
        ∀ v ∈ dvs, ∀ c < dim v, J (e.row t + r) ((e.col v).toNat + c) = L.lin t r v c) ∧
    ∀ i, i < ((dvs.take remove).map dim).sum → f.R i i ≠ 0

end

theorem Laid.append {len pos : Nat → Nat} : ∀ {vs ws : List Nat} {b : Nat}, Laid len pos (vs ++ ws) b →
    Laid len pos vs b ∧ Laid len pos ws (b + (vs.map len).sum)
  | [], ws, b, h => ⟨trivial, by simpa using h⟩
  | v :: vs, ws, b, h => by
    obtain ⟨h1, h2⟩ := Laid.append (vs := vs) h.2
    refine ⟨⟨h.1, h1⟩, ?_⟩
    rw [List.map_cons, List.sum_cons, ← Nat.add_assoc]
    exact h2

theorem assignDvs_laid (dim : Nat → Nat) (vs : List Nat) (hn : vs.Nodup) (i base : Nat) (env : Env) (saved : List (Int × Int)) :
    Laid dim (fun v => ((assignDvs dim vs i base env saved).1.col v).toNat) vs base := by
  induction vs generalizing i base env saved with
  | nil => trivial
  | cons w vs ih =>
    rw [List.nodup_cons] at hn
    refine ⟨?_, ih hn.2 _ _ _ _⟩
    obtain ⟨_, _, h3⟩ := assignDvs_spec dim vs hn.2 (i + 1) (base + dim w)
      { env with blk := Function.update env.blk w i, col := Function.update env.col w base } (saved ++ [(env.blk w, env.col w)])
    simp only [assignDvs]
    rw [(h3 w hn.1).2]
    simp

theorem assignEts_laid (edim : Nat → Nat) (ts : List Nat) (hn : ts.Nodup) (base : Nat) (env : Env) (saved : List Nat) :
    Laid edim (assignEts edim ts base env saved).1.row ts base := by
  induction ts generalizing base env saved with
  | nil => trivial
  | cons w ts ih =>
    rw [List.nodup_cons] at hn
    refine ⟨?_, ih hn.2 _ _ _⟩
    obtain ⟨_, _, _, h4⟩ := assignEts_spec edim ts hn.2 (base + edim w) { env with row := Function.update env.row w base } (saved ++ [env.row w])
    simp only [assignEts]
    rw [h4 w hn.1]
    simp

/-- A call that returns a prior has numbered the variables and terms and cut the prior out of the factorisation. -/
theorem marginalize_ok {K : Type} {dim edim : Nat → Nat} {system : Env → Option (Fact K)} {dvs ets : List Nat} {remove top : Nat}
    {env : Env} {p : Prior K} (h : (marginalize dim edim system dvs ets remove top env).prior = .ok p) :
    dvs.Nodup ∧ ∃ e f, Laid dim (fun v => (e.col v).toNat) dvs 0 ∧ Laid edim e.row ets 0 ∧ system e = some f ∧
      p = cut f ((dvs.take remove).map dim).sum (dvs.drop remove) := by
  unfold marginalize at h
  by_cases h1 : dvs.Nodup
  · by_cases h2 : ets.Nodup
    · rw [if_neg (by simpa using h1), if_neg (by simpa using h2)] at h
      dsimp only at h
      have hd := assignDvs_laid dim dvs h1 0 0 env []
      generalize assignDvs dim dvs 0 0 env [] = a at h hd
      have ht := assignEts_laid edim ets h2 0 a.1 []
      obtain ⟨_, _, b3, _⟩ := assignEts_spec edim ets h2 0 a.1 []
      generalize assignEts edim ets 0 a.1 [] = b at h ht b3
      cases hs : system b.1 with
      | none => rw [hs] at h; cases h
      | some f =>
        rw [hs] at h
        dsimp only at h
        split_ifs at h
        injection h with h
        exact ⟨h1, b.1, f, by rw [b3]; exact hd, ht, hs, h.symm⟩
    · rw [if_neg (by simpa using h1), if_pos h2] at h; cases h
  · rw [if_pos h1] at h; cases h

section
variable {K : Type} [Field K]

theorem sum_laid (len pos : Nat → Nat) (g : Nat → K) (vs : List Nat) (b : Nat) (h : Laid len pos vs b) :
    ∑ j ∈ Finset.range (vs.map len).sum, g (b + j) = (vs.map fun v => ∑ c ∈ Finset.range (len v), g (pos v + c)).sum := by
  induction vs generalizing b with
  | nil => simp
  | cons v vs ih =>
    rw [List.map_cons, List.sum_cons, Finset.sum_range_add, List.map_cons, List.sum_cons, h.1, ← ih _ h.2]
    simp only [Nat.add_assoc]

theorem sum_flat (dim pos : Nat → Nat) (g : Nat → K) (x : Nat → Nat → K) (vs : List Nat) (b : Nat) (h : Laid dim pos vs b) :
    ∑ j ∈ Finset.range (vs.map dim).sum, g (b + j) * flat dim vs x j =
      (vs.map fun v => ∑ c ∈ Finset.range (dim v), g (pos v + c) * x v c).sum := by
  induction vs generalizing b with
  | nil => simp
  | cons v vs ih =>
    rw [List.map_cons, List.sum_cons, Finset.sum_range_add, List.map_cons, List.sum_cons, h.1, ← ih _ h.2]
    congr 1
    · refine Finset.sum_congr rfl fun j hj => ?_
      simp only [flat, List.map_cons, stackDiff]
      rw [if_pos (Finset.mem_range.1 hj)]
    · refine Finset.sum_congr rfl fun j _ => ?_
      simp only [flat, List.map_cons, stackDiff]
      rw [if_neg (by omega), Nat.add_sub_cancel_left, Nat.add_assoc]

theorem flat_append (dim : Nat → Nat) (vs ws : List Nat) (x : Nat → Nat → K) (j : Nat) :
    flat dim (vs ++ ws) x j = if j < (vs.map dim).sum then flat dim vs x j else flat dim ws x (j - (vs.map dim).sum) := by
  induction vs generalizing j with
  | nil => simp
  | cons v vs ih =>
    have ih' := ih (j - dim v)
    simp only [flat, List.map_cons, List.cons_append, stackDiff, List.sum_cons] at ih' ⊢
    by_cases h1 : j < dim v
    · rw [if_pos h1, if_pos (by omega), if_pos h1]
    · rw [if_neg h1, ih']
      by_cases h2 : j - dim v < (vs.map dim).sum
      · rw [if_pos h2, if_pos (by omega), if_neg h1]
      · rw [if_neg h2, if_neg (by omega), Nat.sub_sub]

theorem flat_add (dim : Nat → Nat) (x y : Nat → Nat → K) (vs : List Nat) (j : Nat) :
    flat dim vs (fun v i => x v i + y v i) j = flat dim vs x j + flat dim vs y j := by
  induction vs generalizing j with
  | nil => simp [flat, stackDiff]
  | cons v vs ih =>
    have := ih (j - dim v)
    simp only [flat, List.map_cons, stackDiff] at this ⊢
    split_ifs
    · rfl
    · exact this

theorem flat_congr (dim : Nat → Nat) (vs : List Nat) {x y : Nat → Nat → K} (h : ∀ v ∈ vs, x v = y v) :
    flat dim vs x = flat dim vs y := by
  unfold flat
  congr 1
  exact List.map_congr_left fun v hv => by rw [h v hv]

/-- Coordinates given as one vector belong to values of the variables. -/
theorem flat_surj (dim pos : Nat → Nat) (vs : List Nat) (b : Nat) (h : Laid dim pos vs b) (u : Nat → K) (j : Nat)
    (hj : j < (vs.map dim).sum) : flat dim vs (fun v c => u (pos v - b + c)) j = u j := by
  suffices H : ∀ (vs : List Nat) (b o : Nat), Laid dim pos vs (b + o) → ∀ j, j < (vs.map dim).sum →
      flat dim vs (fun v c => u (pos v - b + c)) j = u (o + j) by
    have := H vs b 0 h j hj
    rwa [Nat.zero_add] at this
  intro vs
  induction vs with
  | nil => intro b o _ j hj; simp at hj
  | cons v vs ih =>
    intro b o h j hj
    simp only [List.map_cons, List.sum_cons] at hj
    by_cases h1 : j < dim v
    · simp only [flat, List.map_cons, stackDiff]
      rw [if_pos h1, h.1]
      congr 1
      omega
    · have := ih b (o + dim v) (by rw [← Nat.add_assoc]; exact h.2) (j - dim v) (by omega)
      simp only [flat, List.map_cons, stackDiff] at this ⊢
      rw [if_neg h1, this]
      congr 1
      omega

end

section
variable {K : Type} [Field K] [LinearOrder K] [IsStrictOrderedRing K]

omit [LinearOrder K] [IsStrictOrderedRing K] in
theorem residual_congr (m n : Nat) (A : Nat → Nat → K) (b : Nat → K) {x y : Nat → K} (h : ∀ j < n, x j = y j) :
    residual m n A b x = residual m n A b y := by
  have : ∀ i, ∑ j ∈ Finset.range n, A i j * x j = ∑ j ∈ Finset.range n, A i j * y j := fun i =>
    Finset.sum_congr rfl fun j hj => by rw [h j (Finset.mem_range.1 hj)]
  simp only [residual, this]

omit [LinearOrder K] [IsStrictOrderedRing K] in
/-- The residual of the system is the linearised cost of the terms. -/
theorem residual_cost {dim edim : Nat → Nat} {L : Terms K} {dvs ets : List Nat} {e : Env} {J : Nat → Nat → K} {b : Nat → K}
    (hd : Laid dim (fun v => (e.col v).toNat) dvs 0) (ht : Laid edim e.row ets 0)
    (hJ : ∀ t ∈ ets, ∀ r < edim t, b (e.row t + r) = L.rhs t r ∧
        ∀ v ∈ dvs, ∀ c < dim v, J (e.row t + r) ((e.col v).toNat + c) = L.lin t r v c) (x : Nat → Nat → K) :
    residual (ets.map edim).sum (dvs.map dim).sum J b (flat dim dvs x) = L.cost dim edim dvs ets x := by
  unfold residual Terms.cost
  have h1 := sum_laid edim e.row (fun i => (∑ j ∈ Finset.range (dvs.map dim).sum, J i j * flat dim dvs x j - b i) *
    (∑ j ∈ Finset.range (dvs.map dim).sum, J i j * flat dim dvs x j - b i)) ets 0 ht
  simp only [Nat.zero_add] at h1
  rw [h1]
  congr 1
  refine List.map_congr_left fun t hmt => Finset.sum_congr rfl fun r hr => ?_
  obtain ⟨hb, hl⟩ := hJ t hmt r (Finset.mem_range.1 hr)
  have h2 := sum_flat dim (fun v => (e.col v).toNat) (J (e.row t + r)) x dvs 0 hd
  simp only [Nat.zero_add] at h2
  have h3 : ∑ j ∈ Finset.range (dvs.map dim).sum, J (e.row t + r) j * flat dim dvs x j - b (e.row t + r) = L.err dim dvs x t r := by
    rw [h2, hb, Terms.err]
    congr 2
    exact List.map_congr_left fun v hv => Finset.sum_congr rfl fun c hc => by rw [hl v hv c (Finset.mem_range.1 hc)]
  rw [h3]

/-- What C49 says about a call in terms of the values of the variables. -/
theorem marginalize_min {dim edim : Nat → Nat} {L : Terms K} {system : Env → Option (Fact K)} {rem kept ets : List Nat} {top : Nat}
    {env : Env} {p : Prior K} (hf : Faithful dim edim L (rem ++ kept) ets rem.length system)
    (h : (marginalize dim edim system (rem ++ kept) ets rem.length top env).prior = .ok p) :
    p.dvs = kept ∧ p.n = (kept.map dim).sum ∧ (rem ++ kept).Nodup ∧
    ∃ c, (∀ x, p.cost (flat dim kept x) + c ≤ L.cost dim edim (rem ++ kept) ets x) ∧
      ∀ x, ∃ x', (∀ v ∈ kept, x' v = x v) ∧ L.cost dim edim (rem ++ kept) ets x' = p.cost (flat dim kept x) + c := by
  obtain ⟨hn, e, f, hd, ht, hs, rfl⟩ := marginalize_ok h
  obtain ⟨g1, g2, ⟨J, b, Q, hqr, hJ⟩, hreg⟩ := hf e f hd ht hs
  obtain ⟨m, n, R, d⟩ := f
  simp only at g1 g2 hqr hreg
  subst g1 g2
  have hsum : ((rem ++ kept).map dim).sum = (rem.map dim).sum + (kept.map dim).sum := by rw [List.map_append, List.sum_append]
  rw [List.take_left] at hreg ⊢
  rw [List.drop_left]
  obtain ⟨c, hc⟩ := C49_marginal_cost _ _ (rem.map dim).sum (by omega) J b Q R d hqr hreg kept
  refine ⟨rfl, ?_, hn, c, ?_, ?_⟩
  · show ((rem ++ kept).map dim).sum - (rem.map dim).sum = _
    omega
  · intro x
    have := (hc (flat dim kept x)).1 (flat dim rem x)
    rw [← residual_cost hd ht hJ x]
    refine le_of_le_of_eq this (residual_congr _ _ _ _ fun j _ => ?_)
    rw [flat_append]
  · intro x
    obtain ⟨u, hu⟩ := (hc (flat dim kept x)).2
    refine ⟨fun v => if v ∈ rem then fun c => u ((e.col v).toNat - 0 + c) else x v, ?_, ?_⟩
    · intro v hv
      have : v ∉ rem := fun hr => (List.nodup_append.1 hn).2.2 v hr v hv rfl
      simp only [if_neg this]
    · rw [← hu, ← residual_cost hd ht hJ]
      refine residual_congr _ _ _ _ fun j _ => ?_
      rw [flat_append]
      by_cases hj : j < (rem.map dim).sum
      · rw [if_pos hj, if_pos hj, ← flat_surj dim (fun v => (e.col v).toNat) rem 0 hd.append.1 u j hj]
        refine congrFun (flat_congr dim rem fun v hv => ?_) j
        simp only [if_pos hv]
      · rw [if_neg hj, if_neg hj]
        refine congrFun (flat_congr dim kept fun v hv => ?_) _
        have : v ∉ rem := fun hr => (List.nodup_append.1 hn).2.2 v hr v hv rfl
        simp only [if_neg this]

omit [LinearOrder K] [IsStrictOrderedRing K] in
/-- The blocks of the prior's Jacobian for variables whose difference is their change: `R` cut into columns. -/
theorem prior_blocks (dim : Nat → Nat) (p : Prior K) (blk : Nat → Nat → Nat → K) (x : Nat → Nat → K) (r : Nat) (vs : List Nat) (col : Nat)
    (h : p.jacobian (vs.map fun v => (dim v, fun i j => if i = j then 1 else 0)) col = vs.map fun v => (dim v, fun r c => blk r v c)) :
    (vs.map fun v => ∑ c ∈ Finset.range (dim v), blk r v c * x v c).sum =
      ∑ j ∈ Finset.range (vs.map dim).sum, p.R r (col + j) * flat dim vs x j := by
  induction vs generalizing col with
  | nil => simp
  | cons v vs ih =>
    simp only [List.map_cons, Prior.jacobian, List.cons.injEq, Prod.mk.injEq, true_and] at h
    rw [List.map_cons, List.sum_cons, List.map_cons, List.sum_cons, Finset.sum_range_add, ih _ h.2]
    congr 1
    · refine Finset.sum_congr rfl fun c hc => ?_
      have h1 : (∑ t ∈ Finset.range (dim v), p.R r (col + t) * (if t = c then 1 else 0)) = blk r v c := congrFun (congrFun h.1 r) c
      rw [← h1]
      simp only [flat, List.map_cons, stackDiff, mul_ite, mul_one, mul_zero, Finset.sum_ite_eq', if_pos hc]
      rw [if_pos (Finset.mem_range.1 hc)]
    · refine Finset.sum_congr rfl fun j _ => ?_
      simp only [flat, List.map_cons, stackDiff]
      rw [if_neg (by omega), Nat.add_sub_cancel_left, Nat.add_assoc]

omit [LinearOrder K] [IsStrictOrderedRing K] in
theorem err_congr (dim : Nat → Nat) (L : Terms K) (dvs : List Nat) {x y : Nat → Nat → K} (t r : Nat) (h : ∀ v ∈ dvs, x v = y v) :
    L.err dim dvs x t r = L.err dim dvs y t r := by
  unfold Terms.err
  congr 2
  exact List.map_congr_left fun v hv => by rw [h v hv]

/-- Two priors whose costs agree up to a shift and a constant have the same information matrix `RᵀR`. -/
theorem information_eq (p q : Prior K) (hn : p.n = q.n) (s : Nat → K) (c : K)
    (h : ∀ v : Nat → K, p.cost v = q.cost (fun i => v i + s i) + c) (i j : Nat) (hi : i < p.n) (hj : j < p.n) :
    ∑ k ∈ Finset.range p.n, p.R k i * p.R k j = ∑ k ∈ Finset.range q.n, q.R k i * q.R k j := by
  -- second differences of the cost
  have key (q : Prior K) (u : Nat → K) (i j : Nat) (hi : i < q.n) (hj : j < q.n) :
      q.cost (fun l => (if l = i then 1 else 0) + (if l = j then 1 else 0) + u l) - q.cost (fun l => (if l = i then 1 else 0) + u l) -
        q.cost (fun l => (if l = j then 1 else 0) + u l) + q.cost u = 2 * ∑ k ∈ Finset.range q.n, q.R k i * q.R k j := by
    have e1 (m k : Nat) (hm : m < q.n) (u : Nat → K) : q.error (fun l => (if l = m then 1 else 0) + u l) k = q.R k m + q.error u k := by
      simp only [Prior.error, mul_add, Finset.sum_add_distrib, mul_ite, mul_one, mul_zero]
      rw [Finset.sum_ite_eq', if_pos (Finset.mem_range.2 hm)]
      ring
    have e2 (k : Nat) : q.error (fun l => (if l = i then 1 else 0) + (if l = j then 1 else 0) + u l) k = q.R k i + (q.R k j + q.error u k) := by
      rw [← e1 j k hj u, ← e1 i k hi]
      simp only [add_assoc]
    simp only [Prior.cost, e1 i _ hi, e1 j _ hj, e2]
    rw [← Finset.sum_sub_distrib, ← Finset.sum_sub_distrib, ← Finset.sum_add_distrib, Finset.mul_sum]
    exact Finset.sum_congr rfl fun k _ => by ring
  have k1 := key p (fun _ => 0) i j hi hj
  have k2 := key q s i j (hn ▸ hi) (hn ▸ hj)
  simp only [h, add_zero, zero_add] at k1
  have e4 : (fun l => s l) = s := rfl
  rw [e4] at k1
  have : (2 : K) * ∑ k ∈ Finset.range p.n, p.R k i * p.R k j = 2 * ∑ k ∈ Finset.range q.n, q.R k i * q.R k j := by
    rw [← k1, ← k2]
    ring
  exact mul_left_cancel₀ two_ne_zero this

omit [LinearOrder K] [IsStrictOrderedRing K] in
theorem cost_congr (p : Prior K) {u v : Nat → K} (h : ∀ j < p.n, u j = v j) : p.cost u = p.cost v := by
  have : ∀ i, p.error u i = p.error v i := fun i => by
    unfold Prior.error
    rw [Finset.sum_congr rfl fun j hj => by rw [h j (Finset.mem_range.1 hj)]]
  simp only [Prior.cost, this]

/-- **C98.** A window is reduced in two calls. The first removes `A` and keeps `B` and `C`, using the terms `ets₁`. The second removes `B`, using the prior of the first
call (as term `t₀`, with the Jacobian and the error it reports, C49) and the terms `ets₂`, which do not depend on `A` and may depend on new variables `D`. In between the variables may have moved
by `δ`; the terms are linear, so the second call sees the same Jacobians and the errors at the new values. Then, up to a constant, the second prior has at all values of the kept variables the cost of the
prior that one call removing `A` and `B` with all terms returns, and the two priors have the same information matrix `RᵀR`. -/
theorem C98_two_calls (dim edim : Nat → Nat) (A B C D ets₁ ets₂ : List Nat) (t₀ : Nat) (L L' : Terms K) (δ : Nat → Nat → K)
    (sys₁ sys₂ sysJ : Env → Option (Fact K)) (top₁ top₂ topJ : Nat) (env₁ env₂ envJ : Env) (p₁ p₂ pJ : Prior K)
    (hdep₁ : ∀ t ∈ ets₁, ∀ r < edim t, ∀ v ∈ D, ∀ c < dim v, L.lin t r v c = 0)
    (hdep₂ : ∀ t ∈ ets₂, ∀ r < edim t, ∀ v ∈ A, ∀ c < dim v, L.lin t r v c = 0)
    (f₁ : Faithful dim edim L (A ++ (B ++ C)) ets₁ A.length sys₁)
    (h₁ : (marginalize dim edim sys₁ (A ++ (B ++ C)) ets₁ A.length top₁ env₁).prior = .ok p₁)
    (hlin : ∀ t ∈ ets₂, ∀ r < edim t, L'.rhs t r = -L.err dim (B ++ (C ++ D)) δ t r ∧
      ∀ v ∈ B ++ (C ++ D), ∀ c < dim v, L'.lin t r v c = L.lin t r v c)
    (hdim : edim t₀ = p₁.n)
    (hprior : p₁.jacobian ((B ++ C).map fun v => (dim v, fun i j => if i = j then 1 else 0)) 0 =
      (B ++ C).map fun v => (dim v, fun r c => L'.lin t₀ r v c))
    (hrest : ∀ r < p₁.n, ∀ v ∈ D, ∀ c < dim v, L'.lin t₀ r v c = 0)
    (herr : ∀ r < p₁.n, L'.rhs t₀ r = -p₁.error (flat dim (B ++ C) δ) r)
    (f₂ : Faithful dim edim L' (B ++ (C ++ D)) (t₀ :: ets₂) B.length sys₂)
    (h₂ : (marginalize dim edim sys₂ (B ++ (C ++ D)) (t₀ :: ets₂) B.length top₂ env₂).prior = .ok p₂)
    (fJ : Faithful dim edim L (A ++ B ++ (C ++ D)) (ets₁ ++ ets₂) (A ++ B).length sysJ)
    (hJ : (marginalize dim edim sysJ (A ++ B ++ (C ++ D)) (ets₁ ++ ets₂) (A ++ B).length topJ envJ).prior = .ok pJ) :
    p₂.dvs = C ++ D ∧ pJ.dvs = C ++ D ∧ p₂.n = ((C ++ D).map dim).sum ∧ pJ.n = ((C ++ D).map dim).sum ∧
      (∃ c, ∀ x, p₂.cost (flat dim (C ++ D) x) = pJ.cost (flat dim (C ++ D) fun v i => x v i + δ v i) + c) ∧
      ∀ i j, i < p₂.n → j < p₂.n →
        ∑ k ∈ Finset.range p₂.n, p₂.R k i * p₂.R k j = ∑ k ∈ Finset.range pJ.n, pJ.R k i * pJ.R k j := by
  obtain ⟨d1, n1, _, c₁, l1, a1⟩ := marginalize_min f₁ h₁
  obtain ⟨d2, n2, _, c₂, l2, a2⟩ := marginalize_min f₂ h₂
  obtain ⟨dJ, nJ, nd, cJ, lJ, aJ⟩ := marginalize_min fJ hJ
  -- variables a list of terms does not depend on
  have hzero {ets vs : List Nat} (h : ∀ t ∈ ets, ∀ r < edim t, ∀ v ∈ vs, ∀ c < dim v, L.lin t r v c = 0) (x : Nat → Nat → K)
      {t r : Nat} (ht : t ∈ ets) (hr : r < edim t) : (vs.map fun v => ∑ c ∈ Finset.range (dim v), L.lin t r v c * x v c).sum = 0 := by
    refine List.sum_eq_zero fun y hy => ?_
    obtain ⟨v, hv, rfl⟩ := List.mem_map.1 hy
    exact Finset.sum_eq_zero fun c hc => by rw [h t ht r hr v hv c (Finset.mem_range.1 hc), zero_mul]
  have hE (x : Nat → Nat → K) : L.cost dim edim (A ++ B ++ (C ++ D)) ets₂ x = L.cost dim edim (B ++ (C ++ D)) ets₂ x := by
    unfold Terms.cost
    congr 1
    refine List.map_congr_left fun t ht => Finset.sum_congr rfl fun r hr => ?_
    have : L.err dim (A ++ B ++ (C ++ D)) x t r = L.err dim (B ++ (C ++ D)) x t r := by
      unfold Terms.err
      rw [List.append_assoc, List.map_append, List.sum_append, hzero hdep₂ x ht (Finset.mem_range.1 hr), zero_add]
    rw [this]
  have hF (x : Nat → Nat → K) : L.cost dim edim (A ++ B ++ (C ++ D)) ets₁ x = L.cost dim edim (A ++ (B ++ C)) ets₁ x := by
    unfold Terms.cost
    congr 1
    refine List.map_congr_left fun t ht => Finset.sum_congr rfl fun r hr => ?_
    have : L.err dim (A ++ B ++ (C ++ D)) x t r = L.err dim (A ++ (B ++ C)) x t r := by
      unfold Terms.err
      rw [← List.append_assoc, List.map_append, List.sum_append, hzero hdep₁ x ht (Finset.mem_range.1 hr), add_zero, List.append_assoc]
    rw [this]
  have hsplit (x : Nat → Nat → K) : L.cost dim edim (A ++ B ++ (C ++ D)) (ets₁ ++ ets₂) x =
      L.cost dim edim (A ++ (B ++ C)) ets₁ x + L.cost dim edim (B ++ (C ++ D)) ets₂ x := by
    rw [← hE, ← hF]
    unfold Terms.cost
    rw [List.map_append, List.sum_append]
  -- the cost of the second call
  have h2cost (x : Nat → Nat → K) : L'.cost dim edim (B ++ (C ++ D)) (t₀ :: ets₂) x =
      p₁.cost (flat dim (B ++ C) fun v i => x v i + δ v i) + L.cost dim edim (B ++ (C ++ D)) ets₂ (fun v i => x v i + δ v i) := by
    unfold Terms.cost
    rw [List.map_cons, List.sum_cons]
    congr 1
    · unfold Prior.cost
      rw [hdim]
      refine Finset.sum_congr rfl fun r hr => ?_
      have : L'.err dim (B ++ (C ++ D)) x t₀ r = p₁.error (flat dim (B ++ C) fun v i => x v i + δ v i) r := by
        unfold Terms.err
        have h0 : (D.map fun v => ∑ c ∈ Finset.range (dim v), L'.lin t₀ r v c * x v c).sum = 0 := by
          refine List.sum_eq_zero fun y hy => ?_
          obtain ⟨v, hv, rfl⟩ := List.mem_map.1 hy
          exact Finset.sum_eq_zero fun c hc => by rw [hrest r (Finset.mem_range.1 hr) v hv c (Finset.mem_range.1 hc), zero_mul]
        rw [← List.append_assoc, List.map_append, List.sum_append, h0, add_zero,
          prior_blocks dim p₁ (L'.lin t₀) x r (B ++ C) 0 hprior, herr r (Finset.mem_range.1 hr)]
        simp only [Prior.error, Nat.zero_add, flat_add, mul_add, Finset.sum_add_distrib]
        rw [n1]
        ring
      rw [this]
    · congr 1
      refine List.map_congr_left fun t ht => Finset.sum_congr rfl fun r hr => ?_
      obtain ⟨hb, hl⟩ := hlin t ht r (Finset.mem_range.1 hr)
      have : L'.err dim (B ++ (C ++ D)) x t r = L.err dim (B ++ (C ++ D)) (fun v i => x v i + δ v i) t r := by
        have e1 : L'.err dim (B ++ (C ++ D)) x t r = L.err dim (B ++ (C ++ D)) x t r + L.rhs t r - L'.rhs t r := by
          unfold Terms.err
          have : ((B ++ (C ++ D)).map fun v => ∑ c ∈ Finset.range (dim v), L'.lin t r v c * x v c) =
              (B ++ (C ++ D)).map fun v => ∑ c ∈ Finset.range (dim v), L.lin t r v c * x v c :=
            List.map_congr_left fun v hv => Finset.sum_congr rfl fun c hc => by rw [hl v hv c (Finset.mem_range.1 hc)]
          rw [this]
          ring
        rw [e1, hb]
        unfold Terms.err
        have e2 : ((B ++ (C ++ D)).map fun v => ∑ c ∈ Finset.range (dim v), L.lin t r v c * (x v c + δ v c)).sum =
            ((B ++ (C ++ D)).map fun v => ∑ c ∈ Finset.range (dim v), L.lin t r v c * x v c).sum +
              ((B ++ (C ++ D)).map fun v => ∑ c ∈ Finset.range (dim v), L.lin t r v c * δ v c).sum := by
          rw [← List.sum_map_add]
          congr 1
          refine List.map_congr_left fun v _ => ?_
          rw [← Finset.sum_add_distrib]
          exact Finset.sum_congr rfl fun c _ => mul_add _ _ _
        rw [e2]
        ring
      rw [this]
  have hcong {vs ets : List Nat} {x y : Nat → Nat → K} (h : ∀ v ∈ vs, x v = y v) : L.cost dim edim vs ets x = L.cost dim edim vs ets y := by
    unfold Terms.cost
    simp only [err_congr dim L vs _ _ h]
  suffices main : ∀ x, p₂.cost (flat dim (C ++ D) x) = pJ.cost (flat dim (C ++ D) fun v i => x v i + δ v i) + (cJ - c₂ - c₁) by
    refine ⟨d2, dJ, n2, nJ, ⟨_, main⟩, ?_⟩
    obtain ⟨_, e, _, hd, _⟩ := marginalize_ok h₂
    refine information_eq p₂ pJ (n2.trans nJ.symm) (flat dim (C ++ D) δ) (cJ - c₂ - c₁) fun u => ?_
    have hu := flat_surj dim (fun v => (e.col v).toNat) (C ++ D) _ hd.append.2 u
    rw [cost_congr p₂ (fun j hj => (hu j (n2 ▸ hj)).symm), main]
    refine congrArg (· + _) (cost_congr pJ fun j hj => ?_)
    rw [flat_add, hu j (nJ ▸ hj)]
  intro x
  refine le_antisymm ?_ ?_
  · obtain ⟨y, hy, hyc⟩ := aJ fun v i => x v i + δ v i
    rw [hsplit] at hyc
    have e1 := l1 y
    have e2 := l2 fun v i => y v i - δ v i
    rw [h2cost] at e2
    simp only [sub_add_cancel] at e2
    have e3 : flat dim (C ++ D) (fun v i => y v i - δ v i) = flat dim (C ++ D) x := by
      refine flat_congr dim (C ++ D) fun v hv => ?_
      funext i
      rw [hy v hv]
      exact add_sub_cancel_right _ _
    rw [e3] at e2
    have e4 : (fun v i => y v i) = y := rfl
    rw [e4] at e2
    linarith
  · obtain ⟨z, hz, hzc⟩ := a2 x
    rw [h2cost] at hzc
    obtain ⟨y, hy, hyc⟩ := a1 fun v i => z v i + δ v i
    -- the new variables are those of the second call
    let w : Nat → Nat → K := fun v => if v ∈ D then fun i => z v i + δ v i else y v
    have hwD : ∀ v ∈ D, w v = fun i => z v i + δ v i := fun v hv => if_pos hv
    have hw : ∀ v ∈ A ++ (B ++ C), w v = y v := by
      intro v hv
      refine if_neg fun hD => ?_
      rw [← List.append_assoc, ← List.append_assoc, ← List.append_assoc] at *
      exact (List.nodup_append.1 nd).2.2 v hv v hD rfl
    have hwBC : ∀ v ∈ B ++ (C ++ D), w v = fun i => z v i + δ v i := by
      intro v hv
      by_cases hD : v ∈ D
      · exact hwD v hD
      · have hBC : v ∈ B ++ C := by
          rw [← List.append_assoc] at hv
          exact (List.mem_append.1 hv).resolve_right hD
        rw [hw v (List.mem_append_right _ hBC), hy v hBC]
    have e1 := lJ w
    rw [hsplit, hcong hw, hyc, hcong hwBC] at e1
    have e3 : flat dim (C ++ D) w = flat dim (C ++ D) fun v i => x v i + δ v i := by
      refine flat_congr dim (C ++ D) fun v hv => ?_
      rw [hwBC v (List.mem_append_right _ hv)]
      funext i
      rw [hz v hv]
    rw [e3] at e1
    linarith

end

/-! A window that meets the hypotheses: scalar variables 0, 1 (removed by the first and the second call), 2 and the new variable 3. -/
section example_
/-- A matrix given by rows. -/
def rows (l : List (List ℚ)) (i j : Nat) : ℚ := (l.getD i []).getD j 0

/-- A vector given by a list. -/
def entries (l : List ℚ) (i : Nat) : ℚ := l.getD i 0

theorem isQR_rows (m n : Nat) (J Q R : List (List ℚ)) (b d : List ℚ) (hl : R.length ≤ m) (le : n ≤ m)
    (orth : ∀ i < m, ∀ j < m, ∑ k ∈ Finset.range m, rows Q k i * rows Q k j = if i = j then 1 else 0)
    (orth' : ∀ i < m, ∀ j < m, ∑ k ∈ Finset.range m, rows Q i k * rows Q j k = if i = j then 1 else 0)
    (fac : ∀ i < m, ∀ j < n, rows J i j = ∑ k ∈ Finset.range m, rows Q i k * rows R k j)
    (tri : ∀ i < m, ∀ j < i, rows R i j = 0)
    (hd : ∀ i < m, entries d i = ∑ k ∈ Finset.range m, rows Q k i * entries b k) :
    IsQR m n (rows J) (entries b) (rows Q) (rows R) (entries d) where
  le := le
  orth := fun i j hi hj => orth i hi j hj
  orth' := fun i j hi hj => orth' i hi j hj
  fac := fun i j hi hj => fac i hi j hj
  tri := fun i j hij => by
    by_cases hi : i < m
    · exact tri i hi j hij
    · have : R.getD i [] = [] := by
        rw [List.getD_eq_getElem?_getD, List.getElem?_eq_none (by omega)]
        rfl
      rw [rows, this]
      rfl
  d := hd

/-- The terms `x₀ - x₁ = 1`, `x₁ - x₂ = 2`, `x₂ = 3` of the first call and `3/4 x₂ + 5/4 x₃ = 4` of the second. -/
def exL : Terms ℚ := ⟨fun t _ v _ => rows [[1, -1, 0, 0], [0, 1, -1, 0], [0, 0, 1, 0], [0, 0, 3/4, 5/4]] t v, fun t _ => entries [1, 2, 3, 4] t⟩

/-- The terms of the second call, after variable `v` has moved by `v`. Term 9 is the prior of the first call. -/
def exL' : Terms ℚ :=
  ⟨fun t r v c => if t = 9 then if c = 0 then rows [[1, -1, 0], [0, 1, -1], [0, 0, 1]] (1 + r) v else 0 else rows [[], [], [], [0, 0, 3/4, 5/4]] t v,
    fun t r => if t = 9 then entries [3, 1] r else -5/4⟩

def exDim : Nat → Nat := fun _ => 1
def exEdim : Nat → Nat := fun t => if t = 9 then 2 else 1
def exOne : List (List ℚ) := [[1, 0, 0], [0, 1, 0], [0, 0, 1]]
def exF₁ : Fact ℚ := ⟨3, 3, rows [[1, -1, 0], [0, 1, -1], [0, 0, 1]], entries [1, 2, 3]⟩
def exF₂ : Fact ℚ := ⟨3, 3, rows [[1, -1, 0], [0, 5/4, 3/4], [0, 0, 1]], entries [3, 1/20, -8/5]⟩
def exFJ : Fact ℚ := ⟨4, 4, rows [[1, -1, 0, 0], [0, 1, -1, 0], [0, 0, 5/4, 3/4], [0, 0, 0, 1]], entries [1, 2, 24/5, 7/5]⟩
def exEnv : Env := ⟨fun _ => 5, fun _ => 5, fun _ => 5⟩

theorem ex_faithful₁ : Faithful exDim exEdim exL [0, 1, 2] [0, 1, 2] 1 (fun _ => some exF₁) := by
  rintro e f ⟨c0, c1, c2, -⟩ ⟨r0, r1, r2, -⟩ hf
  obtain rfl := Option.some.inj hf
  refine ⟨by decide +kernel, by decide +kernel, ⟨rows [[1, -1, 0], [0, 1, -1], [0, 0, 1]], entries [1, 2, 3], rows exOne, ?_, ?_⟩, by decide +kernel⟩
  · exact isQR_rows 3 3 _ _ _ _ _ (by decide) (by decide) (by decide +kernel) (by decide +kernel) (by decide +kernel) (by decide +kernel) (by decide +kernel)
  · simp only [List.mem_cons, List.not_mem_nil, or_false]
    rintro t (rfl | rfl | rfl) r hr <;> obtain rfl : r = 0 := Nat.lt_one_iff.1 hr <;> simp only [r0, r1, r2] <;> refine ⟨by decide +kernel, ?_⟩ <;>
      rintro v (rfl | rfl | rfl) c hc <;> obtain rfl : c = 0 := Nat.lt_one_iff.1 hc <;> simp only [c0, c1, c2] <;> decide +kernel

theorem ex_faithful₂ : Faithful exDim exEdim exL' [1, 2, 3] [9, 3] 1 (fun _ => some exF₂) := by
  rintro e f ⟨c0, c1, c2, -⟩ ⟨r0, r1, -⟩ hf
  obtain rfl := Option.some.inj hf
  refine ⟨by decide +kernel, by decide +kernel, ⟨rows [[1, -1, 0], [0, 1, 0], [0, 3/4, 5/4]], entries [3, 1, -5/4],
    rows [[1, 0, 0], [0, 4/5, -3/5], [0, 3/5, 4/5]], ?_, ?_⟩, by decide +kernel⟩
  · exact isQR_rows 3 3 _ _ _ _ _ (by decide) (by decide) (by decide +kernel) (by decide +kernel) (by decide +kernel) (by decide +kernel) (by decide +kernel)
  · simp only [List.mem_cons, List.not_mem_nil, or_false]
    rintro t (rfl | rfl) r hr
    · have hr' : r < 2 := hr
      obtain rfl | rfl : r = 0 ∨ r = 1 := by omega
      all_goals
        simp only [r0]
        refine ⟨by decide +kernel, ?_⟩
        rintro v (rfl | rfl | rfl) c hc <;> obtain rfl : c = 0 := Nat.lt_one_iff.1 hc <;> simp only [c0, c1, c2] <;> decide +kernel
    · obtain rfl : r = 0 := Nat.lt_one_iff.1 hr
      simp only [r1]
      refine ⟨by decide +kernel, ?_⟩
      rintro v (rfl | rfl | rfl) c hc <;> obtain rfl : c = 0 := Nat.lt_one_iff.1 hc <;> simp only [c0, c1, c2] <;> decide +kernel

theorem ex_faithfulJ : Faithful exDim exEdim exL [0, 1, 2, 3] [0, 1, 2, 3] 2 (fun _ => some exFJ) := by
  rintro e f ⟨c0, c1, c2, c3, -⟩ ⟨r0, r1, r2, r3, -⟩ hf
  obtain rfl := Option.some.inj hf
  refine ⟨by decide +kernel, by decide +kernel, ⟨rows [[1, -1, 0, 0], [0, 1, -1, 0], [0, 0, 1, 0], [0, 0, 3/4, 5/4]], entries [1, 2, 3, 4],
    rows [[1, 0, 0, 0], [0, 1, 0, 0], [0, 0, 4/5, -3/5], [0, 0, 3/5, 4/5]], ?_, ?_⟩, by decide +kernel⟩
  · exact isQR_rows 4 4 _ _ _ _ _ (by decide) (by decide) (by decide +kernel) (by decide +kernel) (by decide +kernel) (by decide +kernel) (by decide +kernel)
  · simp only [List.mem_cons, List.not_mem_nil, or_false]
    rintro t (rfl | rfl | rfl | rfl) r hr <;> obtain rfl : r = 0 := Nat.lt_one_iff.1 hr <;> simp only [r0, r1, r2, r3] <;> refine ⟨by decide +kernel, ?_⟩ <;>
      rintro v (rfl | rfl | rfl | rfl) c hc <;> obtain rfl : c = 0 := Nat.lt_one_iff.1 hc <;> simp only [c0, c1, c2, c3] <;> decide +kernel

example : ∃ p₂ pJ : Prior ℚ,
    (marginalize exDim exEdim (fun _ => some exF₂) [1, 2, 3] [9, 3] 1 0 exEnv).prior = .ok p₂ ∧
    (marginalize exDim exEdim (fun _ => some exFJ) [0, 1, 2, 3] [0, 1, 2, 3] 2 0 exEnv).prior = .ok pJ ∧
    ∃ c, ∀ x : Nat → Nat → ℚ, p₂.cost (flat exDim [2, 3] x) = pJ.cost (flat exDim [2, 3] fun v i => x v i + (v : ℚ)) + c := by
  refine ⟨cut exF₂ 1 [2, 3], cut exFJ 2 [2, 3], rfl, rfl, ?_⟩
  refine (C98_two_calls exDim exEdim [0] [1] [2] [3] [0, 1, 2] [3] 9 exL exL' (fun v _ => v) (fun _ => some exF₁) (fun _ => some exF₂)
    (fun _ => some exFJ) 0 0 0 exEnv exEnv exEnv (cut exF₁ 1 [1, 2]) _ _ ?_ ?_ ex_faithful₁ rfl ?_ rfl ?_ ?_ ?_ ex_faithful₂ rfl ex_faithfulJ rfl).2.2.2.2.1
  · decide +kernel
  · decide +kernel
  · decide +kernel
  · simp only [List.cons_append, List.nil_append, List.map_cons, List.map_nil, Prior.jacobian, exDim, List.cons.injEq, Prod.mk.injEq, true_and, and_true,
      Finset.sum_range_one, mul_ite, mul_one, mul_zero]
    refine ⟨?_, ?_⟩ <;> funext r c <;> simp only [exL', cut, exF₁, eq_comm] <;> rfl
  · decide +kernel
  · decide +kernel

end example_

end Verif.Marginal
