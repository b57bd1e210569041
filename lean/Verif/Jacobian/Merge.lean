import Verif.Jacobian.Lemmas

/-! Helper lemmas for merging sparse containers and for the prescaling wrapper. -/
namespace Verif.Jacobian
open Verif.MatrixStack Verif.MatrixStack.Spec Spec

variable {R : Type} [Semiring R]

/-- Lookup by block index. -/
def look (env : Env R) (m : SMap R) (b : Int) : Option (Nat × DMat R) :=
  List.find? (fun p => env.blockIndex p.1 == b) m

theorem find_eq_look (env : Env R) (m : SMap R) (dv : Nat) :
    SMap.find env m dv = look env m (env.blockIndex dv) := rfl

theorem look_insert {env : Env R} {m : SMap R} (hs : Sorted env m) (dv : Nat) (J : DMat R) (b : Int) :
    look env (SMap.insert env m dv J) b =
      if b = env.blockIndex dv then some ((look env m b).getD (dv, J)) else look env m b := by
  induction m with
  | nil =>
    simp only [SMap.insert, look, List.find?_cons, List.find?_nil]
    by_cases h : b = env.blockIndex dv
    · simp [h]
    · have : (env.blockIndex dv == b) = false := by simpa using fun e => h e.symm
      rw [this]; simp [h]
  | cons p ps ih =>
    unfold Sorted at hs
    rw [List.pairwise_cons] at hs
    have ih := ih hs.2
    simp only [look] at ih ⊢
    simp only [SMap.insert]
    split
    · rename_i hlt
      by_cases h : b = env.blockIndex dv
      · subst h
        have h0 : List.find? (fun q => env.blockIndex q.1 == env.blockIndex dv) (p :: ps) = none := by
          rw [List.find?_eq_none]
          intro q hq
          rcases List.mem_cons.1 hq with rfl | hq
          · simp; omega
          · have := hs.1 q hq; simp; omega
        rw [if_pos rfl, h0, List.find?_cons]
        simp
      · have : (env.blockIndex dv == b) = false := by simpa using fun e => h e.symm
        rw [if_neg h, List.find?_cons, this]
    · split
      · rename_i h1 h2
        by_cases h : b = env.blockIndex dv
        · subst h
          rw [if_pos rfl, List.find?_cons]
          simp [h2]
        · rw [if_neg h]
      · rename_i h1 h2
        rw [List.find?_cons, List.find?_cons]
        by_cases hp : env.blockIndex p.1 = b
        · have : ¬ b = env.blockIndex dv := by omega
          simp [hp, this]
        · have hp' : (env.blockIndex p.1 == b) = false := by simpa using hp
          rw [hp']
          exact ih

theorem look_modify {env : Env R} (m : SMap R) (dv : Nat) (f : DMat R → DMat R) (b : Int) :
    look env (SMap.modify env m dv f) b =
      if b = env.blockIndex dv then (look env m b).map (fun q => (q.1, f q.2)) else look env m b := by
  induction m with
  | nil => simp [look, SMap.modify]
  | cons p ps ih =>
    simp only [look, SMap.modify, List.map_cons, List.find?_cons] at ih ⊢
    by_cases hp : env.blockIndex p.1 = env.blockIndex dv
    · by_cases hb : b = env.blockIndex dv
      · subst hb; simp [hp]
      · have h1 : ¬ (env.blockIndex p.1 = b) := by omega
        rw [if_neg hb] at ih
        simp only [hp, if_true, hb, if_false]
        have : (env.blockIndex dv == b) = false := by simpa using fun e => hb e.symm
        rw [this]
        simpa using ih
    · simp only [hp, if_false]
      by_cases h1 : env.blockIndex p.1 = b
      · have : ¬ b = env.blockIndex dv := by omega
        simp [h1, this]
      · have h1' : (env.blockIndex p.1 == b) = false := by simpa using h1
        rw [h1']
        exact ih

theorem look_isSome {env : Env R} {m : SMap R} {b : Int} :
    (look env m b).isSome ↔ b ∈ m.map fun p => env.blockIndex p.1 := by
  simp only [look, List.find?_isSome, List.mem_map, beq_iff_eq]

theorem look_mem {env : Env R} {m : SMap R} (hs : Sorted env m) {p : Nat × DMat R} (hp : p ∈ m) :
    look env m (env.blockIndex p.1) = some p := by
  cases h : look env m (env.blockIndex p.1) with
  | none =>
    have := List.find?_eq_none.1 h p hp
    simp at this
  | some q =>
    have h1 := List.mem_of_find?_eq_some h
    have h2 := List.find?_some h
    rw [sorted_unique hs h1 hp (by simpa using h2)]

/-- The key-wise sum of two optional entries. -/
def combine (CR : Option (DMat R)) : Option (Nat × DMat R) → Option (Nat × DMat R) →
    Option (Nat × DMat R)
  | a, none => a
  | none, some (k, B) => some (k, chained CR B)
  | some (k, A), some (_, B) => some (k, addMat A (chained CR B))

/-- Loop invariant of the merge: `ks` are the left keys still to be visited, `rs` the right elements not
yet passed. -/
structure MInv (env : Env R) (CR : Option (DMat R)) (l r : SMap R) (ks : List Nat) (m rs : SMap R) :
    Prop where
  sm : Sorted env m
  sr : Sorted env rs
  sub : ∀ p ∈ rs, p ∈ r
  lk : ∀ b, look env m b =
    if (b ∈ rs.map fun p => env.blockIndex p.1) ∧
        ¬ ((b ∈ l.map fun p => env.blockIndex p.1) ∧ b ∉ ks.map env.blockIndex)
    then look env l b
    else combine CR (look env l b) (look env r b)

theorem MInv.insertStep {env : Env R} {CR : Option (DMat R)} {l r : SMap R} (hr : Sorted env r)
    {ks : List Nat} {m rs : SMap R} {k' : Nat} {J : DMat R}
    (h : MInv env CR l r ks m ((k', J) :: rs)) (hk : env.blockIndex k' ∉ ks.map env.blockIndex) :
    MInv env CR l r ks (SMap.insert env m k' (chained CR J)) rs := by
  have hsr := h.sr
  unfold Sorted at hsr
  rw [List.pairwise_cons] at hsr
  have hlr : look env r (env.blockIndex k') = some (k', J) :=
    look_mem hr (p := (k', J)) (h.sub _ (by simp))
  have hnrs : env.blockIndex k' ∉ rs.map fun p => env.blockIndex p.1 := by
    intro hm
    obtain ⟨q, hq, e⟩ := List.mem_map.1 hm
    have := hsr.1 q hq
    simp only at this e; omega
  refine ⟨insert_sorted h.sm, hsr.2, fun p hp => h.sub p (by simp [hp]), fun b => ?_⟩
  rw [look_insert h.sm]
  by_cases hb : b = env.blockIndex k'
  · subst hb
    rw [if_pos rfl, if_neg (fun hc => hnrs hc.1), h.lk, hlr]
    by_cases hl : env.blockIndex k' ∈ l.map fun p => env.blockIndex p.1
    · rw [if_neg (fun hc => hc.2 ⟨hl, hk⟩)]
      obtain ⟨q, hq⟩ := Option.isSome_iff_exists.1 (look_isSome.2 hl)
      rw [hq]
      simp [combine]
    · rw [if_pos ⟨by simp, fun hc => hl hc.1⟩]
      have : look env l (env.blockIndex k') = none := by
        rw [← Option.not_isSome_iff_eq_none, look_isSome]; exact hl
      rw [this]
      simp [combine]
  · rw [if_neg hb, h.lk]
    have hiff : (b ∈ ((k', J) :: rs).map fun p => env.blockIndex p.1) ↔
        (b ∈ rs.map fun p => env.blockIndex p.1) := by
      rw [List.map_cons, List.mem_cons]
      exact ⟨fun h => h.resolve_left hb, Or.inr⟩
    simp only [hiff]

theorem mergeWhile_inv {env : Env R} {CR : Option (DMat R)} {l r : SMap R} (hr : Sorted env r)
    {k : Nat} {ks : List Nat} (hks : ∀ x ∈ ks, env.blockIndex k < env.blockIndex x)
    (m rs : SMap R) (h : MInv env CR l r (k :: ks) m rs) :
    MInv env CR l r (k :: ks) (mergeWhile env CR (env.blockIndex k) m rs).1
        (mergeWhile env CR (env.blockIndex k) m rs).2 ∧
      ∀ p ∈ (mergeWhile env CR (env.blockIndex k) m rs).2, env.blockIndex k ≤ env.blockIndex p.1 := by
  induction rs generalizing m with
  | nil => exact ⟨h, by simp [mergeWhile]⟩
  | cons p rs ih =>
    obtain ⟨k', J⟩ := p
    simp only [mergeWhile]
    split
    · rename_i hlt
      apply ih
      apply h.insertStep hr
      intro hm
      rw [List.map_cons, List.mem_cons] at hm
      rcases hm with hm | hm
      · omega
      · obtain ⟨x, hx, e⟩ := List.mem_map.1 hm
        have := hks x hx; omega
    · rename_i hge
      refine ⟨h, fun p hp => ?_⟩
      have hsr := h.sr
      unfold Sorted at hsr
      rw [List.pairwise_cons] at hsr
      rcases List.mem_cons.1 hp with rfl | hp
      · simp only; omega
      · have := hsr.1 p hp
        simp only at this; omega

theorem mergeLoop_inv {env : Env R} {CR : Option (DMat R)} {l r : SMap R} (hr : Sorted env r)
    (hl : Sorted env l) (ks : List Nat)
    (hks : (ks.map env.blockIndex).Pairwise (· < ·)) (hsub : ∀ x ∈ ks, x ∈ l.map Prod.fst)
    (m rs : SMap R) (h : MInv env CR l r ks m rs) :
    (mergeLoop env CR ks m rs).2 = [] ∧
        (∀ b, look env (mergeLoop env CR ks m rs).1 b = combine CR (look env l b) (look env r b)) ∧
        Sorted env (mergeLoop env CR ks m rs).1 ∨
      MInv env CR l r [] (mergeLoop env CR ks m rs).1 (mergeLoop env CR ks m rs).2 := by
  induction ks generalizing m rs with
  | nil => right; exact h
  | cons k ks ih =>
    cases rs with
    | nil =>
      left
      refine ⟨rfl, fun b => ?_, h.sm⟩
      simp only [mergeLoop]
      rw [h.lk, if_neg]
      rintro ⟨hc, -⟩
      simp at hc
    | cons rh rt =>
      rw [List.map_cons, List.pairwise_cons] at hks
      have hks' : ∀ x ∈ ks, env.blockIndex k < env.blockIndex x :=
        fun x hx => hks.1 _ (List.mem_map_of_mem hx)
      obtain ⟨hw, hge⟩ := mergeWhile_inv hr hks' m (rh :: rt) h
      have hsub' : ∀ x ∈ ks, x ∈ l.map Prod.fst := fun x hx => hsub x (by simp [hx])
      have hkl : env.blockIndex k ∈ l.map fun p => env.blockIndex p.1 := by
        obtain ⟨q, hq, e⟩ := List.mem_map.1 (hsub k (by simp))
        exact List.mem_map.2 ⟨q, hq, by rw [e]⟩
      have hknot : env.blockIndex k ∉ ks.map env.blockIndex := by
        intro hm
        have := hks.1 _ hm; omega
      simp only [mergeLoop]
      generalize mergeWhile env CR (env.blockIndex k) m (rh :: rt) = w at hw hge ⊢
      obtain ⟨m', rs'⟩ := w
      -- dropping `k` from the keys to visit when it does not occur in `rs'`
      have drop : ∀ {m' rs'}, MInv env CR l r (k :: ks) m' rs' →
          (env.blockIndex k ∉ rs'.map fun p => env.blockIndex p.1) → MInv env CR l r ks m' rs' := by
        intro m' rs' hw hn
        refine ⟨hw.sm, hw.sr, hw.sub, fun b => ?_⟩
        rw [hw.lk]
        by_cases hb : b = env.blockIndex k
        · subst hb
          rw [if_neg (fun hc => hn hc.1), if_neg (fun hc => hn hc.1)]
        · have : (b ∈ (k :: ks).map env.blockIndex) ↔ (b ∈ ks.map env.blockIndex) := by
            rw [List.map_cons, List.mem_cons]
            exact ⟨fun h => h.resolve_left hb, Or.inr⟩
          simp only [this]
      cases rs' with
      | nil => exact ih hks.2 hsub' m' [] (drop hw (by simp))
      | cons p rs' =>
        obtain ⟨k', J⟩ := p
        simp only at hw hge ⊢
        split
        · rename_i heq
          apply ih hks.2 hsub'
          refine ⟨modify_sorted hw.sm, hw.sr, hw.sub, fun b => ?_⟩
          rw [look_modify]
          by_cases hb : b = env.blockIndex k
          · subst hb
            rw [if_pos rfl, if_neg (fun hc => hc.2 ⟨hkl, hknot⟩), hw.lk, if_pos]
            · obtain ⟨q, hq⟩ := Option.isSome_iff_exists.1 (look_isSome.2 hkl)
              have hlr : look env r (env.blockIndex k') = some (k', J) :=
                look_mem hr (p := (k', J)) (hw.sub _ (by simp))
              rw [heq] at hlr
              rw [hq, hlr]
              rfl
            · refine ⟨by simp [heq], fun hc => hc.2 (by simp)⟩
          · rw [if_neg hb, hw.lk]
            have : (b ∈ (k :: ks).map env.blockIndex) ↔ (b ∈ ks.map env.blockIndex) := by
              rw [List.map_cons, List.mem_cons]
              exact ⟨fun h => h.resolve_left hb, Or.inr⟩
            simp only [this]
        · rename_i hne
          apply ih hks.2 hsub'
          apply drop hw
          intro hm
          obtain ⟨q, hq, e⟩ := List.mem_map.1 hm
          have hsr := hw.sr
          unfold Sorted at hsr
          rw [List.pairwise_cons] at hsr
          have h0 := hge (k', J) (by simp)
          rcases List.mem_cons.1 hq with rfl | hq
          · exact hne e
          · have := hsr.1 q hq
            simp only at this h0 e; omega

theorem mergeRest_inv {env : Env R} {CR : Option (DMat R)} {l r : SMap R} (hr : Sorted env r)
    (rs m : SMap R) (h : MInv env CR l r [] m rs) :
    (∀ b, look env (rs.foldl (fun m p => SMap.insert env m p.1 (chained CR p.2)) m) b =
      combine CR (look env l b) (look env r b)) ∧
    Sorted env (rs.foldl (fun m p => SMap.insert env m p.1 (chained CR p.2)) m) := by
  induction rs generalizing m with
  | nil =>
    refine ⟨fun b => ?_, h.sm⟩
    simp only [List.foldl_nil]
    rw [h.lk, if_neg]
    rintro ⟨hc, -⟩; simp at hc
  | cons p rs ih =>
    obtain ⟨k', J⟩ := p
    exact ih _ (h.insertStep hr (by simp))

theorem mergeAdd_spec {env : Env R} {lhs rhs : JC R (SMap R)} {CR : Option (DMat R)}
    (hl : Sorted env lhs.store) (hr : Sorted env rhs.store) (hrows : lhs.rows = rhs.rows)
    (hC : ∀ C, CR = some C → C.cols = rhs.rows)
    (hsz : ∀ p ∈ lhs.store, ∀ q ∈ rhs.store, env.blockIndex p.1 = env.blockIndex q.1 →
      (chained CR q.2).rows = p.2.rows ∧ (chained CR q.2).cols = p.2.cols) :
    ∃ jc, mergeAdd env lhs rhs CR = .ok jc ∧ jc.rows = lhs.rows ∧ jc.stack = lhs.stack ∧
      Sorted env jc.store ∧
      ∀ b, look env jc.store b = combine CR (look env lhs.store b) (look env rhs.store b) := by
  unfold mergeAdd
  rw [if_neg (by simp [hrows]), if_neg, if_neg]
  · have h0 : MInv env CR lhs.store rhs.store (lhs.store.map Prod.fst) lhs.store rhs.store := by
      refine ⟨hl, hr, fun _ h => h, fun b => ?_⟩
      split
      · rfl
      · rename_i hc
        have hkeys : (b ∈ (lhs.store.map Prod.fst).map env.blockIndex) ↔
            (b ∈ lhs.store.map fun p => env.blockIndex p.1) := by
          rw [List.map_map]; rfl
        rw [hkeys] at hc
        have : b ∉ rhs.store.map fun p => env.blockIndex p.1 := by
          intro hb; exact hc ⟨hb, fun h => h.2 h.1⟩
        have hn : look env rhs.store b = none := by
          rw [← Option.not_isSome_iff_eq_none, look_isSome]; exact this
        rw [hn]
        cases look env lhs.store b <;> rfl
    have hks : ((lhs.store.map Prod.fst).map env.blockIndex).Pairwise (· < ·) := by
      rw [List.map_map, List.pairwise_map]; exact hl
    have := mergeLoop_inv hr hl _ hks (fun _ h => h) _ _ h0
    generalize mergeLoop env CR (lhs.store.map Prod.fst) lhs.store rhs.store = w at this
    obtain ⟨m, rest⟩ := w
    rcases this with ⟨h1, h2, h3⟩ | h
    · simp only at h1 h2 h3
      subst h1
      exact ⟨_, rfl, rfl, rfl, h3, h2⟩
    · obtain ⟨h2, h3⟩ := mergeRest_inv hr rest m h
      exact ⟨_, rfl, rfl, rfl, h3, h2⟩
  · intro hany
    simp only [List.any_eq_true, Bool.and_eq_true, Bool.or_eq_true, bne_iff_ne, ne_eq, beq_iff_eq] at hany
    obtain ⟨p, hp, q, hq, hb, hne⟩ := hany
    obtain ⟨e1, e2⟩ := hsz p hp q hq hb
    rcases hne with h | h <;> contradiction
  · cases CR with
    | none => simp
    | some C => simp [hC C rfl]

/-! ### prescaling -/

/-- Contribution of the wrapped container for a contribution `g` of the wrapper. -/
def scaled (fs0 : List (DMat R)) (F : DMat R) (g : Nat → Nat → R) : Nat → Nat → R :=
  fun i j => ∑ t ∈ Finset.range F.rows, prod fs0 i t * ∑ u ∈ Finset.range F.cols, F.e t u * g u j

/-- Relation for a prescaling wrapper whose wrapped container holds `ev0` and has chain `fs0`. -/
structure PInv {τ : Type} (env : Env R) (align n n0 : Nat) (F : DMat R) (fs0 : List (DMat R))
    (ev0 : List (Event R)) (Rep : τ → List (Event R) → Prop) (jc : JC R (JC R τ))
    (s : List (DMat R) × List (Event R)) : Prop where
  rows : jc.rows = n
  srows : jc.stack.numRows = n
  inv : Inv align jc.stack s.1
  inner : JInv env align n0 Rep jc.store (fs0, ev0 ++ s.2.map fun p => (p.1, scaled fs0 F p.2))

theorem prescaleAdd_inv {τ : Type} {env : Env R} {align n n0 : Nat} {debug : Bool} (henv : EnvOk env)
    {addJ : AddJ R τ} {Rep : τ → List (Event R) → Prop} (himp : Implements env n0 debug addJ Rep)
    {F : DMat R} {fs0 : List (DMat R)} (hFc : F.cols = n) (hFr : F.rows = cols n0 fs0)
    {ev0 : List (Event R)} {jc : JC R (JC R τ)} {s : List (DMat R) × List (Event R)}
    (hi : PInv env align n n0 F fs0 ev0 Rep jc s)
    {dv : Nat} {J : DMat R} (h1 : J.rows = cols n s.1) (h2 : J.cols = env.dim dv) :
    ∃ jc', prescaleAdd debug env F addJ jc dv J = .ok jc' ∧
      PInv env align n n0 F fs0 ev0 Rep jc' (s.1, record env s.2 dv (contribution s.1 J)) := by
  obtain ⟨fs, ev⟩ := s
  have key : ∀ (K : DMat R), K.rows = n → K.cols = env.dim dv →
      (∀ u j, u < n → K.e u j = contribution fs J u j) →
      ∃ jc', jc.put (prescaleAddJ F addJ debug env jc.store dv K) = .ok jc' ∧
        PInv env align n n0 F fs0 ev0 Rep jc' (fs, record env ev dv (contribution fs J)) := by
    intro K k1 k2 k3
    unfold prescaleAddJ
    rw [if_neg (by rw [hFc, k1]; simp)]
    obtain ⟨w', e, iw⟩ := add_inv henv himp hi.inner
      (J := ⟨F.rows, K.cols, fun i j => ∑ t ∈ Finset.range F.cols, F.e i t * K.e t j⟩) hFr k2
    refine ⟨{ jc with store := w' }, by simp [JC.put, e], ⟨hi.rows, hi.srows, hi.inv, ?_⟩⟩
    have hfun : contribution fs0 ⟨F.rows, K.cols, fun i j => ∑ t ∈ Finset.range F.cols, F.e i t * K.e t j⟩
        = scaled fs0 F (contribution fs J) := by
      funext i j
      simp only [contribution, scaled]
      refine Finset.sum_congr rfl fun t _ => ?_
      congr 1
      refine Finset.sum_congr rfl fun u hu => ?_
      rw [k3 u j (by rw [← hFc]; simpa using hu)]
      rfl
    rw [hfun] at iw
    simp only [record] at iw ⊢
    split
    · rename_i ha
      rw [if_pos ha] at iw
      simpa using iw
    · rename_i ha
      rw [if_neg ha] at iw
      exact iw
  have hh := hi.inv.headers
  have hhold := hi.inv.holds
  rw [hi.srows] at hh hhold
  unfold prescaleAdd
  cases fs with
  | nil =>
    simp only [layout] at hh
    simp only [hh]
    simp only [MatrixStack.Spec.cols] at h1
    exact key J h1 h2 (fun u j hu => (contribution_nil h1 hu).symm)
  | cons f fs =>
    simp only [layout] at hh
    simp only [hh]
    simp only [MatrixStack.Spec.cols] at h1
    rw [if_neg (by simp [h1])]
    refine key _ hi.srows h2 (fun u j hu => ?_)
    simp only [contribution, h1]
    refine Finset.sum_congr rfl fun t ht => ?_
    rw [← hhold.1 u t hu (by simpa using ht)]
    simp [Stack.coeff, hi.srows]

theorem PInv.toJInv {τ : Type} {env : Env R} {align n n0 : Nat} {F : DMat R} {fs0 : List (DMat R)}
    {ev0 : List (Event R)} {Rep : τ → List (Event R) → Prop} {jc : JC R (JC R τ)}
    {s : List (DMat R) × List (Event R)} (hi : PInv env align n n0 F fs0 ev0 Rep jc s) :
    JInv env align n (fun w ev => JInv env align n0 Rep w
      (fs0, ev0 ++ ev.map fun p => (p.1, scaled fs0 F p.2))) jc s :=
  ⟨hi.rows, hi.srows, hi.inv, hi.inner⟩

theorem PInv.ofJInv {τ : Type} {env : Env R} {align n n0 : Nat} {F : DMat R} {fs0 : List (DMat R)}
    {ev0 : List (Event R)} {Rep : τ → List (Event R) → Prop} {jc : JC R (JC R τ)}
    {s : List (DMat R) × List (Event R)}
    (hi : JInv env align n (fun w ev => JInv env align n0 Rep w
      (fs0, ev0 ++ ev.map fun p => (p.1, scaled fs0 F p.2))) jc s) :
    PInv env align n n0 F fs0 ev0 Rep jc s :=
  ⟨hi.rows, hi.srows, hi.inv, hi.rep⟩

theorem prescaleStep_inv {τ : Type} {env : Env R} {align n n0 : Nat} {debug : Bool} (hal : 0 < align)
    (henv : EnvOk env) {addJ : AddJ R τ} {Rep : τ → List (Event R) → Prop}
    (himp : Implements env n0 debug addJ Rep)
    {F : DMat R} {fs0 : List (DMat R)} (hFc : F.cols = n) (hFr : F.rows = cols n0 fs0)
    {ev0 : List (Event R)} (jc : JC R (JC R τ)) (s s' : List (DMat R) × List (Event R)) (o : Op R)
    (hi : PInv env align n n0 F fs0 ev0 Rep jc s)
    (hs : Spec.step env n s o = some s') (hf : Fits align n s'.1) :
    ∃ jc', prescaleStep debug align env F addJ jc o = .ok jc' ∧
      PInv env align n n0 F fs0 ev0 Rep jc' s' := by
  obtain ⟨fs, ev⟩ := s
  cases o with
  | applyM m =>
    simp only [Spec.step, Option.map_eq_some_iff] at hs
    obtain ⟨fs', h1, rfl⟩ := hs
    obtain ⟨jc', e, i⟩ := applyM_inv (debug := debug) hal hi.toJInv h1 hf
    exact ⟨jc', e, .ofJInv i⟩
  | applyS c =>
    simp only [Spec.step, Option.map_eq_some_iff] at hs
    obtain ⟨fs', h1, rfl⟩ := hs
    obtain ⟨jc', e, i⟩ := applyS_inv (debug := debug) hal hi.toJInv h1 hf
    exact ⟨jc', e, .ofJInv i⟩
  | endScope =>
    simp only [Spec.step, Option.map_eq_some_iff] at hs
    obtain ⟨fs', h1, rfl⟩ := hs
    obtain ⟨jc', e, i⟩ := unapply_inv hal hi.toJInv h1 hf
    exact ⟨jc', e, .ofJInv i⟩
  | add dv J =>
    simp only [Spec.step] at hs
    split at hs
    · rename_i h; cases hs
      exact prescaleAdd_inv henv himp hFc hFr hi h.1 h.2
    · cases hs
  | addId dv =>
    simp only [Spec.step] at hs
    split at hs
    · rename_i h; cases hs
      have hh := hi.inv.headers
      simp only [prescaleStep, prescaleAddId]
      cases fs with
      | nil =>
        simp only [layout] at hh
        simp only [hh]
        have := prescaleAdd_inv henv himp hFc hFr hi
          (J := ⟨jc.rows, env.dim dv, fun i j => if i = j then 1 else 0⟩) (dv := dv) (by
            simp [MatrixStack.Spec.cols, hi.rows]) rfl
        have e : (⟨jc.rows, env.dim dv, fun i j => if i = j then 1 else 0⟩ : DMat R)
            = ident (MatrixStack.Spec.cols n ([] : List (DMat R))) (env.dim dv) := by
          simp [ident, MatrixStack.Spec.cols, hi.rows]
        rw [e] at this ⊢
        exact this
      | cons f fs =>
        simp only [layout] at hh
        simp only [hh]
        exact prescaleAdd_inv henv himp hFc hFr hi
          (J := ⟨f.cols, env.dim dv, fun i j => if i = j then 1 else 0⟩) (dv := dv) rfl rfl
    · cases hs

theorem total_scaled (fs0 : List (DMat R)) (F : DMat R) (ev : List (Event R)) (dv i j : Nat) :
    total (ev.map fun p => (p.1, scaled fs0 F p.2)) dv i j = scaled fs0 F (total ev dv) i j := by
  induction ev with
  | nil => simp [total, scaled]
  | cons p ev ih =>
    have h1 : ∀ (q : Event R) (ev : List (Event R)) i j, total (q :: ev) dv i j =
        (if q.1 = dv then q.2 i j else 0) + total ev dv i j := by
      intro q ev i j
      unfold total
      by_cases h : q.1 = dv <;> simp [h]
    rw [List.map_cons, h1, ih]
    simp only [scaled, h1]
    by_cases h : p.1 = dv
    · simp [h, mul_add, Finset.sum_add_distrib]
    · simp [h]

theorem total_append_list (ev ev' : List (Event R)) (dv i j : Nat) :
    total (ev ++ ev') dv i j = total ev dv i j + total ev' dv i j := by
  simp [total, List.filter_append, List.sum_append]

end Verif.Jacobian
