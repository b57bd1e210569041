import Verif.MatrixStack.Lemmas
import Verif.Jacobian.Spec

namespace Verif.Jacobian
open Verif.MatrixStack Verif.MatrixStack.Spec Spec

variable {R : Type} [Semiring R] {σ : Type}

/-- The concrete `addJacobian` implements appending a contribution, for stores related to event lists
by `Rep`. -/
def Implements (env : Env R) (n : Nat) (debug : Bool) (addJ : AddJ R σ)
    (Rep : σ → List (Event R) → Prop) : Prop :=
  ∀ st ev dv (J : DMat R) g, Rep st ev → env.active dv = true → J.rows = n → J.cols = env.dim dv →
    (∀ i j, i < n → j < env.dim dv → J.e i j = g i j) →
    ∃ st', addJ debug env st dv J = .ok st' ∧ Rep st' (ev ++ [(dv, g)])

structure JInv (env : Env R) (align n : Nat) (Rep : σ → List (Event R) → Prop) (jc : JC R σ)
    (s : List (DMat R) × List (Event R)) : Prop where
  rows : jc.rows = n
  srows : jc.stack.numRows = n
  inv : Inv align jc.stack s.1
  rep : Rep jc.store s.2

theorem contribution_nil {n : Nat} {J : DMat R} (hJ : J.rows = n) {i j : Nat} (hi : i < n) :
    contribution [] J i j = J.e i j := by
  have := prod_single_rows (f := J) (j := j) hJ hi
  simpa [contribution, prod] using this

theorem contribution_id {fs : List (DMat R)} {c d i j : Nat} (hj : j < c) :
    contribution fs (ident c d) i j = prod fs i j := by
  simp only [contribution, ident]
  rw [Finset.sum_eq_single j]
  · simp
  · intro b _ hb; simp [hb]
  · intro h; simp at h; omega

theorem add_inv {env : Env R} {align n : Nat} {debug : Bool} (henv : EnvOk env)
    {addJ : AddJ R σ} {Rep : σ → List (Event R) → Prop} (himp : Implements env n debug addJ Rep)
    {jc : JC R σ} {s : List (DMat R) × List (Event R)} (hi : JInv env align n Rep jc s)
    {dv : Nat} {J : DMat R} (h1 : J.rows = cols n s.1) (h2 : J.cols = env.dim dv) :
    ∃ jc', add debug env addJ jc dv J = .ok jc' ∧
      JInv env align n Rep jc' (s.1, record env s.2 dv (contribution s.1 J)) := by
  unfold add addImpl
  rw [if_neg (by simp [h2])]
  cases ha : env.active dv with
  | false =>
    refine ⟨jc, by simp, ?_⟩
    simpa [record, ha] using hi
  | true =>
    have hn := henv.nonneg dv ha
    have hnd : decide (env.blockIndex dv < 0) = false := by simpa using hn
    simp only [Bool.not_true, Bool.false_eq_true, if_false, hnd, Bool.and_false]
    have hh := hi.inv.headers
    have hhold := hi.inv.holds
    rw [hi.srows] at hh hhold
    obtain ⟨fs, ev⟩ := s
    cases fs with
    | nil =>
      simp only [layout] at hh
      simp only [hh]
      rw [if_neg (by simp only [Spec.cols] at h1; simp [hi.rows, ← h1])]
      simp only [MatrixStack.Spec.cols] at h1
      obtain ⟨st', e, r⟩ := himp jc.store ev dv J (contribution [] J) hi.rep ha h1 h2
        (fun i j hi' _ => (contribution_nil h1 hi').symm)
      refine ⟨{ jc with store := st' }, by simp [JC.put, e], ⟨hi.rows, hi.srows, hi.inv, ?_⟩⟩
      simpa [record, ha] using r
    | cons f fs =>
      simp only [layout] at hh
      simp only [hh]
      simp only [MatrixStack.Spec.cols] at h1
      rw [if_neg (by simp [h1])]
      obtain ⟨st', e, r⟩ := himp jc.store ev dv
        ⟨jc.stack.numRows, J.cols, fun i j => ∑ t ∈ Finset.range f.cols,
          jc.stack.coeff ⟨f.cols, roundUp align (footprint align n fs)⟩ i t * J.e t j⟩
        (contribution (f :: fs) J) hi.rep ha hi.srows h2
        (fun i j hi' _ => by
          simp only [contribution, h1]
          refine Finset.sum_congr rfl fun t ht => ?_
          rw [← hhold.1 i t hi' (by simpa using ht)]
          simp [Stack.coeff, hi.srows])
      refine ⟨{ jc with store := st' }, by simp [JC.put, e], ⟨hi.rows, hi.srows, hi.inv, ?_⟩⟩
      simpa [record, ha] using r

theorem addId_inv {env : Env R} {align n : Nat} {debug : Bool} (henv : EnvOk env)
    {addJ : AddJ R σ} {Rep : σ → List (Event R) → Prop} (himp : Implements env n debug addJ Rep)
    {jc : JC R σ} {s : List (DMat R) × List (Event R)} (hi : JInv env align n Rep jc s)
    {dv : Nat} (h1 : s.1 = [] ∨ cols n s.1 = env.dim dv) :
    ∃ jc', addId debug env addJ jc dv = .ok jc' ∧
      JInv env align n Rep jc'
        (s.1, record env s.2 dv (contribution s.1 (ident (cols n s.1) (env.dim dv)))) := by
  unfold addId addImpl
  rw [if_neg (by simp)]
  cases ha : env.active dv with
  | false =>
    refine ⟨jc, by simp, ?_⟩
    simpa [record, ha] using hi
  | true =>
    have hn := henv.nonneg dv ha
    have hnd : decide (env.blockIndex dv < 0) = false := by simpa using hn
    simp only [Bool.not_true, Bool.false_eq_true, if_false, hnd, Bool.and_false]
    have hh := hi.inv.headers
    have hhold := hi.inv.holds
    rw [hi.srows] at hh hhold
    obtain ⟨fs, ev⟩ := s
    cases fs with
    | nil =>
      simp only [layout] at hh
      simp only [hh]
      rw [if_neg (by simp)]
      obtain ⟨st', e, r⟩ := himp jc.store ev dv ⟨jc.rows, env.dim dv, fun i j => if i = j then 1 else 0⟩
        (contribution [] (ident n (env.dim dv))) hi.rep ha hi.rows rfl
        (fun i j hi' _ => by rw [contribution_nil (n := n) rfl hi']; rfl)
      refine ⟨{ jc with store := st' }, by simp [JC.put, e], ⟨hi.rows, hi.srows, hi.inv, ?_⟩⟩
      simpa [record, ha, MatrixStack.Spec.cols] using r
    | cons f fs =>
      simp only [layout] at hh
      simp only [hh, if_true]
      simp only [MatrixStack.Spec.cols, reduceCtorEq, false_or] at h1
      obtain ⟨st', e, r⟩ := himp jc.store ev dv
        ⟨jc.stack.numRows, f.cols,
          jc.stack.coeff ⟨f.cols, roundUp align (footprint align n fs)⟩⟩
        (contribution (f :: fs) (ident f.cols (env.dim dv))) hi.rep ha hi.srows h1
        (fun i j hi' hj => by
          rw [contribution_id (by omega), ← hhold.1 i j hi' (by omega)]
          simp [Stack.coeff, hi.srows])
      refine ⟨{ jc with store := st' }, by simp [JC.put, e], ⟨hi.rows, hi.srows, hi.inv, ?_⟩⟩
      simpa [record, ha, MatrixStack.Spec.cols] using r

/-- Chain operations preserve the relation (shared by all containers). -/
theorem chain_inv {env : Env R} {align n : Nat} {debug : Bool} (hal : 0 < align)
    {Rep : σ → List (Event R) → Prop} {jc : JC R σ} {fs fs' : List (DMat R)} {ev : List (Event R)}
    (hi : JInv env align n Rep jc (fs, ev)) {o : MatrixStack.Op R}
    (hs : MatrixStack.Spec.step n fs o = some fs') (hf : Fits align n fs') :
    ∃ st', MatrixStack.step debug align jc.stack o = .ok st' ∧
      JInv env align n Rep { jc with stack := st' } (fs', ev) := by
  obtain ⟨st', e, nr, inv⟩ := MatrixStack.step_inv (debug := debug) hal hi.inv (o := o) (fs' := fs')
    (by rw [hi.srows]; exact hs) (by rw [hi.srows]; exact hf)
  exact ⟨st', e, ⟨hi.rows, by rw [← hi.srows]; exact nr, inv, hi.rep⟩⟩

theorem applyM_inv {env : Env R} {align n : Nat} {debug : Bool} (hal : 0 < align)
    {Rep : σ → List (Event R) → Prop} {jc : JC R σ} {fs fs' : List (DMat R)} {ev : List (Event R)}
    (hi : JInv env align n Rep jc (fs, ev)) {m : DMat R}
    (hs : MatrixStack.Spec.step n fs (.pushM m) = some fs') (hf : Fits align n fs') :
    ∃ jc', applyM debug align jc m = .ok jc' ∧ JInv env align n Rep jc' (fs', ev) := by
  obtain ⟨st', e, inv⟩ := chain_inv (debug := debug) hal hi hs hf
  refine ⟨_, ?_, inv⟩
  unfold applyM
  rw [if_neg]
  · simp only [MatrixStack.step] at e
    rw [e]; rfl
  · rintro ⟨h1, h2⟩
    have hh := hi.inv.headers
    rw [h1] at hh
    cases fs with
    | nil =>
      simp only [MatrixStack.Spec.step] at hs
      split at hs
      · rename_i h
        simp only [MatrixStack.Spec.cols] at h
        rw [hi.rows, h] at h2; exact h2 rfl
      · cases hs
    | cons f fs => simp [layout] at hh

theorem applyS_inv {env : Env R} {align n : Nat} {debug : Bool} (hal : 0 < align)
    {Rep : σ → List (Event R) → Prop} {jc : JC R σ} {fs fs' : List (DMat R)} {ev : List (Event R)}
    (hi : JInv env align n Rep jc (fs, ev)) {c : R}
    (hs : MatrixStack.Spec.step n fs (.pushS c) = some fs') (hf : Fits align n fs') :
    ∃ jc', applyS debug align jc c = .ok jc' ∧ JInv env align n Rep jc' (fs', ev) := by
  obtain ⟨st', e, inv⟩ := chain_inv (debug := debug) hal hi hs hf
  refine ⟨_, ?_, inv⟩
  simp only [MatrixStack.step] at e
  unfold applyS
  rw [e]; rfl

theorem unapply_inv {env : Env R} {align n : Nat} (hal : 0 < align)
    {Rep : σ → List (Event R) → Prop} {jc : JC R σ} {fs fs' : List (DMat R)} {ev : List (Event R)}
    (hi : JInv env align n Rep jc (fs, ev))
    (hs : MatrixStack.Spec.step n fs (.pop) = some fs') (hf : Fits align n fs') :
    ∃ jc', unapply jc = .ok jc' ∧ JInv env align n Rep jc' (fs', ev) := by
  obtain ⟨st', e, inv⟩ := chain_inv (debug := true) hal hi hs hf
  refine ⟨_, ?_, inv⟩
  simp only [MatrixStack.step] at e
  unfold unapply
  rw [e]; rfl

/-- A call-by-call implementation of `Spec.step` implements whole histories. -/
theorem run_of_step {env : Env R} {align n : Nat} {P : JC R σ → List (DMat R) × List (Event R) → Prop}
    {stp : JC R σ → Op R → Res (JC R σ)}
    (hstep : ∀ jc s s' o, P jc s → Spec.step env n s o = some s' → Fits align n s'.1 →
      ∃ jc', stp jc o = .ok jc' ∧ P jc' s')
    {os : List (Op R)} {jc : JC R σ} {s s' : List (DMat R) × List (Event R)} (hp : P jc s)
    (hr : Spec.Run env align n s os s') : ∃ jc', Res.run stp jc os = .ok jc' ∧ P jc' s' := by
  induction os generalizing jc s with
  | nil => cases hr; exact ⟨jc, rfl, hp⟩
  | cons o os ih =>
    cases hr with
    | cons h1 h2 h3 =>
      obtain ⟨jc1, e1, p1⟩ := hstep jc s _ o hp h1 h2
      obtain ⟨jc2, e2, p2⟩ := ih p1 h3
      exact ⟨jc2, by simp [e1, e2], p2⟩

theorem step_inv {env : Env R} {align n : Nat} {debug : Bool} (hal : 0 < align) (henv : EnvOk env)
    {addJ : AddJ R σ} {Rep : σ → List (Event R) → Prop} (himp : Implements env n debug addJ Rep)
    (jc : JC R σ) (s s' : List (DMat R) × List (Event R)) (o : Op R)
    (hi : JInv env align n Rep jc s) (hs : Spec.step env n s o = some s') (hf : Fits align n s'.1) :
    ∃ jc', step debug align env addJ jc o = .ok jc' ∧ JInv env align n Rep jc' s' := by
  obtain ⟨fs, ev⟩ := s
  cases o with
  | applyM m =>
    simp only [Spec.step, Option.map_eq_some_iff] at hs
    obtain ⟨fs', h1, rfl⟩ := hs
    exact applyM_inv hal hi h1 hf
  | applyS c =>
    simp only [Spec.step, Option.map_eq_some_iff] at hs
    obtain ⟨fs', h1, rfl⟩ := hs
    exact applyS_inv hal hi h1 hf
  | endScope =>
    simp only [Spec.step, Option.map_eq_some_iff] at hs
    obtain ⟨fs', h1, rfl⟩ := hs
    exact unapply_inv hal hi h1 hf
  | add dv J =>
    simp only [Spec.step] at hs
    split at hs
    · rename_i h; cases hs; exact add_inv henv himp hi h.1 h.2
    · cases hs
  | addId dv =>
    simp only [Spec.step] at hs
    split at hs
    · rename_i h; cases hs; exact addId_inv henv himp hi h
    · cases hs

theorem run_inv {env : Env R} {align n : Nat} {debug : Bool} (hal : 0 < align) (henv : EnvOk env)
    {addJ : AddJ R σ} {Rep : σ → List (Event R) → Prop} (himp : Implements env n debug addJ Rep)
    {os : List (Op R)} {jc : JC R σ} {s s' : List (DMat R) × List (Event R)}
    (hi : JInv env align n Rep jc s) (hr : Spec.Run env align n s os s') :
    ∃ jc', Res.run (step debug align env addJ) jc os = .ok jc' ∧ JInv env align n Rep jc' s' :=
  run_of_step (step_inv hal henv himp) hi hr

/-! ### total -/

theorem total_append (ev : List (Event R)) (dv k : Nat) (g : Nat → Nat → R) (i j : Nat) :
    total (ev ++ [(dv, g)]) k i j = total ev k i j + (if dv = k then g i j else 0) := by
  unfold total
  by_cases h : dv = k <;> simp [List.filter_append, h]

theorem total_eq_zero {ev : List (Event R)} {dv : Nat} (h : dv ∉ ev.map Prod.fst) (i j : Nat) :
    total ev dv i j = 0 := by
  unfold total
  rw [List.filter_eq_nil_iff.2]
  · simp
  · intro p hp; simp only [decide_eq_true_eq]; rintro rfl
    exact h (List.mem_map_of_mem hp)

/-! ### sparse storage -/

/-- Sorted by block index. -/
def Sorted (env : Env R) (m : SMap R) : Prop :=
  m.Pairwise fun p q => env.blockIndex p.1 < env.blockIndex q.1

structure SRep (env : Env R) (n : Nat) (m : SMap R) (ev : List (Event R)) : Prop where
  sorted : Sorted env m
  keys : ∀ k, k ∈ m.map Prod.fst ↔ k ∈ ev.map Prod.fst
  active : ∀ p ∈ m, env.active p.1 = true
  shape : ∀ p ∈ m, p.2.rows = n ∧ p.2.cols = env.dim p.1
  val : ∀ p ∈ m, ∀ i j, i < n → j < env.dim p.1 → p.2.e i j = total ev p.1 i j

theorem insert_mem {env : Env R} {m : SMap R} {dv : Nat} {J : DMat R}
    (hnew : ∀ p ∈ m, env.blockIndex p.1 ≠ env.blockIndex dv) (q : Nat × DMat R) :
    q ∈ SMap.insert env m dv J ↔ q = (dv, J) ∨ q ∈ m := by
  induction m with
  | nil => simp [SMap.insert]
  | cons p ps ih =>
    simp only [SMap.insert]
    split
    · simp
    · split
      · rename_i h; exact absurd h.symm (hnew p (by simp))
      · rw [List.mem_cons, ih fun p hp => hnew p (by simp [hp])]
        simp only [List.mem_cons]; tauto

theorem insert_sorted {env : Env R} {m : SMap R} {dv : Nat} {J : DMat R} (hs : Sorted env m) :
    Sorted env (SMap.insert env m dv J) := by
  induction m with
  | nil => simp [SMap.insert, Sorted]
  | cons p ps ih =>
    unfold Sorted at hs
    rw [List.pairwise_cons] at hs
    simp only [SMap.insert]
    split
    · rename_i h
      unfold Sorted
      rw [List.pairwise_cons, List.pairwise_cons]
      refine ⟨fun q hq => ?_, hs⟩
      rcases List.mem_cons.1 hq with rfl | hq
      · exact h
      · exact lt_trans h (hs.1 q hq)
    · split
      · unfold Sorted; rw [List.pairwise_cons]; exact hs
      · rename_i h1 h2
        unfold Sorted
        rw [List.pairwise_cons]
        refine ⟨fun q hq => ?_, ih hs.2⟩
        have : q = (dv, J) ∨ q ∈ ps := by
          clear ih hs
          induction ps with
          | nil => simpa [SMap.insert] using hq
          | cons r rs ihr =>
            simp only [SMap.insert] at hq
            split at hq
            · simpa using hq
            · split at hq
              · right; exact hq
              · rcases List.mem_cons.1 hq with rfl | hq
                · right; simp
                · rcases ihr hq with h | h
                  · left; exact h
                  · right; simp [h]
        rcases this with rfl | hq
        · simp only; omega
        · exact hs.1 q hq

theorem insert_noop {env : Env R} {m : SMap R} {dv : Nat} {J : DMat R} (hs : Sorted env m)
    (h : ∃ p ∈ m, env.blockIndex p.1 = env.blockIndex dv) : SMap.insert env m dv J = m := by
  induction m with
  | nil => obtain ⟨p, hp, _⟩ := h; cases hp
  | cons p ps ih =>
    unfold Sorted at hs
    rw [List.pairwise_cons] at hs
    obtain ⟨q, hq, e⟩ := h
    simp only [SMap.insert]
    rcases List.mem_cons.1 hq with rfl | hq
    · rw [if_neg (by omega), if_pos e.symm]
    · have := hs.1 q hq
      rw [if_neg (by omega), if_neg (by omega), ih hs.2 ⟨q, hq, e⟩]

theorem find_none {env : Env R} {m : SMap R} {dv : Nat} (h : SMap.find env m dv = none) :
    ∀ p ∈ m, env.blockIndex p.1 ≠ env.blockIndex dv := by
  intro p hp
  have := List.find?_eq_none.1 h p hp
  simpa using this

theorem find_some {env : Env R} {m : SMap R} {dv : Nat} {q : Nat × DMat R}
    (h : SMap.find env m dv = some q) : q ∈ m ∧ env.blockIndex q.1 = env.blockIndex dv := by
  have h1 := List.mem_of_find?_eq_some h
  have h2 := List.find?_some h
  exact ⟨h1, by simpa using h2⟩

theorem sorted_unique {env : Env R} {m : SMap R} (hs : Sorted env m) {p q : Nat × DMat R}
    (hp : p ∈ m) (hq : q ∈ m) (h : env.blockIndex p.1 = env.blockIndex q.1) : p = q := by
  induction m with
  | nil => cases hp
  | cons r rs ih =>
    unfold Sorted at hs
    rw [List.pairwise_cons] at hs
    rcases List.mem_cons.1 hp with rfl | hp' <;> rcases List.mem_cons.1 hq with rfl | hq'
    · rfl
    · have := hs.1 q hq'; omega
    · have := hs.1 p hp'; omega
    · exact ih hs.2 hp' hq'

theorem modify_keys (env : Env R) (m : SMap R) (dv : Nat) (f : DMat R → DMat R) :
    (SMap.modify env m dv f).map Prod.fst = m.map Prod.fst := by
  unfold SMap.modify
  rw [List.map_map]
  apply List.map_congr_left
  intro p _
  simp only [Function.comp]
  split <;> rfl

theorem modify_sorted {env : Env R} {m : SMap R} {dv : Nat} {f : DMat R → DMat R} (hs : Sorted env m) :
    Sorted env (SMap.modify env m dv f) := by
  have key : ∀ m : SMap R, Sorted env m ↔
      (m.map Prod.fst).Pairwise (fun a b => env.blockIndex a < env.blockIndex b) := by
    intro m; unfold Sorted; rw [List.pairwise_map]
  rw [key, modify_keys, ← key]; exact hs

theorem mem_modify {env : Env R} {m : SMap R} {dv : Nat} {f : DMat R → DMat R} {q : Nat × DMat R} :
    q ∈ SMap.modify env m dv f ↔ ∃ p ∈ m,
      (if env.blockIndex p.1 = env.blockIndex dv then (p.1, f p.2) else p) = q := by
  unfold SMap.modify; simp

theorem sparse_implements {env : Env R} (henv : EnvOk env) (n : Nat) (debug : Bool) :
    Implements env n debug sparseAddJ (SRep env n) := by
  intro m ev dv J g hr ha h1 h2 hg
  unfold sparseAddJ
  cases hf : SMap.find env m dv with
  | none =>
    have hnew := find_none hf
    have hnk : dv ∉ m.map Prod.fst := by
      intro h; obtain ⟨p, hp, rfl⟩ := List.mem_map.1 h; exact hnew p hp rfl
    have hnev : dv ∉ ev.map Prod.fst := by rwa [← hr.keys]
    refine ⟨_, rfl, ⟨insert_sorted hr.sorted, fun k => ?_, ?_, ?_, ?_⟩⟩
    · rw [List.map_append, List.mem_append, ← hr.keys]
      simp only [List.mem_map, insert_mem hnew]
      constructor
      · rintro ⟨q, rfl | hq, rfl⟩
        · right; simp
        · left; exact ⟨q, hq, rfl⟩
      · rintro (⟨q, hq, rfl⟩ | h)
        · exact ⟨q, Or.inr hq, rfl⟩
        · obtain ⟨_, h, rfl⟩ := h
          rw [List.mem_singleton] at h
          subst h
          exact ⟨(dv, J), Or.inl rfl, rfl⟩
    · intro p hp
      rcases (insert_mem hnew p).1 hp with rfl | hp
      · exact ha
      · exact hr.active p hp
    · intro p hp
      rcases (insert_mem hnew p).1 hp with rfl | hp
      · exact ⟨h1, h2⟩
      · exact hr.shape p hp
    · intro p hp i j hi hj
      rcases (insert_mem hnew p).1 hp with rfl | hp'
      · rw [total_append, total_eq_zero hnev]; simpa using hg i j hi hj
      · rw [total_append, if_neg, hr.val p hp' i j hi hj]
        · simp
        · intro h; exact hnew p hp' (by rw [h])
  | some q =>
    obtain ⟨hq, hb⟩ := find_some hf
    have hk : q.1 = dv := henv.inj _ _ (hr.active q hq) ha hb
    obtain ⟨k, M⟩ := q
    simp only at hk hb
    subst hk
    obtain ⟨s1, s2⟩ := hr.shape _ hq
    simp only at s1 s2
    dsimp only
    rw [if_neg (by simp), if_neg (by rw [s1, s2, h1, h2]; simp)]
    refine ⟨_, rfl, ⟨modify_sorted hr.sorted, fun x => ?_, ?_, ?_, ?_⟩⟩
    · rw [modify_keys, hr.keys, List.map_append, List.mem_append]
      constructor
      · exact Or.inl
      · rintro (h | h)
        · exact h
        · simp only [List.map_cons, List.map_nil, List.mem_singleton] at h
          rw [h, ← hr.keys]; exact List.mem_map.2 ⟨_, hq, rfl⟩
    · intro p hp
      obtain ⟨p', hp', rfl⟩ := mem_modify.1 hp
      split <;> exact hr.active p' hp'
    · intro p hp
      obtain ⟨p', hp', rfl⟩ := mem_modify.1 hp
      split
      · exact hr.shape p' hp'
      · exact hr.shape p' hp'
    · intro p hp i j hi hj
      obtain ⟨p', hp', rfl⟩ := mem_modify.1 hp
      rw [total_append]
      split at hj <;> rename_i hbi
      · rw [if_pos hbi]
        have : p'.1 = k := henv.inj _ _ (hr.active p' hp') ha hbi
        simp only at hj ⊢
        rw [if_pos this.symm]
        simp only [addMat]
        rw [hr.val p' hp' i j hi hj, hg i j hi (by rw [← this]; exact hj)]
      · rw [if_neg hbi, if_neg, hr.val p' hp' i j hi hj]
        · simp
        · intro h; rw [h] at hbi; exact hbi rfl

theorem srep_nil (env : Env R) (n : Nat) : SRep env n [] [] :=
  ⟨by simp [Sorted], by simp, by simp, by simp, by simp⟩

/-! ### dense storage -/

structure DRep (env : Env R) (n nCols : Nat) (D : DMat R) (ev : List (Event R)) : Prop where
  rows : D.rows = n
  cols : D.cols = nCols
  val : ∀ d, env.active d = true → ∀ i j, i < n → j < env.dim d →
    D.e i ((env.columnBase d).toNat + j) = total ev d i j
  gaps : ∀ i c, (∀ d, env.active d = true → ¬ ((env.columnBase d).toNat ≤ c ∧
    c < (env.columnBase d).toNat + env.dim d)) → D.e i c = 0

theorem dense_implements {env : Env R} (n nCols : Nat) (hc : ColumnsOk env nCols) (debug : Bool) :
    Implements env n debug denseAddJ (DRep env n nCols) := by
  intro D ev dv J g hr ha h1 h2 hg
  unfold denseAddJ
  have c1 := hc.nonneg dv ha
  have c2 := hc.fits dv ha
  rw [if_neg (by rw [hr.rows, h1]; simp), if_neg (by rw [hr.cols, h2]; simp [c1, c2])]
  refine ⟨_, rfl, ⟨hr.rows, hr.cols, ?_, ?_⟩⟩
  · intro d hd i j hi hj
    rw [total_append, ← hr.val d hd i j hi hj]
    by_cases hdd : dv = d
    · subst hdd
      simp only [h2]
      rw [if_pos (by omega)]
      simp only [↓reduceIte]
      congr 1
      rw [← hg i j hi hj]; congr 1; omega
    · have d1 := hc.nonneg d hd
      have := hc.disjoint dv d ha hd hdd
      simp only [h2]
      rw [if_neg (by omega), if_neg hdd]; simp
  · intro i c hgap
    have := hgap dv ha
    simp only [h2]
    rw [if_neg this]
    exact hr.gaps i c hgap

end Verif.Jacobian
