import Verif.PCG.Lemmas
import Mathlib.LinearAlgebra.Matrix.ToLin

/-! Helper lemmas: a run of the solver follows the abstract recurrence. -/
namespace Verif.PCG
open Verif.MatrixStack (DMat)
open Verif.SBM (SBM Layout WF axpy atxpy)

set_option linter.unusedSectionVars false

variable {K : Type} [Field K] [LinearOrder K] [IsStrictOrderedRing K]

/-! ### block diagonal matrices -/

theorem apply_blockDiag {L : Layout} (hL : L.Mono) (M : Nat → Nat → K)
    (hM : ∀ i j, i < L.total → j < L.total → L.upperBound i ≠ L.upperBound j → M i j = 0) (v : Nat → K)
    {c a : Nat} (hc : c < L.n) (ha : a < L.size c) :
    apply L.total M v (L.base c + a) =
      ∑ t ∈ Finset.range (L.size c), M (L.base c + a) (L.base c + t) * v (L.base c + t) := by
  have hb := Layout.base_add_size_le_total hL hc
  unfold apply
  rw [Layout.sum_blocks hL, Finset.sum_eq_single c]
  · intro c' hc' hne
    have hc'' : c' < L.n := by simpa using hc'
    have hb' := Layout.base_add_size_le_total hL hc''
    apply Finset.sum_eq_zero
    intro t ht
    have ht' : t < L.size c' := by simpa using ht
    rw [hM _ _ (by omega) (by omega), zero_mul]
    rw [Layout.upperBound_eq hL hc (i := L.base c + a) (by omega) (by omega),
      Layout.upperBound_eq hL hc'' (i := L.base c' + t) (by omega) (by omega)]
    exact fun h => hne h.symm
  · intro h; simp at h; omega

theorem blockDiag_at {L : Layout} (hL : L.Mono) (S : Nat → Nat → K) {c a t : Nat} (hc : c < L.n)
    (ha : a < L.size c) (ht : t < L.size c) :
    blockDiag L S (L.base c + a) (L.base c + t) = S (L.base c + a) (L.base c + t) := by
  unfold blockDiag
  rw [Layout.upperBound_eq hL hc (i := L.base c + a) (by omega) (by omega),
    Layout.upperBound_eq hL hc (i := L.base c + t) (by omega) (by omega), if_pos rfl]

theorem ub_lt {L : Layout} (hL : L.Mono) {i : Nat} (hi : i < L.total) : L.upperBound i < L.n := by
  obtain ⟨r, hr, a, ha, rfl⟩ := Layout.locate hL hi
  rw [Layout.upperBound_eq hL hr (by omega) (by omega)]
  exact hr

theorem blockDiag_posDef {L : Layout} (hL : L.Mono) {S : Nat → Nat → K} (h : PosDef L.total S) :
    PosDef L.total (blockDiag L S) := by
  rintro v ⟨i0, hi0, hv0⟩
  let vc : Nat → Nat → K := fun c i => if L.upperBound i = c then v i else 0
  have key : ∑ i ∈ Finset.range L.total, v i * apply L.total (blockDiag L S) v i =
      ∑ c ∈ Finset.range L.n, ∑ i ∈ Finset.range L.total, vc c i * apply L.total S (vc c) i := by
    rw [Finset.sum_comm]
    refine Finset.sum_congr rfl fun i hi => ?_
    have hi' : i < L.total := by simpa using hi
    rw [Finset.sum_eq_single (L.upperBound i)]
    · simp only [vc, if_true]
      congr 1
      unfold apply
      refine Finset.sum_congr rfl fun j _ => ?_
      unfold blockDiag
      by_cases hj : L.upperBound i = L.upperBound j
      · simp only [if_pos hj, if_pos hj.symm]
      · have hj' : ¬ L.upperBound j = L.upperBound i := fun h => hj h.symm
        simp only [if_neg hj, if_neg hj', zero_mul, mul_zero]
    · intro c _ hne
      simp only [vc]
      rw [if_neg (fun h => hne h.symm), zero_mul]
    · intro hn
      exact absurd (by simpa using ub_lt hL hi') hn
  rw [key]
  have hnn : ∀ c ∈ Finset.range L.n,
      0 ≤ ∑ i ∈ Finset.range L.total, vc c i * apply L.total S (vc c) i := by
    intro c _
    by_cases hz : ∃ i, i < L.total ∧ vc c i ≠ 0
    · exact (h _ hz).le
    · push Not at hz
      apply le_of_eq
      symm
      apply Finset.sum_eq_zero
      intro i hi
      rw [hz i (by simpa using hi), zero_mul]
  refine Finset.sum_pos' hnn ⟨L.upperBound i0, by simpa using ub_lt hL hi0, h _ ⟨i0, hi0, ?_⟩⟩
  simpa [vc] using hv0

/-- The block diagonal matrix of the inverted blocks. -/
def pinv (inv : DMat K → DMat K) (A : SBM K) (i j : Nat) : K :=
  if A.cl.upperBound i = A.cl.upperBound j then
    (inv (dblk A (A.cl.upperBound i))).e (i - A.cl.base (A.cl.upperBound i))
      (j - A.cl.base (A.cl.upperBound i)) else 0

theorem pinv_at {inv : DMat K → DMat K} {A : SBM K} (hL : A.cl.Mono) {c a t : Nat} (hc : c < A.cl.n)
    (ha : a < A.cl.size c) (ht : t < A.cl.size c) :
    pinv inv A (A.cl.base c + a) (A.cl.base c + t) = (inv (dblk A c)).e a t := by
  unfold pinv
  rw [Layout.upperBound_eq hL hc (i := A.cl.base c + a) (by omega) (by omega),
    Layout.upperBound_eq hL hc (i := A.cl.base c + t) (by omega) (by omega), if_pos rfl]
  simp

theorem multJ_spec (debug : Bool) {inv : DMat K → DMat K} {A : SBM K} {S : Nat → Nat → K}
    (h : Describes A S) (hi : InvOk inv A) (src dest : Nat → K) :
    ∃ y, multDiag debug A.cl.total A.cl ((diagOf A).map inv) src dest = .ok y ∧
      ∀ i, i < A.cl.total → y i = apply A.cl.total (pinv inv A) src i := by
  obtain ⟨y, e, hy⟩ := multDiag_spec debug h.wf.cmono (fun c => inv (dblk A c)) (by
    intro c hc
    obtain ⟨d1, d2, d3, _⟩ := dblk_spec h hc
    obtain ⟨i1, i2, _⟩ := hi c _ hc d1
    exact ⟨by rw [i1, d2], by rw [i2, d3]⟩) src dest A.cl.n (le_refl _)
  refine ⟨y, ?_, ?_⟩
  · rw [diagOf_eq h.diag, List.map_map]; exact e
  · intro i hi
    obtain ⟨c, hc, a, ha, rfl⟩ := Layout.locate h.wf.cmono hi
    rw [hy c a hc ha, apply_blockDiag h.wf.cmono _ (by
      intro i j _ _ hne; unfold pinv; rw [if_neg hne]) src hc ha]
    refine Finset.sum_congr rfl fun t ht => ?_
    rw [pinv_at h.wf.cmono hc ha (by simpa using ht)]

theorem blockDiag_pinv {inv : DMat K → DMat K} {A : SBM K} {S : Nat → Nat → K}
    (h : Describes A S) (hi : InvOk inv A) (v : Nat → K) {i : Nat} (hlt : i < A.cl.total) :
    apply A.cl.total (blockDiag A.cl S) (apply A.cl.total (pinv inv A) v) i = v i := by
  obtain ⟨c, hc, a, ha, rfl⟩ := Layout.locate h.wf.cmono hlt
  obtain ⟨d1, d2, d3, d4⟩ := dblk_spec h hc
  obtain ⟨i1, i2, i3⟩ := hi c _ hc d1
  rw [apply_blockDiag h.wf.cmono _ (by
    intro i j _ _ hne; unfold blockDiag; rw [if_neg hne]) _ hc ha]
  have : ∀ t ∈ Finset.range (A.cl.size c),
      blockDiag A.cl S (A.cl.base c + a) (A.cl.base c + t) *
        apply A.cl.total (pinv inv A) v (A.cl.base c + t) =
      ∑ u ∈ Finset.range (A.cl.size c),
        ((dblk A c).e a t * (inv (dblk A c)).e t u) * v (A.cl.base c + u) := by
    intro t ht
    have ht' : t < A.cl.size c := by simpa using ht
    rw [blockDiag_at h.wf.cmono S hc ha ht', ← d4 a t ha ht',
      apply_blockDiag h.wf.cmono _ (by
        intro i j _ _ hne; unfold pinv; rw [if_neg hne]) v hc ht', Finset.mul_sum]
    refine Finset.sum_congr rfl fun u hu => ?_
    rw [pinv_at h.wf.cmono hc ht' (by simpa using hu)]
    ring
  rw [Finset.sum_congr rfl this, Finset.sum_comm]
  have h2 : ∀ u ∈ Finset.range (A.cl.size c), (∑ t ∈ Finset.range (A.cl.size c),
      ((dblk A c).e a t * (inv (dblk A c)).e t u) * v (A.cl.base c + u)) =
      if a = u then v (A.cl.base c + u) else 0 := by
    intro u hu
    have hu' : u < A.cl.size c := by simpa using hu
    rw [← Finset.sum_mul]
    have := i3 a u (by rw [d2]; exact ha) (by rw [d2]; exact hu')
    rw [d2] at this
    rw [this]
    split <;> simp
  rw [Finset.sum_congr rfl h2, Finset.sum_ite_eq, if_pos (by simpa using ha)]

/-! ### vectors of finite length -/

/-- The first `n` entries. -/
def res (n : Nat) (v : Nat → K) : Fin n → K := fun i => v i

/-- Back again. -/
def ext {n : Nat} (w : Fin n → K) : Nat → K := fun i => if h : i < n then w ⟨i, h⟩ else 0

theorem res_ext {n : Nat} (w : Fin n → K) : res n (ext w) = w := by
  funext i; simp [res, ext]

/-- The scalar product. -/
def bil (n : Nat) : (Fin n → K) →ₗ[K] (Fin n → K) →ₗ[K] K :=
  LinearMap.mk₂ K (fun u v => ∑ i, u i * v i)
    (by intro a b c; simp [add_mul, Finset.sum_add_distrib])
    (by intro a b c; simp [Finset.mul_sum, mul_assoc])
    (by intro a b c; simp [mul_add, Finset.sum_add_distrib])
    (by intro a b c; simp [Finset.mul_sum, mul_left_comm])

theorem bil_res (n : Nat) (u v : Nat → K) : bil n (res n u) (res n v) = dot n u v := by
  unfold bil dot
  rw [LinearMap.mk₂_apply]
  exact Fin.sum_univ_eq_sum_range (fun i => u i * v i) n

/-- A matrix as a linear map. -/
def op (n : Nat) (S : Nat → Nat → K) : (Fin n → K) →ₗ[K] (Fin n → K) where
  toFun v i := ∑ j : Fin n, S i j * v j
  map_add' := by intro a b; funext i; simp [mul_add, Finset.sum_add_distrib]
  map_smul' := by intro a b; funext i; simp [Finset.mul_sum, mul_left_comm]

theorem op_res (n : Nat) (S : Nat → Nat → K) (v : Nat → K) : op n S (res n v) = res n (apply n S v) := by
  funext i
  exact Fin.sum_univ_eq_sum_range (fun j => S i j * v j) n

theorem res_eq {n : Nat} {u v : Nat → K} : res n u = res n v ↔ ∀ i, i < n → u i = v i :=
  ⟨fun h i hi => congrFun h ⟨i, hi⟩, fun h => funext fun i => h i i.2⟩

theorem ne_zero_ext {n : Nat} {w : Fin n → K} (h : w ≠ 0) : ∃ i, i < n ∧ ext w i ≠ 0 := by
  obtain ⟨i, hi⟩ := Function.ne_iff.1 h
  exact ⟨i, i.2, by simpa [ext] using hi⟩

theorem dot_congr {n : Nat} {u u' v v' : Nat → K} (h1 : ∀ i, i < n → u i = u' i)
    (h2 : ∀ i, i < n → v i = v' i) : dot n u v = dot n u' v' := by
  unfold dot
  refine Finset.sum_congr rfl fun i hi => ?_
  rw [h1 i (by simpa using hi), h2 i (by simpa using hi)]

theorem dot_comm (n : Nat) (u v : Nat → K) : dot n u v = dot n v u := by
  unfold dot
  exact Finset.sum_congr rfl fun i _ => mul_comm _ _

theorem apply_congr {n : Nat} {u v : Nat → K} (S : Nat → Nat → K) (h : ∀ i, i < n → u i = v i) (i : Nat) :
    apply n S u i = apply n S v i := by
  unfold apply
  refine Finset.sum_congr rfl fun j hj => ?_
  rw [h j (by simpa using hj)]

theorem dot_apply_symm {n : Nat} {S : Nat → Nat → K} (h : ∀ i j, i < n → j < n → S i j = S j i)
    (u v : Nat → K) : dot n (apply n S u) v = dot n u (apply n S v) := by
  unfold dot apply
  simp only [Finset.sum_mul, Finset.mul_sum]
  rw [Finset.sum_comm]
  refine Finset.sum_congr rfl fun i hi => Finset.sum_congr rfl fun j hj => ?_
  rw [h j i (by simpa using hj) (by simpa using hi)]
  ring

theorem blockDiag_symm {L : Layout} {S : Nat → Nat → K}
    (h : ∀ i j, i < L.total → j < L.total → S i j = S j i) :
    ∀ i j, i < L.total → j < L.total → blockDiag L S i j = blockDiag L S j i := by
  intro i j hi hj
  unfold blockDiag
  by_cases he : L.upperBound i = L.upperBound j
  · rw [if_pos he, if_pos he.symm, h i j hi hj]
  · rw [if_neg he, if_neg (fun h => he h.symm)]

/-- The system a caller describes, with the block Jacobi preconditioner. -/
def sys {inv : DMat K → DMat K} {A : SBM K} {S : Nat → Nat → K} (h : Describes A S) (hi : InvOk inv A)
    (hp : PosDef A.cl.total S) : Abs.Sys K (Fin A.cl.total → K) where
  B := bil _
  A := op _ S
  J := op _ (pinv inv A)
  symm u v := by
    rw [← res_ext u, ← res_ext v, bil_res, bil_res, dot_comm]
  adjA u v := by
    rw [← res_ext u, ← res_ext v, op_res, op_res, bil_res, bil_res]
    exact dot_apply_symm (by rw [← Layout.same_total h.square]; exact h.symm) _ _
  adjJ u v := by
    rw [← res_ext u, ← res_ext v, op_res, op_res, bil_res, bil_res]
    have hsym := blockDiag_symm (L := A.cl) (S := S)
      (by rw [← Layout.same_total h.square]; exact h.symm)
    rw [dot_congr (u := ext u) (fun i hlt => (blockDiag_pinv h hi (ext u) hlt).symm) (fun i _ => rfl),
      dot_apply_symm hsym,
      dot_congr (fun i _ => rfl) (fun i hlt => blockDiag_pinv h hi (ext v) hlt)]
  posA v hv := by
    rw [← res_ext v, op_res, bil_res]
    exact hp _ (ne_zero_ext hv)
  posJ v hv := by
    rw [← res_ext v, op_res, bil_res]
    have hpd := blockDiag_posDef h.wf.cmono hp
    rw [dot_congr (u := ext v) (fun i hlt => (blockDiag_pinv h hi (ext v) hlt).symm) (fun i _ => rfl),
      dot_comm]
    apply hpd
    by_contra hz
    push Not at hz
    obtain ⟨i, hlt, hne⟩ := ne_zero_ext hv
    apply hne
    rw [← blockDiag_pinv h hi (ext v) hlt]
    unfold apply
    apply Finset.sum_eq_zero
    intro j hj
    have := hz j (by simpa using hj)
    unfold apply at this
    rw [this, mul_zero]

/-! ### the loop -/

/-- The loop's variables agree with the recurrence's after `k` passes. -/
structure Match {n : Nat} (Sy : Abs.Sys K (Fin n → K)) (b : Nat → K) (l : Loop K) (k : Nat) : Prop where
  x : res n l.x = (Abs.seq Sy (res n b) k).x
  r : res n l.r = (Abs.seq Sy (res n b) k).r
  d : res n l.d = (Abs.seq Sy (res n b) k).d
  dn : l.dn = (Abs.seq Sy (res n b) k).dn

theorem loop_spec {n : Nat} (Sy : Abs.Sys K (Fin n → K)) (hB : ∀ u v, Sy.B (res n u) (res n v) = dot n u v)
    {mulA mulJ : (Nat → K) → (Nat → K) → Res (Nat → K)}
    (hA : ∀ v y, ∃ w, mulA v y = .ok w ∧ res n w = Sy.A (res n v))
    (hJ : ∀ v y, ∃ w, mulJ v y = .ok w ∧ res n w = Sy.J (res n v)) {d0 : K} (h0 : 0 ≤ d0) (b : Nat → K)
    (fuel : Nat) : ∀ (l : Loop K) (k : Nat), Match Sy b l k →
      (∀ i, i < k → d0 < (Abs.seq Sy (res n b) i).dn) →
      ∃ m l', loop n mulA mulJ d0 fuel l = .ok (some l') ∧ Match Sy b l' m ∧ k ≤ m ∧ m ≤ k + fuel ∧
        (m < k + fuel → (Abs.seq Sy (res n b) m).dn ≤ d0) ∧
        ∀ i, i < m → d0 < (Abs.seq Sy (res n b) i).dn := by
  induction fuel with
  | zero => exact fun l k hm hd => ⟨k, l, rfl, hm, le_refl _, le_refl _, by simp, hd⟩
  | succ f ih =>
    intro l k hm hd
    by_cases hstop : l.dn ≤ d0
    · refine ⟨k, l, by simp [loop, hstop], hm, le_refl _, by omega, fun _ => ?_, hd⟩
      rw [← hm.dn]; exact hstop
    · have hne : ∀ i, i < k + 1 → (Abs.seq Sy (res n b) i).r ≠ 0 := by
        intro i hi hr
        have h1 : d0 < (Abs.seq Sy (res n b) i).dn := by
          rcases Nat.lt_or_eq_of_le (Nat.lt_succ_iff.1 hi) with h | rfl
          · exact hd i h
          · rw [← hm.dn]; exact not_le.1 hstop
        rw [Abs.seq_dn, hr, map_zero, LinearMap.zero_apply] at h1
        exact absurd h0 (not_le.2 h1)
      have hinv := (Abs.inv (res n b) k fun i hi => hne i (by omega)).1
      have hcurv := hinv.curv (hne k (by omega))
      obtain ⟨q, eq, hq⟩ := hA l.d l.q
      rw [hm.d] at hq
      have hdq : dot n l.d q = Sy.B (Abs.seq Sy (res n b) k).d (Sy.A (Abs.seq Sy (res n b) k).d) := by
        rw [← hB, hm.d, hq]
      have hdn0 : l.dn ≠ 0 := fun h => hstop (h ▸ h0)
      let a := l.dn / dot n l.d q
      have ha : a = Abs.alpha Sy (res n b) k := by
        show l.dn / dot n l.d q = _
        rw [hdq, hm.dn]; rfl
      obtain ⟨s, es, hs⟩ := hJ (fun i => l.r i - a * q i) l.s
      have hr' : res n (fun i => l.r i - a * q i) = (Abs.seq Sy (res n b) (k + 1)).r := by
        rw [Abs.seq_r_succ, ← hm.r, ← hq, ← ha]; rfl
      rw [hr'] at hs
      have hdn' : dot n (fun i => l.r i - a * q i) s = (Abs.seq Sy (res n b) (k + 1)).dn := by
        rw [← hB, hr', hs, Abs.seq_dn]
      obtain ⟨m, l', e, h1, h2, h3, h4, h5⟩ := ih
        ⟨fun i => l.x i + a * l.d i, fun i => l.r i - a * q i,
          fun i => s i + dot n (fun i => l.r i - a * q i) s / l.dn * l.d i, q, s,
          dot n (fun i => l.r i - a * q i) s⟩ (k + 1)
        ⟨by rw [Abs.seq_x_succ, ← hm.x, ← hm.d, ← ha]; rfl, hr', by
          rw [Abs.seq_d_succ, ← hs, ← hdn', ← hm.dn, ← hm.d]; rfl, hdn'⟩
        (by
          intro i hi
          rcases Nat.lt_or_eq_of_le (Nat.lt_succ_iff.1 hi) with h | rfl
          · exact hd i h
          · rw [← hm.dn]; exact not_le.1 hstop)
      refine ⟨m, l', ?_, h1, by omega, by omega, fun h => h4 (by omega), h5⟩
      unfold loop
      rw [if_neg hstop, eq]
      show (if _ then _ else _) = _
      rw [if_neg (by rw [hdq]; exact fun h => h.elim hcurv.ne' hdn0)]
      simp only
      rw [show (fun i => l.r i - l.dn / dot n l.d q * q i) = fun i => l.r i - a * q i from rfl, es]
      exact e

/-- The solver's lists are those of matrix object `id`, or are still empty. -/
def Indexed (s : St K) (id gen : Nat) (A : SBM K) : Prop :=
  (s.indices = [] ∧ s.sparse = []) ∨ (s.indices = indicesOf A ∧ s.sparse = pointersOf id gen A)

theorem index_spec {s : St K} {id gen : Nat} {A : SBM K} (h : Indexed s id gen A) :
    s.index id ⟨gen, A⟩ = { s with indices := indicesOf A, sparse := pointersOf id gen A } := by
  obtain ⟨tol, res, ab, mi, ind, sp⟩ := s
  have hlen : indicesOf A = [] → pointersOf id gen A = [] := by
    rw [indicesOf_eq, pointersOf_eq]; simp
  unfold St.index
  rcases h with ⟨h1, h2⟩ | ⟨h1, h2⟩
  · simp only at h1 h2; subst h1 h2; simp
  · simp only at h1 h2; subst h1 h2
    by_cases he : indicesOf A = []
    · rw [if_pos he]; simp [he, hlen he]
    · rw [if_neg he]

theorem threshold_nonneg {s : St K} (ht : 0 ≤ s.tol) {dn : K} (hd : 0 ≤ dn) : 0 ≤ threshold s dn := by
  unfold threshold
  split
  · rename_i h; exact h.2.1.le
  · exact mul_nonneg ht hd

theorem solve_spec (debug : Bool) {inv : DMat K → DMat K} {A : SBM K} {S : Nat → Nat → K}
    (h : Describes A S) (hi : InvOk inv A) (hp : PosDef A.cl.total S) {hh : Heap K} {id gen : Nat}
    (hid : hh id = some ⟨gen, A⟩) {s : St K} (hs : Indexed s id gen A) (ht : 0 ≤ s.tol) (b : Nat → K) :
    ∃ m x, solve debug inv hh s id b = .ok (some ({ s with
        indices := indicesOf A, sparse := pointersOf id gen A,
        residual := 1 / 2 * (Abs.seq (sys h hi hp) (res _ b) m).dn }, x)) ∧
      res A.cl.total x = (Abs.seq (sys h hi hp) (res _ b) m).x ∧ m ≤ budget s A.cl.total ∧
      (m < budget s A.cl.total → (Abs.seq (sys h hi hp) (res _ b) m).dn ≤
        threshold s (Abs.seq (sys h hi hp) (res _ b) 0).dn) ∧
      ∀ i, i < m → threshold s (Abs.seq (sys h hi hp) (res _ b) 0).dn <
        (Abs.seq (sys h hi hp) (res _ b) i).dn := by
  have hJ : ∀ v y, ∃ w, multDiag debug A.cl.total A.cl ((diagOf A).map inv) v y = .ok w ∧
      res A.cl.total w = (sys h hi hp).J (res _ v) := by
    intro v y
    obtain ⟨w, e, hw⟩ := multJ_spec debug h hi v y
    exact ⟨w, e, by
      show _ = op _ (pinv inv A) _
      rw [op_res]; exact res_eq.2 hw⟩
  have hdn0 : 0 ≤ (Abs.seq (sys h hi hp) (res _ b) 0).dn := by
    by_cases hb : (Abs.seq (sys h hi hp) (res _ b) 0).r = 0
    · rw [Abs.seq_dn, hb]; simp
    · exact (Abs.dn_pos hb).le
  obtain ⟨d, ed, hd⟩ := hJ b fun _ => 0
  have hdn : dot A.cl.total b d = (Abs.seq (sys h hi hp) (res _ b) 0).dn := by
    rw [← bil_res, hd]; rfl
  have hidx := index_spec hs
  obtain ⟨m, l', el, h1, _, h3, h4, h5⟩ := loop_spec (sys h hi hp) (bil_res _)
    (mulA := mult debug A.cl.total A.cl hh (diagOf A)
      { s with indices := indicesOf A, sparse := pointersOf id gen A })
    (mulJ := multDiag debug A.cl.total A.cl ((diagOf A).map inv))
    (by
      intro v y
      obtain ⟨w, e, hw⟩ := mult_spec debug h hid
        (s := { s with indices := indicesOf A, sparse := pointersOf id gen A }) rfl rfl v y
      exact ⟨w, e, by
        show _ = op _ S _
        rw [op_res]; exact res_eq.2 hw⟩) hJ (threshold_nonneg ht hdn0) b (budget s A.cl.total)
    ⟨fun _ => 0, b, d, fun _ => 0, fun _ => 0, dot A.cl.total b d⟩ 0
    ⟨rfl, rfl, hd, hdn⟩ (by simp)
  refine ⟨m, l'.x, ?_, h1.x, by omega, fun hlt => h4 (by omega), h5⟩
  unfold solve
  rw [hid]
  simp only [Layout.same_total h.square, hidx]
  rw [if_neg (by simp), ed]
  have hth : threshold { s with indices := indicesOf A, sparse := pointersOf id gen A }
      (dot A.cl.total b d) = threshold s (Abs.seq (sys h hi hp) (res _ b) 0).dn := by
    rw [hdn]; rfl
  show Res.bind (loop A.cl.total _ _ _ _ _) _ = _
  rw [hth]
  rw [show budget { s with indices := indicesOf A, sparse := pointersOf id gen A } A.cl.total =
    budget s A.cl.total from rfl, el]
  show Res.ok _ = _
  rw [h1.dn]

end Verif.PCG
