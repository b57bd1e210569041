import Verif.Gradient.Model
import Verif.Jacobian.Props
import Verif.Threads.Props
import Verif.MEstimator.Model
import Mathlib.Tactic.Ring
import Mathlib.Tactic.Linarith

/-! C70 (gradient), C66 (L1 regulariser), C81 (weights of non-squared terms). -/
namespace Verif.Gradient
open Verif Verif.Jacobian Verif.Jacobian.Spec
open Verif.MatrixStack (DMat new)

variable {R : Type} [CommRing R]

/-! ### C70 -/

/-- The gradient vector `D` holds the value `V d j` at column `j` of each active variable `d`, and zero elsewhere. -/
structure GRep (env : Env R) (nCols : Nat) (D : DMat R) (V : Nat → Nat → R) : Prop where
  rows : D.rows = 1
  cols : D.cols = nCols
  val : ∀ d, env.active d = true → ∀ j, j < env.dim d → D.e 0 ((env.columnBase d).toNat + j) = V d j
  gaps : ∀ c, (∀ d, env.active d = true → ¬ ((env.columnBase d).toNat ≤ c ∧ c < (env.columnBase d).toNat + env.dim d)) → D.e 0 c = 0

theorem grep_zero (env : Env R) (nCols : Nat) : GRep env nCols ⟨1, nCols, fun _ _ => 0⟩ (fun _ _ => 0) := ⟨rfl, rfl, fun _ _ _ _ => rfl, fun _ _ => rfl⟩

theorem GRep.congr {env : Env R} {nCols : Nat} {D : DMat R} {V W : Nat → Nat → R} (h : GRep env nCols D V) (hVW : ∀ d, env.active d = true → ∀ j, j < env.dim d → V d j = W d j) : GRep env nCols D W :=
  ⟨h.rows, h.cols, fun d hd j hj => by rw [h.val d hd j hj, hVW d hd j hj], h.gaps⟩

theorem grep_add {env : Env R} {nCols : Nat} {D E : DMat R} {V W : Nat → Nat → R} (h1 : GRep env nCols D V) (h2 : GRep env nCols E W) : GRep env nCols (addMat D E) (fun d j => V d j + W d j) :=
  ⟨h1.rows, h1.cols, fun d hd j hj => by show D.e 0 _ + E.e 0 _ = _; rw [h1.val d hd j hj, h2.val d hd j hj], fun c hc => by show D.e 0 c + E.e 0 c = 0; rw [h1.gaps c hc, h2.gaps c hc, add_zero]⟩

/-- Adding a one-row block for an active variable. -/
theorem grep_addJ {env : Env R} {nCols : Nat} (hc : ColumnsOk env nCols) (debug : Bool) {D : DMat R} {V : Nat → Nat → R} (h : GRep env nCols D V) {dv : Nat} (ha : env.active dv = true) {J : DMat R}
    (h1 : J.rows = 1) (h2 : J.cols = env.dim dv) : ∃ D', denseAddJ debug env D dv J = .ok D' ∧ GRep env nCols D' (fun d j => V d j + if dv = d then J.e 0 j else 0) := by
  unfold denseAddJ
  have c1 := hc.nonneg dv ha
  have c2 := hc.fits dv ha
  rw [if_neg (by rw [h.rows, h1]; simp), if_neg (by rw [h.cols, h2]; simp [c1, c2])]
  refine ⟨_, rfl, h.rows, h.cols, ?_, ?_⟩
  · intro d hd j hj
    have c3 := hc.nonneg d hd
    simp only [h2]
    by_cases he : dv = d
    · subst he
      rw [if_pos ⟨by omega, by omega⟩, h.val dv hd j hj, if_pos rfl, Nat.add_sub_cancel_left]
    · rw [if_neg, if_neg he, h.val d hd j hj, add_zero]
      rintro ⟨h3, h4⟩
      rcases hc.disjoint dv d ha hd he with h5 | h5 <;> omega
  · intro c hcc
    simp only [h2]
    rw [if_neg (hcc dv ha), h.gaps c hcc]

theorem grep_implements {env : Env R} {nCols : Nat} (hc : ColumnsOk env nCols) (debug : Bool) (V : Nat → Nat → R) :
    Implements env 1 debug denseAddJ (fun D ev => GRep env nCols D (fun d j => V d j + total ev d 0 j)) := by
  intro D ev dv J g h ha h1 h2 hg
  obtain ⟨D', e, h'⟩ := grep_addJ hc debug h ha h1 h2
  refine ⟨D', e, h'.congr ?_⟩
  intro d hd j hj
  rw [total_append]
  by_cases he : dv = d
  · subst he; rw [if_pos rfl, if_pos rfl, hg 0 j (by omega) hj]; ring
  · rw [if_neg he, if_neg he]; ring

/-- The entries of a sparse container, combined row-wise and added to the gradient. -/
theorem addEntries_spec {env : Env R} {nCols : Nat} (hc : ColumnsOk env nCols) (n : Nat) (c : Nat → R) (ev : List (Event R)) (m : SMap R) (hs : Sorted env m) (hact : ∀ p ∈ m, env.active p.1 = true)
    (hsh : ∀ p ∈ m, p.2.cols = env.dim p.1) (hv : ∀ p ∈ m, ∀ i j, i < n → j < env.dim p.1 → p.2.e i j = total ev p.1 i j) (J : DMat R) (V : Nat → Nat → R) (h : GRep env nCols J V) :
    ∃ J', addEntries env n c m J = .ok J' ∧ GRep env nCols J' (fun d j => V d j + if d ∈ m.map Prod.fst then ∑ i ∈ Finset.range n, c i * total ev d i j else 0) := by
  induction m generalizing J V with
  | nil => exact ⟨J, rfl, h.congr fun d _ j _ => by simp⟩
  | cons p ps ih =>
    unfold addEntries
    obtain ⟨J1, e1, h1⟩ := grep_addJ hc false h (hact p (List.mem_cons_self ..)) (J := ⟨1, p.2.cols, fun _ j => ∑ i ∈ Finset.range n, c i * p.2.e i j⟩) rfl (hsh p (List.mem_cons_self ..))
    rw [e1]
    simp only [Res.bind]
    obtain ⟨J2, e2, h2⟩ := ih (List.pairwise_cons.1 hs).2 (fun q hq => hact q (List.mem_cons_of_mem _ hq)) (fun q hq => hsh q (List.mem_cons_of_mem _ hq)) (fun q hq => hv q (List.mem_cons_of_mem _ hq)) J1 _ h1
    refine ⟨J2, e2, h2.congr ?_⟩
    intro d hd j hj
    simp only [List.map_cons, List.mem_cons]
    by_cases he : p.1 = d
    · subst he
      have hn : p.1 ∉ ps.map Prod.fst := by
        intro hm
        obtain ⟨q, hq, hqe⟩ := List.mem_map.1 hm
        have := (List.pairwise_cons.1 hs).1 q hq
        rw [hqe] at this
        exact lt_irrefl _ this
      rw [if_pos rfl, if_neg hn, if_pos (Or.inl rfl), add_zero]
      congr 1
      exact Finset.sum_congr rfl fun i hi => by rw [hv p (List.mem_cons_self ..) i j (Finset.mem_range.1 hi) hj]
    · rw [if_neg he, add_zero]
      by_cases hm : d ∈ ps.map Prod.fst
      · rw [if_pos hm, if_pos (Or.inr hm)]
      · rw [if_neg hm, if_neg]
        rintro (h3 | h3)
        · exact he h3.symm
        · exact hm h3

/-- What a term contributes to the container: its calls are legal and balanced, and add the contributions `ev`. -/
def Legal (env : Env R) (align : Nat) (t : Term R) (ev : List (Event R)) : Prop := t.n < 2 ^ 16 ∧ Run env align t.n ([], []) t.ops ([], ev)

/-- The derivative a squared term contributes: `2 Σᵢ eᵢ Jᵢ`. -/
def sqGrad (t : Term R) (ev : List (Event R)) (d j : Nat) : R := ∑ i ∈ Finset.range t.n, (2 * t.err i) * total ev d i j

theorem addSquared_spec {env : Env R} {nCols align : Nat} (hal : 0 < align) (henv : EnvOk env) (hc : ColumnsOk env nCols) (debug useDense : Bool) {t : Term R} {ev : List (Event R)} (ht : Legal env align t ev)
    {J : DMat R} {V : Nat → Nat → R} (h : GRep env nCols J V) :
    ∃ J', addSquared debug align env useDense t J = .ok J' ∧ GRep env nCols J' (fun d j => V d j + sqGrad t ev d j) := by
  unfold addSquared
  cases useDense with
  | true =>
    obtain ⟨jc, e, i⟩ := run_inv hal henv (dense_implements t.n nCols hc debug) (newDense_inv env align t.n nCols ht.1) ht.2
    rw [if_pos rfl, h.cols]
    unfold runOps
    rw [e]
    refine ⟨_, rfl, h.rows, rfl, ?_, ?_⟩
    · intro d hd j hj
      simp only
      rw [h.val d hd j hj]
      unfold sqGrad
      congr 1
      exact Finset.sum_congr rfl fun k hk => by rw [i.rep.val d hd k j (Finset.mem_range.1 hk) hj]
    · intro c hcc
      simp only
      rw [h.gaps c hcc, Finset.sum_eq_zero, add_zero]
      intro k _
      rw [i.rep.gaps k c hcc, mul_zero]
  | false =>
    obtain ⟨jc, e, i⟩ := run_inv hal henv (sparse_implements henv t.n debug) (newSparse_inv env align t.n 100 ht.1) ht.2
    rw [if_neg (by simp)]
    unfold runOps
    rw [e]
    simp only [Res.bind]
    obtain ⟨J', e', h'⟩ := addEntries_spec hc t.n (fun i => 2 * t.err i) ev jc.store i.rep.sorted i.rep.active (fun p hp => (i.rep.shape p hp).2) i.rep.val J V h
    refine ⟨J', e', h'.congr ?_⟩
    intro d hd j hj
    unfold sqGrad
    split_ifs with hm
    · rfl
    · have : d ∉ ev.map Prod.fst := fun hx => hm ((i.rep.keys d).2 hx)
      rw [Finset.sum_eq_zero]
      intro k _
      rw [total_eq_zero this, mul_zero]

/-- Terms with their contributions. -/
abbrev Terms (R : Type) := List (Term R × List (Event R))

theorem sqLoop_spec {env : Env R} {nCols align : Nat} (hal : 0 < align) (henv : EnvOk env) (hc : ColumnsOk env nCols) (debug useDense : Bool) (ts : Terms R) (ht : ∀ p ∈ ts, Legal env align p.1 p.2)
    {J : DMat R} {V : Nat → Nat → R} (h : GRep env nCols J V) :
    ∃ J', sqLoop debug align env useDense (ts.map Prod.fst) J = .ok J' ∧ GRep env nCols J' (fun d j => V d j + (ts.map fun p => sqGrad p.1 p.2 d j).sum) := by
  induction ts generalizing J V with
  | nil => exact ⟨J, rfl, h.congr fun d _ j _ => by simp⟩
  | cons p ts ih =>
    obtain ⟨J1, e1, h1⟩ := addSquared_spec hal henv hc debug useDense (ht p (List.mem_cons_self ..)) h
    obtain ⟨J2, e2, h2⟩ := ih (fun q hq => ht q (List.mem_cons_of_mem _ hq)) h1
    refine ⟨J2, ?_, h2.congr fun d _ j _ => by simp only [List.map_cons, List.sum_cons]; ring⟩
    rw [List.map_cons]
    unfold sqLoop
    rw [e1]
    exact e2

theorem nsDense_spec {env : Env R} {nCols align : Nat} (hal : 0 < align) (henv : EnvOk env) (hc : ColumnsOk env nCols) (debug : Bool) (ts : Terms R) (ht : ∀ p ∈ ts, p.1.n = 1 ∧ Legal env align p.1 p.2)
    (jc : JC R (DMat R)) (V : Nat → Nat → R) (h : JInv env align 1 (fun D ev => GRep env nCols D (fun d j => V d j + total ev d 0 j)) jc ([], [])) :
    ∃ jc', nsDense debug align env (ts.map Prod.fst) jc = .ok jc' ∧ GRep env nCols jc'.store (fun d j => V d j + (ts.map fun p => total p.2 d 0 j).sum) := by
  induction ts generalizing jc V with
  | nil => exact ⟨jc, rfl, h.rep.congr fun d _ j _ => by simp [total]⟩
  | cons p ts ih =>
    obtain ⟨hn, hl⟩ := ht p (List.mem_cons_self ..)
    have hr := hl.2
    rw [hn] at hr
    obtain ⟨jc1, e1, i1⟩ := run_inv hal henv (grep_implements hc debug V) h hr
    obtain ⟨jc2, e2, h2⟩ := ih (fun q hq => ht q (List.mem_cons_of_mem _ hq)) jc1 (fun d j => V d j + total p.2 d 0 j)
      ⟨i1.rows, i1.srows, i1.inv, i1.rep.congr fun d _ j _ => by simp [total]⟩
    refine ⟨jc2, ?_, h2.congr fun d _ j _ => by simp only [List.map_cons, List.sum_cons]; ring⟩
    rw [List.map_cons]
    unfold nsDense runOps
    rw [e1]
    exact e2

theorem nsSparse_spec {env : Env R} {nCols align : Nat} (hal : 0 < align) (henv : EnvOk env) (hc : ColumnsOk env nCols) (debug : Bool) (ts : Terms R) (ht : ∀ p ∈ ts, p.1.n = 1 ∧ Legal env align p.1 p.2)
    (jc : JC R (SMap R)) (hj : JInv env align 1 (fun _ _ => True) jc ([], [])) (J : DMat R) (V : Nat → Nat → R) (h : GRep env nCols J V) :
    ∃ J', nsSparse debug align env (ts.map Prod.fst) jc J = .ok J' ∧ GRep env nCols J' (fun d j => V d j + (ts.map fun p => total p.2 d 0 j).sum) := by
  induction ts generalizing jc J V with
  | nil => exact ⟨J, rfl, h.congr fun d _ j _ => by simp⟩
  | cons p ts ih =>
    obtain ⟨hn, hl⟩ := ht p (List.mem_cons_self ..)
    have hr := hl.2
    rw [hn] at hr
    obtain ⟨jc1, e1, i1⟩ := run_inv (jc := { jc with store := [] }) hal henv (sparse_implements henv 1 debug) ⟨hj.rows, hj.srows, hj.inv, srep_nil env 1⟩ hr
    obtain ⟨J1, e1', h1⟩ := addEntries_spec hc 1 (fun _ => 1) p.2 jc1.store i1.rep.sorted i1.rep.active (fun q hq => (i1.rep.shape q hq).2) i1.rep.val J V h
    obtain ⟨J2, e2, h2⟩ := ih (fun q hq => ht q (List.mem_cons_of_mem _ hq)) jc1 ⟨i1.rows, i1.srows, i1.inv, trivial⟩ J1 _ h1
    refine ⟨J2, ?_, h2.congr ?_⟩
    · rw [List.map_cons]
      unfold nsSparse runOps
      rw [e1]
      simp only [Res.bind]
      rw [e1']
      exact e2
    · intro d _ j _
      simp only [List.map_cons, List.sum_cons, Finset.sum_range_one, one_mul]
      split_ifs with hm
      · ring
      · have : d ∉ p.2.map Prod.fst := fun hx => hm ((i1.rep.keys d).2 hx)
        rw [total_eq_zero this]
        ring

/-- The contribution of term `k` of the list "non-squared terms, then squared terms". -/
def contrib (ns sq : Terms R) (d j k : Nat) : R :=
  if h : k < ns.length then total ns[k].2 d 0 j else if h' : k - ns.length < sq.length then sqGrad sq[k - ns.length].1 sq[k - ns.length].2 d j else 0

theorem map_slice {α : Type} (f : α → R) (l : List α) (a k : Nat) (ha : a + k ≤ l.length) :
    ((l.drop a).take k).map f = (List.range' a k).map fun i => if h : i < l.length then f l[i] else 0 := by
  apply List.ext_getElem
  · simp; omega
  · intro i h1 h2
    simp only [List.length_map, List.length_range'] at h2
    simp only [List.getElem_map, List.getElem_take, List.getElem_drop, List.getElem_range', Nat.one_mul]
    rw [dif_pos (by omega)]

theorem slices_sum (ns sq : Terms R) (d j first last : Nat) (hl : last ≤ ns.length + sq.length) (hfl : first ≤ last) :
    (((ns.drop first).take (last - first)).map fun p => total p.2 d 0 j).sum +
      (((sq.drop (first + ((ns.drop first).take (last - first)).length - ns.length)).take (last - (first + ((ns.drop first).take (last - first)).length))).map fun p => sqGrad p.1 p.2 d j).sum =
    ((List.range' first (last - first)).map (contrib ns sq d j)).sum := by
  have hlen : ((ns.drop first).take (last - first)).length = min (last - first) (ns.length - first) := by simp
  rw [hlen]
  have h1 : (((ns.drop first).take (last - first)).map fun p => total p.2 d 0 j) = (List.range' first (min (last - first) (ns.length - first))).map (contrib ns sq d j) := by
    have he : (ns.drop first).take (last - first) = (ns.drop first).take (min (last - first) (ns.length - first)) := by
      rcases Nat.le_total (last - first) (ns.length - first) with h | h
      · rw [Nat.min_eq_left h]
      · rw [Nat.min_eq_right h, List.take_of_length_le (by simp; omega), List.take_of_length_le (by simp)]
    rw [he]
    by_cases hm : first ≤ ns.length
    · rw [map_slice _ _ _ _ (by omega)]
      apply List.map_congr_left
      intro i hi
      rw [List.mem_range'_1] at hi
      unfold contrib
      rw [dif_pos (by omega), dif_pos (by omega)]
    · rw [show min (last - first) (ns.length - first) = 0 by omega]
      simp
  have h2 : (((sq.drop (first + min (last - first) (ns.length - first) - ns.length)).take (last - (first + min (last - first) (ns.length - first)))).map fun p => sqGrad p.1 p.2 d j) =
      (List.range' (first + min (last - first) (ns.length - first)) (last - (first + min (last - first) (ns.length - first)))).map (contrib ns sq d j) := by
    by_cases hz : last - (first + min (last - first) (ns.length - first)) = 0
    · rw [hz]; simp
    · have hge : ns.length ≤ first + min (last - first) (ns.length - first) := by omega
      rw [map_slice _ _ _ _ (by omega)]
      apply List.ext_getElem
      · simp
      · intro i h3 h4
        simp only [List.getElem_map, List.getElem_range', Nat.one_mul]
        unfold contrib
        rw [dif_neg (show ¬ (first + min (last - first) (ns.length - first) + i < ns.length) by omega)]
        simp only [show first + min (last - first) (ns.length - first) - ns.length + i = first + min (last - first) (ns.length - first) + i - ns.length by omega]
  rw [h1, h2, ← List.sum_append, ← List.map_append]
  congr 2
  have := List.range'_append_1 (s := first) (m := min (last - first) (ns.length - first)) (n := last - (first + min (last - first) (ns.length - first)))
  rw [this]
  congr 1
  omega

theorem evaluateGradients_spec {env : Env R} {nCols align : Nat} (hal : 0 < align) (henv : EnvOk env) (hc : ColumnsOk env nCols) (debug useDense : Bool) (ns sq : Terms R)
    (hns : ∀ p ∈ ns, p.1.n = 1 ∧ Legal env align p.1 p.2) (hsq : ∀ p ∈ sq, Legal env align p.1 p.2) (first last : Nat) (hfl : first ≤ last) (hl : last ≤ ns.length + sq.length) :
    ∃ J', evaluateGradients debug align env useDense (ns.map Prod.fst) (sq.map Prod.fst) first last ⟨1, nCols, fun _ _ => 0⟩ = .ok J' ∧
      GRep env nCols J' (fun d j => ((List.range' first (last - first)).map (contrib ns sq d j)).sum) := by
  have e1 : ((ns.map Prod.fst).drop first).take (last - first) = (((ns.drop first).take (last - first)).map Prod.fst) := by rw [← List.map_drop, ← List.map_take]
  have hsub : ∀ p ∈ (ns.drop first).take (last - first), p.1.n = 1 ∧ Legal env align p.1 p.2 := fun p hp => hns p (List.mem_of_mem_drop (List.mem_of_mem_take hp))
  obtain ⟨J1, ej, h1⟩ : ∃ J1, (if useDense = true then (nsDense debug align env (((ns.drop first).take (last - first)).map Prod.fst) ⟨1, new 1 100 9, ⟨1, nCols, fun _ _ => 0⟩⟩).bind fun jc => .ok jc.store
      else nsSparse debug align env (((ns.drop first).take (last - first)).map Prod.fst) (newSparse 1 100) (⟨1, nCols, fun _ _ => 0⟩ : DMat R)) = .ok J1 ∧
      GRep env nCols J1 (fun d j => (((ns.drop first).take (last - first)).map fun p => total p.2 d 0 j).sum) := by
    cases useDense with
    | true =>
      obtain ⟨jc, e, h⟩ := nsDense_spec hal henv hc debug ((ns.drop first).take (last - first)) hsub ⟨1, new 1 100 9, ⟨1, nCols, fun _ _ => 0⟩⟩ (fun _ _ => 0)
        ⟨rfl, Nat.mod_eq_of_lt (by norm_num), MatrixStack.new_inv align 1 100 9, (grep_zero env nCols).congr fun _ _ _ _ => by simp [total]⟩
      refine ⟨jc.store, ?_, h.congr fun _ _ _ _ => by simp⟩
      rw [if_pos rfl, e]
      rfl
    | false =>
      obtain ⟨J, e, h⟩ := nsSparse_spec hal henv hc debug ((ns.drop first).take (last - first)) hsub (newSparse 1 100) ⟨rfl, Nat.mod_eq_of_lt (by norm_num), MatrixStack.new_inv align 1 100 9, trivial⟩
        ⟨1, nCols, fun _ _ => 0⟩ (fun _ _ => 0) (grep_zero env nCols)
      exact ⟨J, by rw [if_neg (by simp)]; exact e, h.congr fun _ _ _ _ => by simp⟩
  obtain ⟨J2, e2, h2⟩ := sqLoop_spec hal henv hc debug useDense ((sq.drop (first + ((ns.drop first).take (last - first)).length - ns.length)).take (last - (first + ((ns.drop first).take (last - first)).length)))
    (fun p hp => hsq p (List.mem_of_mem_drop (List.mem_of_mem_take hp))) h1
  refine ⟨J2, ?_, h2.congr fun d _ j _ => slices_sum ns sq d j first last hl hfl⟩
  unfold evaluateGradients
  simp only [e1]
  rw [ej]
  simp only [Res.bind, List.length_map]
  rw [← e2, List.map_take, List.map_drop]

theorem runJobs_spec {env : Env R} {nCols align : Nat} (hal : 0 < align) (henv : EnvOk env) (hc : ColumnsOk env nCols) (debug useDense : Bool) (ns sq : Terms R)
    (hns : ∀ p ∈ ns, p.1.n = 1 ∧ Legal env align p.1 p.2) (hsq : ∀ p ∈ sq, Legal env align p.1 p.2) (js : List Threads.Job) (hjs : ∀ j ∈ js, j.first ≤ j.last ∧ j.last ≤ ns.length + sq.length) :
    ∃ gs, runJobs debug align env useDense (ns.map Prod.fst) (sq.map Prod.fst) nCols js = .ok gs ∧
      ∀ (D : DMat R) V, GRep env nCols D V → GRep env nCols (gs.foldl addMat D) (fun d j => V d j + ((js.flatMap fun k => List.range' k.first (k.last - k.first)).map (contrib ns sq d j)).sum) := by
  induction js with
  | nil => exact ⟨[], rfl, fun D V h => h.congr fun _ _ _ _ => by simp⟩
  | cons k js ih =>
    obtain ⟨h1, h2⟩ := hjs k (List.mem_cons_self ..)
    obtain ⟨g, eg, hg⟩ := evaluateGradients_spec hal henv hc debug useDense ns sq hns hsq k.first k.last h1 h2
    obtain ⟨gs, egs, hgs⟩ := ih fun q hq => hjs q (List.mem_cons_of_mem _ hq)
    refine ⟨g :: gs, ?_, ?_⟩
    · unfold runJobs
      rw [eg]
      simp only [Res.bind]
      rw [egs]
    · intro D V h
      refine (hgs (addMat D g) _ (grep_add h hg)).congr ?_
      intro d _ j _
      simp only [List.flatMap_cons, List.map_append, List.sum_append]
      ring

theorem foldl_zero {env : Env R} {nCols : Nat} (k : Nat) {D : DMat R} {V : Nat → Nat → R} (h : GRep env nCols D V) : GRep env nCols ((List.replicate k (⟨1, nCols, fun _ _ => 0⟩ : DMat R)).foldl addMat D) V := by
  induction k generalizing D with
  | zero => exact h
  | succ k ih =>
    rw [List.replicate_succ, List.foldl_cons]
    exact ih ((grep_add h (grep_zero env nCols)).congr fun _ _ _ _ => by simp)

theorem applyScaling_spec {env : Env R} {nCols : Nat} (hc : ColumnsOk env nCols) (ds : List Nat) (hn : ds.Nodup) (ha : ∀ d ∈ ds, env.active d = true) {D : DMat R} {V : Nat → Nat → R} (h : GRep env nCols D V) :
    GRep env nCols (applyScaling env ds D) (fun d j => if d ∈ ds then V d j * env.scaling d else V d j) := by
  induction ds generalizing D V with
  | nil => exact h.congr fun _ _ _ _ => by simp
  | cons a ds ih =>
    rw [List.nodup_cons] at hn
    unfold applyScaling
    have h1 : GRep env nCols ⟨D.rows, D.cols, fun i c => if (env.columnBase a).toNat ≤ c ∧ c < (env.columnBase a).toNat + env.dim a then D.e i c * env.scaling a else D.e i c⟩
        (fun d j => if d = a then V d j * env.scaling d else V d j) := by
      refine ⟨h.rows, h.cols, ?_, ?_⟩
      · intro d hd j hj
        simp only
        have hact := ha a (List.mem_cons_self ..)
        by_cases he : d = a
        · subst he
          rw [if_pos ⟨by omega, by omega⟩, if_pos rfl, h.val d hd j hj]
        · rw [if_neg, if_neg he, h.val d hd j hj]
          rintro ⟨h3, h4⟩
          have c1 := hc.nonneg d hd
          have c2 := hc.nonneg a hact
          rcases hc.disjoint d a hd hact he with h5 | h5 <;> omega
      · intro c hcc
        simp only
        rw [if_neg (hcc a (ha a (List.mem_cons_self ..))), h.gaps c hcc]
    refine (ih hn.2 (fun d hd => ha d (List.mem_cons_of_mem _ hd)) h1).congr ?_
    intro d _ j _
    simp only [List.mem_cons]
    by_cases he : d = a
    · subst he
      rw [if_neg hn.1, if_pos rfl, if_pos (Or.inl rfl)]
    · rw [if_neg he]
      by_cases hm : d ∈ ds
      · rw [if_pos hm, if_pos (Or.inr hm)]
      · rw [if_neg hm, if_neg (by rintro (h3 | h3); exacts [he h3, hm h3])]

/-- **C70.** For every problem whose terms make legal calls, every positive number of threads, either container and every build mode, `computeGradient` returns normally, and the entry of the gradient at column `j`
of an active variable `d` is the sum over the squared terms of `2 Σᵢ eᵢ Jᵢⱼ` plus the sum over the non-squared terms of their Jacobian, multiplied by the scaling of the variable if requested. Columns that belong to
no active variable are zero. -/
theorem C70_gradient (debug : Bool) (align : Nat) (env : Env R) (henv : EnvOk env) (nCols : Nat) (hc : ColumnsOk env nCols) (hal : 0 < align) (dvs : List Nat) (hnd : dvs.Nodup)
    (hdvs : ∀ d, env.active d = true ↔ d ∈ dvs) (ns sq : Terms R) (hns : ∀ p ∈ ns, p.1.n = 1 ∧ Legal env align p.1 p.2) (hsq : ∀ p ∈ sq, Legal env align p.1 p.2)
    (nThreads : Nat) (hth : 0 < nThreads) (applyDvScaling useDense : Bool) :
    ∃ g, computeGradient debug align env dvs nCols (ns.map Prod.fst) (sq.map Prod.fst) nThreads applyDvScaling useDense = .ok g ∧ g.rows = 1 ∧ g.cols = nCols ∧
      (∀ d, env.active d = true → ∀ j, j < env.dim d →
        g.e 0 ((env.columnBase d).toNat + j) =
          ((ns.map fun p => total p.2 d 0 j).sum + (sq.map fun p => ∑ i ∈ Finset.range p.1.n, 2 * p.1.err i * total p.2 d i j).sum) * (if applyDvScaling then env.scaling d else 1)) ∧
      (∀ c, (∀ d, env.active d = true → ¬ ((env.columnBase d).toNat ≤ c ∧ c < (env.columnBase d).toNat + env.dim d)) → g.e 0 c = 0) := by
  obtain ⟨⟨js, ejs, hp, -⟩, -⟩ := Threads.C18_range_partition (ns.length + sq.length) nThreads hth
  have hjs : ∀ j ∈ js, j.first ≤ j.last ∧ j.last ≤ ns.length + sq.length := by
    intro j hj
    have h1 := hp.nonempty j hj
    refine ⟨le_of_lt h1, ?_⟩
    have : j.last - 1 ∈ List.range (ns.length + sq.length) := by
      rw [← hp.cover, List.mem_flatMap]
      exact ⟨j, hj, by rw [List.mem_range'_1]; omega⟩
    rw [List.mem_range] at this
    omega
  obtain ⟨gs, egs, hgs⟩ := runJobs_spec hal henv hc debug useDense ns sq hns hsq js hjs
  have hsum : ∀ d j, ((js.flatMap fun k => List.range' k.first (k.last - k.first)).map (contrib ns sq d j)).sum =
      (ns.map fun p => total p.2 d 0 j).sum + (sq.map fun p => sqGrad p.1 p.2 d j).sum := by
    intro d j
    rw [hp.cover]
    have := slices_sum ns sq d j 0 (ns.length + sq.length) (le_refl _) (Nat.zero_le _)
    simp only [List.drop_zero, Nat.sub_zero, Nat.zero_add] at this
    rw [List.range_eq_range', ← this]
    rw [List.take_of_length_le (by omega), Nat.sub_self, List.drop_zero, List.take_of_length_le (by omega)]
  have hg := foldl_zero (nThreads - gs.length) (hgs _ _ (grep_zero env nCols))
  rw [← List.foldl_append] at hg
  unfold computeGradient
  rw [List.length_map, List.length_map, ejs]
  simp only [Res.bind]
  rw [egs]
  simp only
  cases applyDvScaling with
  | false =>
    refine ⟨_, rfl, ?_⟩
    rw [if_neg (by simp)]
    refine ⟨hg.rows, hg.cols, ?_, hg.gaps⟩
    intro d hd j hj
    rw [hg.val d hd j hj, hsum]
    simp [sqGrad]
  | true =>
    refine ⟨_, rfl, ?_⟩
    rw [if_pos rfl]
    have hg' := applyScaling_spec hc dvs hnd (fun d hd => (hdvs d).2 hd) hg
    refine ⟨hg'.rows, hg'.cols, ?_, hg'.gaps⟩
    intro d hd j hj
    rw [hg'.val d hd j hj, if_pos ((hdvs d).1 hd), hsum]
    simp [sqGrad]

/-- Zero threads are rejected. -/
theorem C70_no_threads (debug : Bool) (align : Nat) (env : Env R) (dvs : List Nat) (nCols : Nat) (ns sq : List (Term R)) (s u : Bool) : computeGradient debug align env dvs nCols ns sq 0 s u = .exc := rfl

/-- The hypotheses hold for the demo variables of the Jacobian containers with a non-squared and a squared term. -/
example : ∃ ns sq : Terms Int, ns.length = 1 ∧ sq.length = 1 ∧ (∀ p ∈ ns, p.1.n = 1 ∧ Legal demoEnv 2 p.1 p.2) ∧ (∀ p ∈ sq, Legal demoEnv 2 p.1 p.2) ∧ EnvOk demoEnv ∧ ColumnsOk demoEnv 3 ∧
    (∀ d, demoEnv.active d = true ↔ d ∈ [0, 1]) := by
  refine ⟨[(⟨1, [.add 0 ⟨1, 1, fun _ _ => 3⟩], fun _ => 0⟩, record demoEnv [] 0 (contribution [] ⟨1, 1, fun _ _ => 3⟩))],
    [(⟨2, [.add 1 ⟨2, 2, fun i j => (i : Int) + j⟩], fun _ => 5⟩, record demoEnv [] 1 (contribution [] ⟨2, 2, fun i j => (i : Int) + j⟩))], rfl, rfl, ?_, ?_, demoEnv_ok, demoEnv_columns, ?_⟩
  · intro p hp
    rw [List.mem_singleton.1 hp]
    exact ⟨rfl, by norm_num, .cons rfl (by simp [MatrixStack.Spec.Fits]) (.nil _)⟩
  · intro p hp
    rw [List.mem_singleton.1 hp]
    exact ⟨by norm_num, .cons rfl (by simp [MatrixStack.Spec.Fits]) (.nil _)⟩
  · intro d
    simp [demoEnv]

/-! ### C66 -/

section l1
variable {K : Type} [Field K] [LinearOrder K] [IsStrictOrderedRing K]

/-- The gradient of the L1 term described by its calls: for every list of scalar variables the calls are legal and add, for each occurrence of an active variable, the sign of its value times the weight. -/
theorem l1_run (env : Env K) (align : Nat) (hal : align < 2 ^ 16 ∧ 0 < align) (x : Nat → K) (ds : List Nat) (hdim : ∀ d, env.dim d = 1) (beta : K) (policy : K → K) :
    ∃ ev, Run env align 1 ([], []) (NSTerm.rawOps ⟨beta, 0, policy⟩ (l1Ops env x ds)) ([], ev) ∧
      ∀ d, total ev d 0 0 = beta * ((ds.filter fun k => env.active k).map fun k => if k = d then signum (x k) else 0).sum := by
  have hfits : MatrixStack.Spec.Fits align 1 [MatrixStack.Spec.scalarMat (R := K) 1 beta] := by
    refine ⟨by simp [MatrixStack.Spec.scalarMat], by simp [MatrixStack.Spec.scalarMat], ?_, trivial⟩
    simp only [MatrixStack.Spec.footprint, MatrixStack.Spec.roundUp, MatrixStack.Spec.scalarMat]
    have : (0 + align - 1) / align * align ≤ 0 + align - 1 := Nat.div_mul_le_self _ _
    omega
  have key : ∀ (l : List Nat) (ev0 : List (Event K)), (∀ d ∈ l, env.active d = true) →
      ∃ ev, Run env align 1 ([MatrixStack.Spec.scalarMat 1 beta], ev0) ((l.map fun d => (Op.add d ⟨1, 1, fun _ _ => signum (x d)⟩ : Op K)) ++ [.endScope]) ([], ev) ∧
        ∀ d, total ev d 0 0 = total ev0 d 0 0 + beta * (l.map fun k => if k = d then signum (x k) else 0).sum := by
    intro l
    induction l with
    | nil =>
      intro ev0 _
      exact ⟨ev0, .cons rfl trivial (.nil _), fun d => by simp⟩
    | cons a l ih =>
      intro ev0 hact
      obtain ⟨ev, hr, ht⟩ := ih (record env ev0 a (contribution [MatrixStack.Spec.scalarMat 1 beta] ⟨1, 1, fun _ _ => signum (x a)⟩)) fun d hd => hact d (List.mem_cons_of_mem _ hd)
      refine ⟨ev, .cons (s' := ([MatrixStack.Spec.scalarMat 1 beta], record env ev0 a (contribution [MatrixStack.Spec.scalarMat 1 beta] ⟨1, 1, fun _ _ => signum (x a)⟩))) ?_ hfits hr, ?_⟩
      · simp [Spec.step, MatrixStack.Spec.cols, MatrixStack.Spec.scalarMat, hdim]
      · intro d
        rw [ht d]
        unfold record
        rw [if_pos (hact a (List.mem_cons_self ..)), total_append, List.map_cons, List.sum_cons, mul_add, ← add_assoc]
        congr 2
        have : contribution [MatrixStack.Spec.scalarMat 1 beta] (⟨1, 1, fun _ _ => signum (x a)⟩ : DMat K) 0 0 = beta * signum (x a) := by
          simp [contribution, MatrixStack.Spec.prod, MatrixStack.Spec.scalarMat]
        rw [this]
        split_ifs <;> simp
  obtain ⟨ev, hr, ht⟩ := key (ds.filter fun k => env.active k) [] (fun d hd => by simpa using (List.mem_filter.1 hd).2)
  refine ⟨ev, .cons (s' := ([MatrixStack.Spec.scalarMat 1 beta], [])) rfl hfits ?_, fun d => by rw [ht d]; simp [total]⟩
  exact hr

theorem signum_subgradient (a b : K) : |a| + signum a * (b - a) ≤ |b| := by
  unfold signum
  rcases lt_trichotomy a 0 with h | h | h
  · rw [if_neg (not_lt.2 h.le), if_pos h, abs_of_neg h]
    have := neg_le_abs b
    linarith
  · subst h
    simp
  · rw [if_pos h, if_neg (not_lt.2 h.le), abs_of_pos h]
    have := le_abs_self b
    linarith

theorem signum_unique (a s : K) (ha : a ≠ 0) (h : ∀ b, |a| + s * (b - a) ≤ |b|) : s = signum a := by
  unfold signum
  rcases lt_or_gt_of_ne ha with h0 | h0
  · rw [if_neg (not_lt.2 h0.le), if_pos h0]
    have h1 := h 0
    have h2 := h (2 * a)
    rw [abs_of_neg h0, abs_zero] at h1
    rw [abs_of_neg h0, abs_of_neg (by linarith)] at h2
    have h3 : (s + 1) * a = 0 := by nlinarith
    rcases mul_eq_zero.1 h3 with h4 | h4
    · linarith
    · exact absurd h4 ha
  · rw [if_pos h0, if_neg (not_lt.2 h0.le)]
    have h1 := h 0
    have h2 := h (2 * a)
    rw [abs_of_pos h0, abs_zero] at h1
    rw [abs_of_pos h0, abs_of_pos (by linarith)] at h2
    have h3 : (s - 1) * a = 0 := by nlinarith
    rcases mul_eq_zero.1 h3 with h4 | h4
    · linarith
    · exact absurd h4 ha

/-- **C66.** For every list of scalar variables, every weight `beta ≥ 0` and every point `x`: the cost is `beta` times the sum of the absolute values of the active variables, and the contributions `g d` the
regulariser makes to the gradient of its variables form a subgradient: for every other point `y` that agrees on the variables outside of the list, the cost at `y` is at least the cost at `x` plus `g · (y - x)`. -/
theorem C66_subgradient (env : Env K) (align : Nat) (hal : align < 2 ^ 16 ∧ 0 < align) (x : Nat → K) (ds : List Nat) (hdim : ∀ d, env.dim d = 1) (beta : K) (hb : 0 ≤ beta) (policy : K → K) :
    l1Error env x ds = ((ds.filter fun d => env.active d).map fun d => |x d|).sum ∧
    ∃ ev, Run env align 1 ([], []) (NSTerm.rawOps ⟨beta, 0, policy⟩ (l1Ops env x ds)) ([], ev) ∧
      ∀ y : Nat → K, beta * l1Error env x ds + (ds.dedup.map fun d => total ev d 0 0 * (y d - x d)).sum ≤ beta * l1Error env y ds := by
  have hval : ∀ z : Nat → K, l1Error env z ds = ((ds.filter fun d => env.active d).map fun d => |z d|).sum := by
    intro z
    induction ds with
    | nil => rfl
    | cons a ds ih =>
      unfold l1Error
      rw [ih, List.filter_cons]
      split_ifs <;> simp
  refine ⟨hval x, ?_⟩
  obtain ⟨ev, hr, ht⟩ := l1_run env align hal x ds hdim beta policy
  refine ⟨ev, hr, fun y => ?_⟩
  have hswap : (ds.dedup.map fun d => total ev d 0 0 * (y d - x d)).sum = beta * ((ds.filter fun k => env.active k).map fun k => signum (x k) * (y k - x k)).sum := by
    have hin : ∀ k ∈ ds.filter fun k => env.active k, k ∈ ds.dedup := fun k hk => List.mem_dedup.2 (List.mem_filter.1 hk).1
    generalize ds.filter (fun k => env.active k) = l at ht hin
    have hnd := List.nodup_dedup ds
    generalize ds.dedup = u at hnd hin ⊢
    rw [List.map_congr_left fun d _ => by rw [ht d]]
    clear ht
    induction l with
    | nil => simp
    | cons a l ih =>
      have h1 := ih fun k hk => hin k (List.mem_cons_of_mem _ hk)
      have h2 : (u.map fun d => (if a = d then signum (x a) else 0) * (y d - x d)).sum = signum (x a) * (y a - x a) := by
        have : ∀ u : List Nat, u.Nodup → (u.map fun d => (if a = d then signum (x a) else 0) * (y d - x d)).sum = if a ∈ u then signum (x a) * (y a - x a) else 0 := by
          intro u hu
          induction u with
          | nil => simp
          | cons b u ihu =>
            rw [List.nodup_cons] at hu
            rw [List.map_cons, List.sum_cons, ihu hu.2]
            by_cases hab : a = b
            · subst hab
              simp [hu.1]
            · simp [hab]
        rw [this u hnd, if_pos (hin a (List.mem_cons_self ..))]
      rw [List.map_cons, List.sum_cons, mul_add, ← h1, ← h2, ← List.sum_map_mul_left, ← List.sum_map_add]
      apply congrArg
      apply List.map_congr_left
      intro d _
      simp only [List.map_cons, List.sum_cons]
      ring
  rw [hswap, hval x, hval y, ← mul_add, ← List.sum_map_add]
  apply mul_le_mul_of_nonneg_left _ hb
  apply List.sum_le_sum
  intro k _
  exact signum_subgradient (x k) (y k)

/-- The hypotheses of `C66_subgradient`: three variables, one inactive, one listed twice. -/
example : ∃ (env : Env ℚ) (ds : List Nat), (∀ d, env.dim d = 1) ∧ env.active 0 = true ∧ env.active 2 = false ∧ ds = [0, 1, 0, 2] ∧ l1Error env (fun d => if d = 0 then -3 else 5) ds = 11 :=
  ⟨⟨fun d => d, fun d => d, fun _ => 1, fun d => d != 2, fun _ => 1⟩, [0, 1, 0, 2], fun _ => rfl, rfl, rfl, rfl, by decide +kernel⟩

end l1

/-! ### C81: the weight of a non-squared term -/

/-- Without a policy (weight 1) the factor of the Jacobian and of the error agree, whatever is stored. -/
theorem C81_no_policy [LinearOrder R] (t : NSTerm (R := R)) (hp : ∀ e, t.policy e = 1) (e : R) : t.evaluateError e = t.w * e ∧ t.weightedFactor = t.w := by
  refine ⟨?_, ?_⟩
  · show t.policy _ * (t.w * e) = _
    rw [hp, one_mul]
  · show t.w * t.policy _ = _
    rw [hp, mul_one]

/-- **C81, partial.** If the error is non-negative and was evaluated at the current values, the factor of the Jacobian is the weight times the policy's weight of the error, as for the error itself. What is missing:
negative errors and stale errors, see the counterexamples. -/
theorem C81_fresh_nonnegative_partial [LinearOrder R] [IsOrderedAddMonoid R] (t : NSTerm (R := R)) (e : R) (h : 0 ≤ t.w * e) : (t.updateRawError e).weightedFactor * e = t.evaluateError e := by
  show t.w * t.policy (t.w * e) * e = t.policy |t.w * e| * (t.w * e)
  rw [abs_of_nonneg h]
  ring

/-- A term with weight 2 and the policy `1 / (1 + e)`, evaluated at 3; and one without policy. -/
example : (0 : ℚ) ≤ (⟨2, 0, fun e => 1 / (1 + e)⟩ : NSTerm (R := ℚ)).w * 3 ∧ (⟨2, 0, fun e => 1 / (1 + e)⟩ : NSTerm (R := ℚ)).evaluateError 3 = 6 / 7 ∧
    ∀ e, (⟨2, 0, fun _ => 1⟩ : NSTerm (R := ℚ)).policy e = 1 := by
  refine ⟨by norm_num, ?_, fun _ => rfl⟩
  show (1 / (1 + |(2 : ℚ) * 3|)) * (2 * 3) = 6 / 7
  rw [abs_of_nonneg (by norm_num)]
  norm_num

/-- **The Jacobian uses the policy at the signed error.** A term with weight 1, the Huber policy with `k = 1` and error -4: the weighted error is `1/2 · (-4)`, but the Jacobian is scaled with weight 1. -/
theorem C81_negative_counterexample :
    let t : NSTerm (R := ℝ) := (⟨1, 0, MEstimator.huber 1⟩ : NSTerm (R := ℝ)).updateRawError (-4)
    t.weightedError = 1 / 2 * (-4) ∧ t.weightedFactor = 1 := by
  have h2 : Real.sqrt 4 = 2 := by rw [show (4 : ℝ) = 2 ^ 2 by norm_num]; exact Real.sqrt_sq (by norm_num)
  refine ⟨?_, ?_⟩
  · show MEstimator.huber 1 |1 * (-4)| * (1 * (-4)) = _
    have : |(1 : ℝ) * (-4)| = 4 := by norm_num
    rw [this]
    unfold MEstimator.huber
    rw [if_neg (by norm_num), h2]
    norm_num
  · show (1 : ℝ) * MEstimator.huber 1 (1 * (-4)) = 1
    unfold MEstimator.huber
    rw [if_pos (by norm_num)]
    norm_num

/-- **The Jacobian uses the policy at the stored error.** A new term whose error now is 4: `computeGradient` does not evaluate the error of non-squared terms, so the factor is the one of the initial error 0. -/
theorem C81_stale_counterexample :
    let t : NSTerm (R := ℝ) := ⟨1, 0, MEstimator.huber 1⟩
    t.evaluateError 4 = 1 / 2 * 4 ∧ t.weightedFactor = 1 ∧ (t.updateRawError 4).weightedFactor = 1 / 2 := by
  have h2 : Real.sqrt 4 = 2 := by rw [show (4 : ℝ) = 2 ^ 2 by norm_num]; exact Real.sqrt_sq (by norm_num)
  refine ⟨?_, ?_, ?_⟩
  · show MEstimator.huber 1 |1 * 4| * (1 * 4) = _
    have : |(1 : ℝ) * 4| = 4 := by norm_num
    rw [this]
    unfold MEstimator.huber
    rw [if_neg (by norm_num), h2]
    norm_num
  · show (1 : ℝ) * MEstimator.huber 1 0 = 1
    unfold MEstimator.huber
    rw [if_pos (by norm_num)]
    norm_num
  · show (1 : ℝ) * MEstimator.huber 1 (1 * 4) = 1 / 2
    unfold MEstimator.huber
    simp only [one_mul]; rw [if_neg (by norm_num), h2]

end Verif.Gradient
