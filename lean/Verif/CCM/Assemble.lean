import Verif.CCM.Build
import Verif.Threads.Props

/-! The builder: symbolic structure for all terms, then all value writes. -/
namespace Verif.CCM
open Verif.MatrixStack Verif.Jacobian Verif.Jacobian.Spec

variable {R : Type} [Semiring R]

theorem run_append {σ ω : Type} (f : σ → ω → Res σ) (s : σ) (a b : List ω) :
    Res.run f s (a ++ b) = (Res.run f s a >>= fun s' => Res.run f s' b) := by
  induction a generalizing s with
  | nil => rfl
  | cons x a ih =>
    simp only [List.cons_append, Res.run_cons]
    cases h : f s x with
    | ok s' => simp only [Res.bind_ok]; exact ih s'
    | exc => rfl
    | ub => rfl

theorem run_flatMap {σ ω ι : Type} (f : σ → ω → Res σ) (g : ι → List ω) (s : σ) (l : List ι) :
    Res.run (fun s i => Res.run f s (g i)) s l = Res.run f s (l.flatMap g) := by
  induction l generalizing s with
  | nil => rfl
  | cons x l ih =>
    simp only [List.flatMap_cons, Res.run_cons, run_append]
    cases h : Res.run f s (g x) with
    | ok s' => simp only [Res.bind_ok]; exact ih s'
    | exc => rfl
    | ub => rfl

theorem slice_eq {α : Type} (l : List α) (a k : Nat) :
    (l.drop a).take k = (List.range' a k).filterMap (l[·]?) := by
  induction k generalizing a with
  | zero => simp
  | succ k ih =>
    rw [List.range'_succ]
    rcases Nat.lt_or_ge a l.length with h | h
    · rw [List.filterMap_cons_some (b := l[a]) (by simp [h]), ← ih, List.drop_eq_getElem_cons h, List.take_succ_cons]
    · rw [List.filterMap_cons_none (by simp; omega), ← ih, List.drop_eq_nil_of_le h, List.drop_eq_nil_of_le (by omega)]
      simp

theorem slices_cover {α : Type} (l : List α) (js : List Threads.Job) (h : Threads.Partition js l.length) :
    (js.flatMap fun j => (l.drop j.first).take (j.last - j.first)) = l := by
  have h1 : (js.flatMap fun j => (l.drop j.first).take (j.last - j.first)) =
      (js.flatMap fun j => List.range' j.first (j.last - j.first)).filterMap (l[·]?) := by
    induction js with
    | nil => simp
    | cons j js ih => simp only [List.flatMap_cons, List.filterMap_append, slice_eq] at *; simp [slice_eq, List.filterMap_flatMap]
  rw [h1, h.cover, List.range_eq_range', ← slice_eq]
  simp

/-- A term whose calls are legal, touching exactly its active design variables, without repetition. -/
structure LegalTerm (env : Env R) (align : Nat) (t : Term R) (ev : List (Event R)) : Prop where
  dim : t.dim < 2 ^ 16
  run : ∃ fs, Run env align t.dim ([], []) t.calls (fs, ev)
  nodup : t.dvs.Nodup
  touched : ∀ d, d ∈ t.dvs ∧ env.active d = true ↔ d ∈ ev.map Prod.fst

theorem ColumnLayout.envOk {env : Env R} {rows : Nat} (h : ColumnLayout env rows) : EnvOk env := ⟨h.block, h.inj⟩

theorem sortedActive_sorted {env : Env R} {rows : Nat} (h : ColumnLayout env rows) (dvs : List Nat) (hn : dvs.Nodup) :
    (sortedActive env dvs).Pairwise fun a b => env.blockIndex a < env.blockIndex b := by
  have h1 : (sortedActive env dvs).Pairwise fun a b => env.blockIndex a ≤ env.blockIndex b := by
    unfold sortedActive
    haveI : Std.Total fun a b : Nat => env.blockIndex a ≤ env.blockIndex b := ⟨fun a b => by omega⟩
    haveI : IsTrans Nat fun a b : Nat => env.blockIndex a ≤ env.blockIndex b := ⟨fun a b c h1 h2 => by omega⟩
    exact List.pairwise_insertionSort _ _
  have h2 : (sortedActive env dvs).Nodup := (List.perm_insertionSort _ _).nodup_iff.2 (hn.filter _)
  have h3 := h1.and (List.nodup_iff_pairwise_ne.1 h2)
  refine List.Pairwise.imp_of_mem ?_ h3
  intro a b ha hb ⟨hle, hne⟩
  rcases Int.lt_or_eq_of_le hle with hlt | heq
  · exact hlt
  · exact absurd (h.inj a b ((mem_sortedActive env dvs a).1 ha).2 ((mem_sortedActive env dvs b).1 hb).2 heq) hne

theorem eq_of_sorted {f : Nat → Int} {l l' : List Nat} (h : l.Pairwise fun a b => f a < f b)
    (h' : l'.Pairwise fun a b => f a < f b) (hm : ∀ d, d ∈ l ↔ d ∈ l') : l = l' := by
  have n1 : l.Nodup := List.nodup_iff_pairwise_ne.2 (h.imp fun {a b} hab => by rintro rfl; omega)
  have n2 : l'.Nodup := List.nodup_iff_pairwise_ne.2 (h'.imp fun {a b} hab => by rintro rfl; omega)
  exact List.Perm.eq_of_pairwise (fun a b _ _ h1 h2 => by omega) h h' ((List.perm_ext_iff_of_nodup n1 n2).2 hm)

/-- The columns of a term: for each of its rows the coefficients of its active variables. -/
def termCols (env : Env R) (t : Term R) (ev : List (Event R)) : List (List (Nat × R)) :=
  (List.range t.dim).map fun c => (sortedActive env t.dvs).flatMap fun d =>
    (List.range (env.dim d)).map fun (r : Nat) => ((env.columnBase d + (r : Int)).toNat, total ev d c r)

/-- The container of a term, empty if its evaluation fails. -/
def jac (debug : Bool) (align : Nat) (env : Env R) (t : Term R) : SMap R :=
  match termJacobian debug align env t with
  | .ok m => m
  | _ => []

theorem jac_ok {debug : Bool} {align rows : Nat} {env : Env R} (hl : ColumnLayout env rows) (ha : 0 < align)
    {t : Term R} {ev : List (Event R)} (ht : LegalTerm env align t ev) :
    termJacobian debug align env t = .ok (jac debug align env t) ∧ SRep env t.dim (jac debug align env t) ev ∧
      (jac debug align env t).map Prod.fst = sortedActive env t.dvs := by
  obtain ⟨fs, hrun⟩ := ht.run
  obtain ⟨jc, e, i⟩ := run_inv ha hl.envOk (sparse_implements hl.envOk t.dim debug)
    (newSparse_inv env align t.dim 100 ht.dim) hrun
  have h1 : termJacobian debug align env t = .ok jc.store := by
    unfold termJacobian
    rw [e, Res.bind_ok]
  have h2 : jac debug align env t = jc.store := by simp [jac, h1]
  rw [h2]
  refine ⟨h1, i.rep, eq_of_sorted (f := env.blockIndex) ?_ (sortedActive_sorted hl _ ht.nodup) ?_⟩
  · rw [List.pairwise_map]; exact i.rep.sorted
  · intro d
    rw [i.rep.keys, mem_sortedActive, ht.touched]

theorem jac_block {debug : Bool} {align rows : Nat} {env : Env R} (hl : ColumnLayout env rows) (ha : 0 < align)
    {t : Term R} {ev : List (Event R)} (ht : LegalTerm env align t ev) :
    block (jac debug align env t) t.dim = (termCols env t ev).flatten.map Prod.snd := by
  obtain ⟨_, hs, hk⟩ := jac_ok (debug := debug) hl ha ht
  unfold block termCols
  rw [← List.flatMap_def, List.map_flatMap]
  apply List.flatMap_congr
  intro c hc
  have hc' := List.mem_range.1 hc
  rw [← hk, List.flatMap_map, List.map_flatMap]
  unfold rowOf
  apply List.flatMap_congr
  intro p hp
  rw [List.map_map, (hs.shape p hp).2]
  apply List.map_congr_left
  intro r hr
  exact hs.val p hp c r hc' (List.mem_range.1 hr)

theorem jac_width {debug : Bool} {align rows : Nat} {env : Env R} (hl : ColumnLayout env rows) (ha : 0 < align)
    {t : Term R} {ev : List (Event R)} (ht : LegalTerm env align t ev) :
    width (jac debug align env t) = (pattern env (sortedActive env t.dvs)).length := by
  obtain ⟨_, hs, hk⟩ := jac_ok (debug := debug) hl ha ht
  rw [pattern_length, ← hk, List.map_map, width]
  congr 1
  apply List.map_congr_left
  intro p hp
  exact (hs.shape p hp).2

/-! ### The symbolic pass over all terms -/

/-- Pointers handed out by the symbolic pass. -/
def ptrsOf (env : Env R) : Nat → List (Term R) → List (Ptr × Term R)
  | _, [] => []
  | s, t :: ts =>
    let k := (pattern env (sortedActive env t.dvs)).length
    (⟨s, k, (sortedActive env t.dvs).length⟩, t) :: ptrsOf env (s + t.dim * k) ts

theorem zeroCols_length (env : Env R) (t : Term R) :
    (zeroCols env t).flatten.length = t.dim * (pattern env (sortedActive env t.dvs)).length := by
  simp [zeroCols]

theorem Rep.values_length {A : CCM R} {cols : List (List (Nat × R))} (h : Rep A cols) :
    A.values.length = cols.flatten.length := by
  have := h.arr
  rw [CCS.build_eq] at this
  simp only [arrays, CCS.Arrays.mk.injEq] at this
  rw [this.2.2, List.length_map]

theorem symbolicAll_ok (debug : Bool) (env : Env R) (ts : List (Term R)) (A : CCM R)
    (hl : ColumnLayout env A.rows) (cols : List (List (Nat × R))) (hrep : Rep A cols) (hf : A.hasDiag = false)
    (hact : A.acceptConst = true ∨ ∀ t ∈ ts, ∃ d ∈ t.dvs, env.active d = true) :
    ∃ B, symbolicAll debug env A ts = .ok (B, ptrsOf env A.values.length ts) ∧ B.rows = A.rows ∧ B.hasDiag = false ∧
      Rep B (cols ++ ts.flatMap (zeroCols env)) := by
  induction ts generalizing A cols with
  | nil => exact ⟨A, rfl, rfl, hf, by simpa using hrep⟩
  | cons t ts ih =>
    obtain ⟨B, h1, h2, h3, h4, h5⟩ := appendSymbolic_ok debug env A t hl cols hrep hf
      (hact.imp id fun h => h t List.mem_cons_self)
    obtain ⟨C, g1, g2, g3, g4⟩ := ih B (by rw [h2]; exact hl) _ h5 h3
      (by rw [h4]; exact hact.imp id fun h t' ht' => h t' (List.mem_cons_of_mem _ ht'))
    refine ⟨C, ?_, g2.trans h2, g3, ?_⟩
    · simp only [symbolicAll, h1, Res.bind_ok, g1, ptrsOf]
      rw [h5.values_length, List.flatten_append, List.length_append, zeroCols_length, ← hrep.values_length]
    · rw [List.flatMap_cons, ← List.append_assoc]; exact g4

/-! ### All writes -/

/-- Every element assignment of the value pass. -/
def allWrites (debug : Bool) (align : Nat) (env : Env R) (ps : List (Ptr × Term R)) : List (Nat × R) :=
  ps.flatMap fun pt => jacWrites pt.1.start pt.1.perCol 0 (jac debug align env pt.2)

theorem putAll_append {α : Type} (v : List α) (a b : List (Nat × α)) :
    putAll v (a ++ b) = (putAll v a >>= fun v' => putAll v' b) := run_append _ v a b

theorem run_writeTerm (debug : Bool) (align : Nat) (env : Env R) (ps : List (Ptr × Term R)) (A : CCM R)
    (h : ∀ pt ∈ ps, termJacobian debug align env pt.2 = .ok (jac debug align env pt.2) ∧
      (jac debug align env pt.2).length = pt.1.nActive) :
    Res.run (writeTerm debug align env) A ps =
      (putAll A.values (allWrites debug align env ps) >>= fun vs => .ok { A with values := vs }) := by
  induction ps generalizing A with
  | nil => rfl
  | cons pt ps ih =>
    obtain ⟨h1, h2⟩ := h pt List.mem_cons_self
    simp only [Res.run_cons, writeTerm, h1, Res.bind_ok, writeJacobians, h2, ne_eq, not_true, if_false,
      allWrites, List.flatMap_cons, putAll_append]
    cases hp : putAll A.values (jacWrites pt.1.start pt.1.perCol 0 (jac debug align env pt.2)) with
    | ok v =>
      simp only [Res.bind_ok]
      rw [ih _ fun q hq => h q (List.mem_cons_of_mem _ hq)]
      rfl
    | exc => rfl
    | ub => rfl

theorem termCols_flatten_length (env : Env R) (t : Term R) (ev : List (Event R)) :
    (termCols env t ev).flatten.length = t.dim * (pattern env (sortedActive env t.dvs)).length := by
  unfold termCols
  rw [← List.flatMap_def, flatMap_const_length _ _ (pattern env (sortedActive env t.dvs)).length]
  intro c _
  rw [pattern_length]
  simp [List.length_flatMap]

/-- Membership and coverage of the writes with respect to the expected values. -/
theorem allWrites_spec {debug : Bool} {align rows : Nat} {env : Env R} (hl : ColumnLayout env rows) (ha : 0 < align)
    (ts : List (Term R × List (Event R))) (ht : ∀ p ∈ ts, LegalTerm env align p.1 p.2) (s : Nat) :
    let ws := allWrites debug align env (ptrsOf env s (ts.map Prod.fst))
    let x := (ts.flatMap fun p => termCols env p.1 p.2).flatten.map Prod.snd
    (∀ w ∈ ws, s ≤ w.1 ∧ x[w.1 - s]? = some w.2) ∧ (∀ k, k < x.length → s + k ∈ ws.map Prod.fst) := by
  induction ts generalizing s with
  | nil => simp [allWrites, ptrsOf]
  | cons p ts ih =>
    obtain ⟨t, ev⟩ := p
    have htt := ht (t, ev) List.mem_cons_self
    simp only at htt
    obtain ⟨_, hs, hk⟩ := jac_ok (debug := debug) hl ha htt
    have hb := jac_block (debug := debug) hl ha htt
    have hw := jac_width (debug := debug) hl ha htt
    have hrows : ∀ q ∈ jac debug align env t, q.2.rows = t.dim := fun q hq => (hs.shape q hq).1
    have hL := termCols_flatten_length env t ev
    have hbl : (block (jac debug align env t) t.dim).length =
        t.dim * (pattern env (sortedActive env t.dvs)).length := by rw [hb, List.length_map, hL]
    obtain ⟨i1, i2⟩ := ih (fun q hq => ht q (List.mem_cons_of_mem _ hq))
      (s + t.dim * (pattern env (sortedActive env t.dvs)).length)
    simp only [List.map_cons, ptrsOf, allWrites, List.flatMap_cons, List.flatten_append, List.map_append] at i1 i2 ⊢
    rw [← hb, ← hw] at *
    constructor
    · intro w hw'
      rcases List.mem_append.1 hw' with h | h
      · obtain ⟨g1, g2, g3⟩ := jacWrites_sound s t.dim _ hrows w h
        exact ⟨g1, by rw [List.getElem?_append_left (by omega)]; exact g3⟩
      · obtain ⟨g1, g2⟩ := i1 w h
        refine ⟨by omega, ?_⟩
        rw [List.getElem?_append_right (by omega), hbl, Nat.sub_sub]
        exact g2
    · intro k hk'
      rw [List.mem_append]
      rw [List.length_append] at hk'
      rcases Nat.lt_or_ge k (block (jac debug align env t) t.dim).length with h | h
      · exact .inl (jacWrites_complete s t.dim _ hrows k h)
      · right
        have := i2 (k - (block (jac debug align env t) t.dim).length) (by omega)
        rw [← hbl, show s + (block (jac debug align env t) t.dim).length +
          (k - (block (jac debug align env t) t.dim).length) = s + k by omega, hbl] at this
        exact this

theorem build_congr (xs ys : List (List (Nat × R))) (h : xs.map (List.map Prod.fst) = ys.map (List.map Prod.fst)) :
    (CCS.build xs).cp = (CCS.build ys).cp ∧ (CCS.build xs).ci = (CCS.build ys).ci := by
  have hlen : xs.map List.length = ys.map List.length := by
    have := congrArg (List.map List.length) h
    simpa [Function.comp_def] using this
  have hl : xs.length = ys.length := by simpa using congrArg List.length hlen
  rw [CCS.build_eq, CCS.build_eq]
  refine ⟨?_, ?_⟩
  · simp only [hl]
    apply List.map_congr_left
    intro j _
    unfold CCS.offset
    rw [List.map_take, List.map_take, hlen]
  · simp only [List.map_flatten, h]

theorem termCols_rows (env : Env R) (t : Term R) (ev : List (Event R)) :
    (termCols env t ev).map (List.map Prod.fst) = (zeroCols env t).map (List.map Prod.fst) := by
  have : ∀ c, (((sortedActive env t.dvs).flatMap fun d => (List.range (env.dim d)).map fun (r : Nat) =>
      ((env.columnBase d + (r : Int)).toNat, total ev d c r)).map Prod.fst) = pattern env (sortedActive env t.dvs) := by
    intro c
    rw [List.map_flatMap]
    unfold pattern
    simp [Function.comp_def]
  unfold termCols zeroCols
  rw [List.map_map, List.map_replicate, List.map_map]
  simp only [Function.comp_def, this, List.map_const', List.length_range, List.map_id']

/-- Columns of the stacked matrix. -/
def stackCols (env : Env R) (ts : List (Term R × List (Event R))) : List (List (Nat × R)) :=
  ts.flatMap fun p => termCols env p.1 p.2

theorem stackCols_rows (env : Env R) (ts : List (Term R × List (Event R))) :
    (stackCols env ts).map (List.map Prod.fst) = ((ts.map Prod.fst).flatMap (zeroCols env)).map (List.map Prod.fst) := by
  induction ts with
  | nil => rfl
  | cons p ts ih =>
    simp only [stackCols, List.flatMap_cons, List.map_append, List.map_cons, termCols_rows] at ih ⊢
    rw [ih]

theorem ptrsOf_terms (env : Env R) (s : Nat) (ts : List (Term R)) : (ptrsOf env s ts).map Prod.snd = ts := by
  induction ts generalizing s with
  | nil => rfl
  | cons t ts ih => simp [ptrsOf, ih]

theorem mem_ptrsOf {env : Env R} {s : Nat} {ts : List (Term R)} {pt : Ptr × Term R} (h : pt ∈ ptrsOf env s ts) :
    pt.2 ∈ ts ∧ pt.1.nActive = (sortedActive env pt.2.dvs).length := by
  induction ts generalizing s with
  | nil => simp [ptrsOf] at h
  | cons t ts ih =>
    simp only [ptrsOf, List.mem_cons] at h
    rcases h with rfl | h
    · exact ⟨List.mem_cons_self, rfl⟩
    · exact ⟨List.mem_cons_of_mem _ (ih h).1, (ih h).2⟩

/-- Writing all values, in any order of the element assignments, gives the stacked matrix. -/
theorem writes_any_order {debug : Bool} {align : Nat} {env : Env R} (A : CCM R) (hl : ColumnLayout env A.rows)
    (ha : 0 < align) (ts : List (Term R × List (Event R))) (ht : ∀ p ∈ ts, LegalTerm env align p.1 p.2)
    (hrep : Rep A ((ts.map Prod.fst).flatMap (zeroCols env))) (ws : List (Nat × R))
    (hws : ∀ w, w ∈ ws ↔ w ∈ allWrites debug align env (ptrsOf env 0 (ts.map Prod.fst))) :
    ∃ vs, putAll A.values ws = .ok vs ∧ Rep { A with values := vs } (stackCols env ts) := by
  obtain ⟨h1, h2⟩ := allWrites_spec (debug := debug) hl ha ts ht 0
  have hr := stackCols_rows env ts
  have hlen2 : (stackCols env ts).flatten.length = ((ts.map Prod.fst).flatMap (zeroCols env)).flatten.length := by
    have := congrArg (fun l => (List.flatten l).length) hr
    simpa [List.length_flatten, Function.comp_def] using this
  refine ⟨(stackCols env ts).flatten.map Prod.snd, ?_, ?_⟩
  · apply putAll_eq
    · rw [hrep.values_length, List.length_map, hlen2]
    · intro w hw
      have := (h1 w ((hws w).1 hw)).2
      simpa [stackCols] using this
    · intro k hk
      left
      have := h2 k (by simpa [stackCols] using hk)
      rw [Nat.zero_add] at this
      obtain ⟨w, hw, rfl⟩ := List.mem_map.1 this
      exact List.mem_map.2 ⟨w, (hws w).2 hw, rfl⟩
  · have hA := hrep.arr
    obtain ⟨b1, b2⟩ := build_congr _ _ hr
    constructor
    · have e3 : (CCS.build (stackCols env ts)).cx = (stackCols env ts).flatten.map Prod.snd := by rw [CCS.build_eq]
      have a1 : A.colPtr = (CCS.build (stackCols env ts)).cp := by rw [b1, ← hA]; rfl
      have a2 : A.rowInd = (CCS.build (stackCols env ts)).ci := by rw [b2, ← hA]; rfl
      simp only [arrays, a1, a2, ← e3]
    · have := congrArg List.length hr
      simp only [List.length_map] at this
      simp only [this]
      exact hrep.len

theorem pattern_sorted {env : Env R} {rows : Nat} (h : ColumnLayout env rows) (act : List Nat)
    (hact : ∀ d ∈ act, env.active d = true) (hs : act.Pairwise fun a b => env.blockIndex a < env.blockIndex b) :
    (pattern env act).Pairwise (· < ·) := by
  induction act with
  | nil => simp [pattern]
  | cons d ds ih =>
    rw [List.pairwise_cons] at hs
    have ihd := ih (fun d' hd' => hact d' (List.mem_cons_of_mem _ hd')) hs.2
    unfold pattern at ihd ⊢
    have h0 := h.nonneg d (hact d List.mem_cons_self)
    rw [List.flatMap_cons, List.pairwise_append]
    refine ⟨?_, ihd, ?_⟩
    · rw [List.pairwise_map]
      exact List.pairwise_lt_range.imp (by intro a b hab; omega)
    · intro a ha b hb
      obtain ⟨r, hr, rfl⟩ := List.mem_map.1 ha
      obtain ⟨d', hd', hb⟩ := List.mem_flatMap.1 hb
      obtain ⟨r', hr', rfl⟩ := List.mem_map.1 hb
      have := h.ordered d d' (hact d List.mem_cons_self) (hact d' (List.mem_cons_of_mem _ hd')) (hs.1 d' hd')
      have := List.mem_range.1 hr
      omega

theorem stackCols_ok {align rows : Nat} {env : Env R} (hl : ColumnLayout env rows)
    (ts : List (Term R × List (Event R))) (ht : ∀ p ∈ ts, LegalTerm env align p.1 p.2) :
    ColsOk rows (stackCols env ts) := by
  have key : ∀ c ∈ stackCols env ts, ∃ p ∈ ts, c.map Prod.fst = pattern env (sortedActive env p.1.dvs) := by
    intro c hc
    obtain ⟨p, hp, hc⟩ := List.mem_flatMap.1 hc
    refine ⟨p, hp, ?_⟩
    have h1 : c.map Prod.fst ∈ (termCols env p.1 p.2).map (List.map Prod.fst) := List.mem_map_of_mem hc
    rw [termCols_rows] at h1
    unfold zeroCols at h1
    rw [List.map_replicate] at h1
    rw [List.eq_of_mem_replicate h1, List.map_map]
    simp [Function.comp_def]
  constructor
  · intro c hc e he
    obtain ⟨p, hp, hk⟩ := key c hc
    have : e.1 ∈ pattern env (sortedActive env p.1.dvs) := hk ▸ List.mem_map_of_mem he
    obtain ⟨d, hd, hb⟩ := List.mem_flatMap.1 this
    obtain ⟨r, hr, hb⟩ := List.mem_map.1 hb
    have hda := ((mem_sortedActive env _ d).1 hd).2
    have := hl.fits d hda
    have := hl.nonneg d hda
    have := List.mem_range.1 hr
    omega
  · intro c hc
    obtain ⟨p, hp, hk⟩ := key c hc
    have := pattern_sorted hl (sortedActive env p.1.dvs) (fun d hd => ((mem_sortedActive env _ d).1 hd).2)
      (sortedActive_sorted hl _ (ht p hp).nodup)
    rw [← hk, List.pairwise_map] at this
    exact this

/-- Reading an element of a column of a term. -/
theorem termCol_read {align rows : Nat} {env : Env R} (hl : ColumnLayout env rows) {t : Term R} {ev : List (Event R)}
    (ht : LegalTerm env align t ev) (c d r : Nat) (hd : env.active d = true) (hr : r < env.dim d) :
    ((((sortedActive env t.dvs).flatMap fun d => (List.range (env.dim d)).map fun (r : Nat) =>
      ((env.columnBase d + (r : Int)).toNat, total ev d c r)).map fun e =>
        if e.1 = (env.columnBase d + (r : Int)).toNat then e.2 else 0).sum) = total ev d c r := by
  have hd0 := hl.nonneg d hd
  have hcol : ∀ act : List Nat, act.Nodup → (∀ d' ∈ act, env.active d' = true) →
      ((act.flatMap fun d => (List.range (env.dim d)).map fun (r : Nat) =>
      ((env.columnBase d + (r : Int)).toNat, total ev d c r)).map fun e =>
        if e.1 = (env.columnBase d + (r : Int)).toNat then e.2 else 0).sum =
      if d ∈ act then total ev d c r else 0 := by
    intro act hn hact
    induction act with
    | nil => simp
    | cons d' ds ih =>
      rw [List.nodup_cons] at hn
      rw [List.flatMap_cons, List.map_append, List.sum_append,
        ih hn.2 (fun x hx => hact x (List.mem_cons_of_mem _ hx)), List.map_map]
      have hd'0 := hl.nonneg d' (hact d' List.mem_cons_self)
      by_cases hdd : d = d'
      · subst hdd
        have e1 : ((List.range (env.dim d)).map ((fun e : Nat × R =>
            if e.1 = (env.columnBase d + (r : Int)).toNat then e.2 else 0) ∘ fun (q : Nat) =>
              ((env.columnBase d + (q : Int)).toNat, total ev d c q))) =
            (List.range (env.dim d)).map fun q => if q = r then total ev d c r else 0 := by
          apply List.map_congr_left
          intro q _
          simp only [Function.comp]
          by_cases hq : q = r
          · subst hq; simp
          · rw [if_neg (by omega), if_neg hq]
        rw [e1, sum_range_single _ _ r hr (by intro u _ hu; rw [if_neg hu]), if_neg hn.1, if_pos List.mem_cons_self, add_zero,
          if_pos rfl]
      · have e1 : ((List.range (env.dim d')).map ((fun e : Nat × R =>
            if e.1 = (env.columnBase d + (r : Int)).toNat then e.2 else 0) ∘ fun (q : Nat) =>
              ((env.columnBase d' + (q : Int)).toNat, total ev d' c q))) =
            (List.range (env.dim d')).map fun _ => (0 : R) := by
          apply List.map_congr_left
          intro q hq
          have hq := List.mem_range.1 hq
          simp only [Function.comp]
          rw [if_neg]
          have hd' := hact d' List.mem_cons_self
          have hbne : env.blockIndex d ≠ env.blockIndex d' := fun h => hdd (hl.inj d d' hd hd' h)
          rcases Int.lt_or_gt_of_ne hbne with h | h
          · have := hl.ordered d d' hd hd' h; omega
          · have := hl.ordered d' d hd' hd h; omega
        rw [e1]
        simp [hdd]
  have hn : (sortedActive env t.dvs).Nodup := (List.perm_insertionSort _ _).nodup_iff.2 (ht.nodup.filter _)
  rw [hcol _ hn (fun d' h => ((mem_sortedActive env _ d').1 h).2)]
  by_cases h : d ∈ sortedActive env t.dvs
  · rw [if_pos h]
  · rw [if_neg h, total_eq_zero]
    intro hm
    exact h ((mem_sortedActive env _ d).2 ((ht.touched d).2 hm))

end Verif.CCM
