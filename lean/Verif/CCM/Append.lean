import Verif.CCM.Props

/-! C16 for `appendJacobians`: one Jacobian container after the other is appended to a matrix. -/
namespace Verif.CCM
open Verif.MatrixStack Verif.Jacobian Verif.Jacobian.Spec

variable {R : Type} [Semiring R]

/-- The Jacobians of one error term are evaluated into a new container (ErrorTerm::evaluateJacobians) and the container is appended, CCM.hpp:217-227. -/
def appendTerm (debug : Bool) (align : Nat) (env : Env R) (A : CCM R) (t : Term R) : Res (CCM R) := do
  let jc ← Res.run (Jacobian.step debug align env sparseAddJ) (newSparse t.dim 100) t.calls
  appendJacobians debug env A jc

/-- Appending one container. -/
theorem append_ok {debug : Bool} {align : Nat} {env : Env R} (ha : 0 < align) (A : CCM R) (hl : ColumnLayout env A.rows) (cols : List (List (Nat × R))) (hrep : Rep A cols) (hf : A.hasDiag = false)
    (t : Term R) (ev : List (Event R)) (ht : LegalTerm env align t ev) (hact : A.acceptConst = true ∨ ∃ d ∈ t.dvs, env.active d = true) :
    ∃ B, appendTerm debug align env A t = .ok B ∧ B.rows = A.rows ∧ B.hasDiag = false ∧ B.acceptConst = A.acceptConst ∧ Rep B (cols ++ termCols env t ev) := by
  obtain ⟨fs, hrun⟩ := ht.run
  obtain ⟨jc, e, i⟩ := run_inv (debug := debug) ha hl.envOk (sparse_implements hl.envOk t.dim debug) (newSparse_inv env align t.dim 100 ht.dim) hrun
  have hj : jac debug align env t = jc.store := by
    have h1 : termJacobian debug align env t = .ok jc.store := by unfold termJacobian; rw [e, Res.bind_ok]
    simp [jac, h1]
  obtain ⟨_, hs, hk⟩ := jac_ok (debug := debug) hl ha ht
  have hb := jac_block (debug := debug) hl ha ht
  have hw := jac_width (debug := debug) hl ha ht
  rw [hj] at hs hk hb hw
  have hsort := sortedActive_sorted hl t.dvs ht.nodup
  -- the list of variables of the container
  have hss : sortedActive env (sortedActive env t.dvs) = sortedActive env t.dvs := by
    refine eq_of_sorted (f := env.blockIndex) (sortedActive_sorted hl _ ?_) hsort fun d => ?_
    · exact (List.perm_insertionSort _ _).nodup_iff.2 (ht.nodup.filter _)
    · rw [mem_sortedActive, mem_sortedActive]
      tauto
  obtain ⟨B, h1, h2, h3, h4, h5⟩ := appendSymbolic_ok debug env A ⟨t.dim, sortedActive env t.dvs, t.calls⟩ hl cols hrep hf (hact.imp id fun ⟨d, hd, hda⟩ => ⟨d, (mem_sortedActive env t.dvs d).2 ⟨hd, hda⟩, hda⟩)
  simp only [hss] at h1
  have hz : zeroCols env ⟨t.dim, sortedActive env t.dvs, t.calls⟩ = zeroCols env t := by unfold zeroCols; simp only [hss]
  rw [hz] at h5
  have hrows : ∀ q ∈ jc.store, q.2.rows = t.dim := fun q hq => (hs.shape q hq).1
  have hL := termCols_flatten_length env t ev
  have hbl : (block jc.store t.dim).length = t.dim * (pattern env (sortedActive env t.dvs)).length := by rw [hb, List.length_map, hL]
  have hfst : (cols ++ termCols env t ev).map (List.map Prod.fst) = (cols ++ zeroCols env t).map (List.map Prod.fst) := by rw [List.map_append, List.map_append, termCols_rows]
  have hv0 : A.values.length = cols.flatten.length := hrep.values_length
  have hA := hrep.arr
  have hBa := h5.arr
  have hBv : B.values = cols.flatten.map Prod.snd ++ (zeroCols env t).flatten.map Prod.snd := by
    have := congrArg CCS.Arrays.cx hBa
    rw [CCS.build_eq] at this
    simpa [arrays] using this
  have hput : putAll B.values (jacWrites A.values.length (pattern env (sortedActive env t.dvs)).length 0 jc.store) = .ok ((cols ++ termCols env t ev).flatten.map Prod.snd) := by
    rw [List.flatten_append, List.map_append, ← hb, ← hw]
    apply putAll_eq
    · rw [hBv, List.length_append, List.length_append, List.length_map, List.length_map, zeroCols_length, hbl]
    · intro w hwm
      obtain ⟨g1, g2, g3⟩ := jacWrites_sound A.values.length t.dim _ hrows w hwm
      rw [List.getElem?_append_right (by rw [List.length_map]; omega), List.length_map, ← hv0]
      exact g3
    · intro k hk'
      rcases Nat.lt_or_ge k cols.flatten.length with h | h
      · right
        rw [hBv, List.getElem?_append_left (by rw [List.length_map]; exact h), List.getElem?_append_left (by rw [List.length_map]; exact h)]
      · left
        rw [List.length_append, List.length_map] at hk'
        have := jacWrites_complete A.values.length t.dim _ hrows (k - cols.flatten.length) (by omega)
        rwa [hv0, show cols.flatten.length + (k - cols.flatten.length) = k by omega, ← hv0] at this
  refine ⟨{ B with values := (cols ++ termCols env t ev).flatten.map Prod.snd }, ?_, h2, h3, h4, ?_⟩
  · unfold appendTerm
    rw [e, Res.bind_ok]
    unfold appendJacobians
    rw [hk, show jc.rows = t.dim from i.rows, h1, Res.bind_ok]
    simp only [writeJacobians]
    rw [if_neg (by simp [← hk]), hput, Res.bind_ok]
  · obtain ⟨b1, b2⟩ := build_congr _ _ hfst
    constructor
    · have e3 : (CCS.build (cols ++ termCols env t ev)).cx = (cols ++ termCols env t ev).flatten.map Prod.snd := by rw [CCS.build_eq]
      have a1 : B.colPtr = (CCS.build (cols ++ termCols env t ev)).cp := by rw [b1, ← hBa]; rfl
      have a2 : B.rowInd = (CCS.build (cols ++ termCols env t ev)).ci := by rw [b2, ← hBa]; rfl
      simp only [arrays, a1, a2, ← e3]
    · have := congrArg List.length hfst
      simp only [List.length_map] at this
      simp only [this]
      exact h5.len

/-- Appending the containers of a list of terms. -/
theorem appendAll_ok {debug : Bool} {align : Nat} {env : Env R} (ha : 0 < align) (ts : List (Term R × List (Event R))) (ht : ∀ p ∈ ts, LegalTerm env align p.1 p.2) (A : CCM R) (hl : ColumnLayout env A.rows)
    (cols : List (List (Nat × R))) (hrep : Rep A cols) (hf : A.hasDiag = false) (hact : A.acceptConst = true ∨ ∀ p ∈ ts, ∃ d ∈ p.1.dvs, env.active d = true) :
    ∃ B, Res.run (appendTerm debug align env) A (ts.map Prod.fst) = .ok B ∧ B.rows = A.rows ∧ Rep B (cols ++ stackCols env ts) := by
  induction ts generalizing A cols with
  | nil => exact ⟨A, rfl, rfl, by simpa [stackCols] using hrep⟩
  | cons p ts ih =>
    obtain ⟨B, h1, h2, h3, h4, h5⟩ := append_ok (debug := debug) ha A hl cols hrep hf p.1 p.2 (ht p List.mem_cons_self) (hact.imp id fun h => h p List.mem_cons_self)
    obtain ⟨C, g1, g2, g3⟩ := ih (fun q hq => ht q (List.mem_cons_of_mem _ hq)) B (by rw [h2]; exact hl) _ h5 h3 (by rw [h4]; exact hact.imp id fun h q hq => h q (List.mem_cons_of_mem _ hq))
    refine ⟨C, ?_, g2.trans h2, ?_⟩
    · rw [List.map_cons, Res.run_cons, h1, Res.bind_ok, g1]
    · rw [stackCols, List.flatMap_cons, ← List.append_assoc]; exact g3

/-- **C16** (appending containers). Appending the Jacobian containers of any list of error terms, one after the other, to an empty matrix with `rows` rows returns normally and gives a well-formed matrix whose columns are the transposed rows of the Jacobians,
as if the structure had been set up first (C16_transposed_jacobian). -/
theorem C16_append_jacobians (debug : Bool) (align : Nat) (ha : 0 < align) (env : Env R) (rows : Nat) (hl : ColumnLayout env rows) (A : CCM R) (ts : List (Term R × List (Event R))) (ht : ∀ p ∈ ts, LegalTerm env align p.1 p.2)
    (hact : A.acceptConst = true ∨ ∀ p ∈ ts, ∃ d ∈ p.1.dvs, env.active d = true) :
    ∃ B, Res.run (appendTerm debug align env) (init (clear A) rows 0) (ts.map Prod.fst) = .ok B ∧ WF B ∧ B.rows = rows ∧ B.cols = (ts.map fun p => p.1.dim).sum ∧
      ∀ (d r k c : Nat) (hk : k < ts.length), env.active d = true → r < env.dim d → c < ts[k].1.dim →
        CCS.read (arrays B) (env.columnBase d + (r : Int)).toNat (rowBase ts k + c) = total ts[k].2 d c r := by
  have hrep0 : Rep (init (clear A) rows 0) ([] : List (List (Nat × R))) := ⟨by rw [CCS.build_eq]; rfl, rfl⟩
  obtain ⟨B, h1, h2, h3⟩ := appendAll_ok (debug := debug) ha ts ht (init (clear A) rows 0) hl [] hrep0 rfl hact
  rw [List.nil_append] at h3
  have hlB : ColumnLayout env B.rows := by rw [h2]; exact hl
  refine ⟨B, h1, h3.wf (stackCols_ok hlB ts ht), h2, by rw [h3.len, stackCols_length], ?_⟩
  intro d r k c hk hd hr hc
  have hget := stackCols_getElem? env ts k c hk hc
  have hcl : c < (termCols env ts[k].1 ts[k].2).length := by simpa [termCols] using hc
  rw [List.getElem?_eq_getElem hcl] at hget
  obtain ⟨hj, he⟩ := List.getElem?_eq_some_iff.1 hget
  rw [h3.read _ _ hj, he]
  simp only [termCols, List.getElem_map, List.getElem_range]
  exact termCol_read hl (ht _ (List.getElem_mem hk)) c d r hd hr

/-- A term with one variable of dimension two, appended to a matrix with three rows: the hypotheses are met. -/
example : ∃ B, Res.run (appendTerm true 2 demoEnv) (init (clear (new 0 0)) 3 0) [⟨2, [2, 1], [.addId 1]⟩] = .ok B ∧ B.cols = 2 ∧
    CCS.read (arrays B) (demoEnv.columnBase 1 + 1).toNat 1 = (1 : Int) := by
  have hleg : LegalTerm demoEnv 2 ⟨2, [2, 1], [.addId 1]⟩ [(1, contribution [] (ident 2 2))] := by
    refine ⟨by decide, ⟨[], .cons rfl (by simp [MatrixStack.Spec.Fits]) (.nil _)⟩, by decide, ?_⟩
    intro d
    simp [demoEnv]
    omega
  obtain ⟨B, h1, _, _, h4, h5⟩ := C16_append_jacobians true 2 (by decide) demoEnv 3 demoEnv_layout (new 0 0) [(⟨2, [2, 1], [.addId 1]⟩, [(1, contribution [] (ident 2 2))])] (by simpa using hleg)
    (.inr (by intro p hp; rw [List.mem_singleton.1 hp]; exact ⟨1, by decide, rfl⟩))
  refine ⟨B, h1, h4, ?_⟩
  exact h5 1 1 0 1 (by decide) rfl (by decide) (by decide)

end Verif.CCM
