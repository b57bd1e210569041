import Verif.Jacobian.Props
import Verif.Hessian.Lemmas

/-!
C105: a Jacobian container as one matrix (`asSparseMatrix`, `asDenseMatrix`, `cols`, `designVariable(i)`).
-/
namespace Verif.Jacobian
open Verif.MatrixStack (DMat)
open Verif.MatrixStack Verif.Jacobian.Spec
open Verif.SBM (Layout)

variable {R : Type} [CommRing R]

/-! ### Model -/

/-- The block matrix under construction: one block row of `_rows` rows, JacobianContainerSparseImpl.hpp:210-213, 229-230, 239. -/
def exportNew (rows : Nat) (cl : Layout) : SBM.SBM R := SBM.new ⟨1, fun _ => rows⟩ cl

/-- `asSparseMatrix()`, JacobianContainerSparseImpl.hpp:225-247: the `i`-th entry of the map becomes block column `i`. -/
def asSparse (debug : Bool) (env : Env R) (jc : JC R (SMap R)) : Res (SBM.SBM R) :=
  SBM.assign debug (exportNew jc.rows (Hessian.dvLayout env (jc.store.map Prod.fst))) (jc.store.zipIdx.map fun p => (0, p.2, p.1.2))

/-- `asSparseMatrix(colBlockIndices)`, JacobianContainerSparseImpl.hpp:206-223: each entry becomes the block column of its block index. A block
index outside of the given vector throws in debug builds (line 217) and is undefined behaviour otherwise. -/
def asSparseCols (debug : Bool) (env : Env R) (jc : JC R (SMap R)) (cl : Layout) : Res (SBM.SBM R) :=
  if jc.store.any fun p => decide (env.blockIndex p.1 < 0) then (if debug then .exc else .ub)
  else SBM.assign debug (exportNew jc.rows cl) (jc.store.map fun p => (0, (env.blockIndex p.1).toNat, p.2))

/-- `asDenseMatrix()` of the sparse container, JacobianContainerSparseImpl.hpp:192-197. -/
def asDense (debug : Bool) (env : Env R) (jc : JC R (SMap R)) : Res (DMat R) := do
  let A ← asSparse debug env jc
  .ok A.toDense

/-- `asDenseMatrix(colBlockIndices)`, JacobianContainerSparseImpl.hpp:199-204. -/
def asDenseCols (debug : Bool) (env : Env R) (jc : JC R (SMap R)) (cl : Layout) : Res (DMat R) := do
  let A ← asSparseCols debug env jc cl
  .ok A.toDense

/-- `asDenseMatrix()` of the dense container, JacobianContainerDense.hpp:53. -/
def denseMatrix (jc : JC R (DMat R)) : DMat R := jc.store

/-- `cols()`, JacobianContainerSparseImpl.hpp:249-258. -/
def sparseCols (env : Env R) (jc : JC R (SMap R)) : Nat := (jc.store.map fun p => env.dim p.1).sum

/-- `designVariable(i)`, JacobianContainerSparseImpl.hpp:152-171. -/
def sparseDv (jc : JC R (SMap R)) (i : Nat) : Res Nat :=
  match jc.store[i]? with
  | some p => .ok p.1
  | none => .exc

/-! ### Theorems -/

theorem export_spec (debug : Bool) (n : Nat) (cl : Layout) (hcl : cl.Mono) (ws : List (Nat × DMat R)) (huniq : ∀ w ∈ ws, ∀ w' ∈ ws, w.1 = w'.1 → w = w')
    (hw : ∀ w ∈ ws, w.1 < cl.n ∧ w.2.rows = n ∧ w.2.cols = cl.size w.1) :
    ∃ D : SBM.SBM R, SBM.assign debug (exportNew n cl) (ws.map fun w => (0, w.1, w.2)) = .ok D ∧ D.toDense.rows = n ∧ D.toDense.cols = cl.total ∧
      (∀ w ∈ ws, ∀ i, i < n → ∀ b, b < cl.size w.1 → D.toDense.e i (cl.base w.1 + b) = w.2.e i b) ∧
      ∀ c, c < cl.n → (∀ w ∈ ws, w.1 ≠ c) → ∀ i, i < n → ∀ b, b < cl.size c → D.toDense.e i (cl.base c + b) = 0 := by
  have hwf : SBM.WF (exportNew n cl : SBM.SBM R) := SBM.new_WF _ _ (fun r hr => by simp at hr) hcl _
  obtain ⟨D, e, h, h1, h2, -, h3⟩ := SBM.assign_spec debug (ws.map fun w => (0, w.1, w.2)) (exportNew n cl : SBM.SBM R) hwf rfl (by
    intro v hv
    obtain ⟨w, hwm, rfl⟩ := List.mem_map.1 hv
    obtain ⟨a, b, c⟩ := hw w hwm
    exact ⟨by simp [exportNew, SBM.new], a, by simpa [exportNew, SBM.new, Layout.size] using b, by simpa [exportNew, SBM.new] using c⟩)
  have h1' : D.rl = ⟨1, fun _ => n⟩ := h1
  have h2' : D.cl = cl := h2
  have hat : ∀ c, c < cl.n → ∀ i, i < n → ∀ b, b < cl.size c → D.toDense.e i (cl.base c + b) = D.at 0 c i b := by
    intro c hc i hi b hb
    have := SBM.toDense_at h (r := 0) (c := c) (a := i) (b := b) (by simp [h1']) (by rw [h2']; exact hc) (by simpa [h1', Layout.size] using hi) (by rw [h2']; exact hb)
    rw [h2'] at this
    simpa [h1', Layout.base] using this
  refine ⟨D, e, by simp [SBM.SBM.toDense, h1', Layout.total], by simp [SBM.SBM.toDense, h2'], ?_, ?_⟩
  · intro w hwm i hi b hb
    rw [hat w.1 (hw w hwm).1 i hi b hb]
    have : D.block 0 w.1 = some w.2 := h3 0 w.1 (some w.2) (by
      intro v hv _ hc
      obtain ⟨w', hw', rfl⟩ := List.mem_map.1 hv
      rw [huniq w' hw' w hwm hc]) (.inl ⟨_, List.mem_map.2 ⟨w, hwm, rfl⟩, rfl, rfl⟩)
    simp [SBM.SBM.at, this]
  · intro c hc hno i hi b hb
    rw [hat c hc i hi b hb]
    have : D.block 0 c = none := h3 0 c none (by
      intro v hv _ hcc
      obtain ⟨w, hwm, rfl⟩ := List.mem_map.1 hv
      exact absurd hcc (hno w hwm)) (.inr (by simp [exportNew, SBM.new, SBM.SBM.block]))
    simp [SBM.SBM.at, this]

/-- **C105, without column indices.** After every legal history `asDenseMatrix()` returns the Jacobians of the design variables that received one, side
by side, ordered by block index; `cols()` is its width and `designVariable(r)` names the variable of the `r`-th block. -/
theorem C105_compact (debug : Bool) (env : Env R) (henv : EnvOk env) (align n k : Nat) (ha : 0 < align) (hn : n < 2 ^ 16)
    (os : List (Op R)) (fs : List (DMat R)) (ev : List (Event R)) (hr : Run env align n ([], []) os (fs, ev)) :
    ∃ (jc : JC R (SMap R)) (M : DMat R) (dvs : List Nat), Res.run (step debug align env sparseAddJ) (newSparse n k) os = .ok jc ∧ asDense debug env jc = .ok M ∧
      (dvs.Pairwise fun d d' => env.blockIndex d < env.blockIndex d') ∧ (∀ d, d ∈ dvs ↔ d ∈ ev.map Prod.fst) ∧
      M.rows = n ∧ M.cols = (dvs.map env.dim).sum ∧ sparseCols env jc = M.cols ∧ (∀ r, dvs.length ≤ r → sparseDv jc r = .exc) ∧
      ∀ r d, dvs[r]? = some d → sparseDv jc r = .ok d ∧ ∀ i, i < n → ∀ b, b < env.dim d → M.e i (((dvs.take r).map env.dim).sum + b) = total ev d i b := by
  obtain ⟨jc, e, inv⟩ := run_inv ha henv (sparse_implements henv n debug) (newSparse_inv env align n k hn) hr
  have hrep := inv.rep
  set dvs := jc.store.map Prod.fst with hdvs
  have hsum : ∀ r, r ≤ dvs.length → ((dvs.take r).map env.dim).sum = ∑ k ∈ Finset.range r, env.dim (dvs.getD k 0) := by
    intro r hr
    induction r with
    | zero => simp
    | succ r ih =>
      rw [Finset.sum_range_succ, ← ih (by omega), List.take_add_one]
      have : dvs[r]? = some (dvs.getD r 0) := by
        rw [List.getD_eq_getElem?_getD, List.getElem?_eq_getElem (by omega)]
        rfl
      rw [this, List.map_append, List.sum_append]
      rfl
  have hbase : ∀ r, r ≤ dvs.length → (Hessian.dvLayout env dvs).base r = ((dvs.take r).map env.dim).sum := by
    intro r hr
    rw [hsum r hr]
    cases r <;> simp [Layout.base, Hessian.dvLayout]
  have hidx : ∀ q ∈ jc.store.zipIdx, jc.store[q.2]? = some q.1 := fun q hq => List.mem_zipIdx_iff_getElem?.1 hq
  obtain ⟨D, e2, h1, h2, h3, -⟩ := export_spec debug n (Hessian.dvLayout env dvs) (Hessian.dvLayout_mono env dvs) (jc.store.zipIdx.map fun p => (p.2, p.1.2))
    (by
      intro w hw w' hw' h
      obtain ⟨q, hq, rfl⟩ := List.mem_map.1 hw
      obtain ⟨q', hq', rfl⟩ := List.mem_map.1 hw'
      have a := hidx q hq
      have b := hidx q' hq'
      simp only at h
      rw [h, b] at a
      rw [Option.some.inj a, h])
    (by
      intro w hw
      obtain ⟨q, hq, rfl⟩ := List.mem_map.1 hw
      have a := hidx q hq
      obtain ⟨hlt, hget⟩ := List.getElem?_eq_some_iff.1 a
      have hm : q.1 ∈ jc.store := hget ▸ List.getElem_mem hlt
      refine ⟨by simpa [Hessian.dvLayout, hdvs] using hlt, (hrep.shape _ hm).1, ?_⟩
      rw [Hessian.dvLayout_size, (hrep.shape _ hm).2]
      simp [hdvs, List.getD_eq_getElem?_getD, a])
  have hcols : D.toDense.cols = (dvs.map env.dim).sum := by
    have hb := hbase dvs.length (le_refl _)
    rw [List.take_length] at hb
    rw [h2, Layout.total_eq]
    exact hb
  refine ⟨jc, D.toDense, dvs, e, ?_, ?_, hrep.keys, h1, hcols, ?_, ?_, ?_⟩
  · simp only [asDense, asSparse, inv.rows]
    rw [List.map_map] at e2
    rw [show (jc.store.zipIdx.map fun p => ((0 : Nat), p.2, p.1.2)) = List.map ((fun w : Nat × DMat R => ((0 : Nat), w.1, w.2)) ∘ fun p : (Nat × DMat R) × Nat => (p.2, p.1.2)) jc.store.zipIdx from rfl, e2]
    rfl
  · rw [hdvs, List.pairwise_map]
    exact hrep.sorted
  · rw [hcols, sparseCols, hdvs, List.map_map]
    rfl
  · intro r hr
    have : jc.store[r]? = none := List.getElem?_eq_none (by simpa [hdvs] using hr)
    simp [sparseDv, this]
  · intro r d hd
    rw [hdvs, List.getElem?_map] at hd
    cases hq : jc.store[r]? with
    | none => rw [hq] at hd; cases hd
    | some q =>
      rw [hq] at hd
      cases hd
      obtain ⟨hlt, hget⟩ := List.getElem?_eq_some_iff.1 hq
      have hm : q ∈ jc.store := hget ▸ List.getElem_mem hlt
      refine ⟨by simp [sparseDv, hq], fun i hi b hb => ?_⟩
      rw [← hbase r (by simpa [hdvs] using hlt.le)]
      have hsz : (Hessian.dvLayout env dvs).size r = env.dim q.1 := by
        rw [Hessian.dvLayout_size]
        simp [hdvs, List.getD_eq_getElem?_getD, hq]
      have := h3 (r, q.2) (List.mem_map.2 ⟨(q, r), List.mem_zipIdx_iff_getElem?.2 hq, rfl⟩) i hi b (by simpa [hsz] using hb)
      rw [this]
      exact hrep.val q hm i b hi hb

/-- **C105, with column indices.** If the given column indices have a block of the right width for every variable, `asDenseMatrix(colBlockIndices)`
places the Jacobian of each variable at the block of its block index, and zeros everywhere else. -/
theorem C105_positions (debug : Bool) (env : Env R) (henv : EnvOk env) (align n k : Nat) (ha : 0 < align) (hn : n < 2 ^ 16)
    (os : List (Op R)) (fs : List (DMat R)) (ev : List (Event R)) (hr : Run env align n ([], []) os (fs, ev)) (cl : Layout) (hcl : cl.Mono)
    (hfit : ∀ d ∈ ev.map Prod.fst, (env.blockIndex d).toNat < cl.n ∧ cl.size (env.blockIndex d).toNat = env.dim d) :
    ∃ (jc : JC R (SMap R)) (M : DMat R), Res.run (step debug align env sparseAddJ) (newSparse n k) os = .ok jc ∧ asDenseCols debug env jc cl = .ok M ∧ M.rows = n ∧ M.cols = cl.total ∧
      (∀ d ∈ ev.map Prod.fst, ∀ i, i < n → ∀ b, b < env.dim d → M.e i (cl.base (env.blockIndex d).toNat + b) = total ev d i b) ∧
      ∀ c, c < cl.n → (∀ d ∈ ev.map Prod.fst, (env.blockIndex d).toNat ≠ c) → ∀ i, i < n → ∀ b, b < cl.size c → M.e i (cl.base c + b) = 0 := by
  obtain ⟨jc, e, inv⟩ := run_inv ha henv (sparse_implements henv n debug) (newSparse_inv env align n k hn) hr
  have hrep := inv.rep
  have hkey : ∀ p ∈ jc.store, p.1 ∈ ev.map Prod.fst := fun p hp => (hrep.keys p.1).1 (List.mem_map.2 ⟨p, hp, rfl⟩)
  obtain ⟨D, e2, h1, h2, h3, h4⟩ := export_spec debug n cl hcl (jc.store.map fun p => ((env.blockIndex p.1).toNat, p.2))
    (by
      intro w hw w' hw' h
      obtain ⟨q, hq, rfl⟩ := List.mem_map.1 hw
      obtain ⟨q', hq', rfl⟩ := List.mem_map.1 hw'
      simp only at h
      have a := henv.nonneg q.1 (hrep.active q hq)
      have b := henv.nonneg q'.1 (hrep.active q' hq')
      have hk : env.blockIndex q.1 = env.blockIndex q'.1 := by omega
      have : q = q' := by
        by_contra hne
        rcases List.pairwise_iff_getElem.1 hrep.sorted with hs
        obtain ⟨i, hi, rfl⟩ := List.getElem_of_mem hq
        obtain ⟨j, hj, rfl⟩ := List.getElem_of_mem hq'
        rcases lt_trichotomy i j with hij | rfl | hij
        · exact absurd (hs i j hi hj hij) (by omega)
        · exact hne rfl
        · exact absurd (hs j i hj hi hij) (by omega)
      rw [this])
    (by
      intro w hw
      obtain ⟨q, hq, rfl⟩ := List.mem_map.1 hw
      obtain ⟨a, b⟩ := hfit q.1 (hkey q hq)
      exact ⟨a, (hrep.shape q hq).1, by rw [(hrep.shape q hq).2, b]⟩)
  refine ⟨jc, D.toDense, e, ?_, h1, h2, ?_, ?_⟩
  · have hno : (jc.store.any fun p => decide (env.blockIndex p.1 < 0)) = false := by
      rw [List.any_eq_false]
      intro p hp
      have := henv.nonneg p.1 (hrep.active p hp)
      simpa using this
    simp only [asDenseCols, asSparseCols, hno, inv.rows]
    rw [List.map_map] at e2
    rw [show (jc.store.map fun p => ((0 : Nat), (env.blockIndex p.1).toNat, p.2)) =
      List.map ((fun w : Nat × DMat R => ((0 : Nat), w.1, w.2)) ∘ fun p : Nat × DMat R => ((env.blockIndex p.1).toNat, p.2)) jc.store from rfl, e2]
    rfl
  · intro d hd i hi b hb
    obtain ⟨p, hp, rfl⟩ := List.mem_map.1 ((hrep.keys d).2 hd)
    have := h3 _ (List.mem_map.2 ⟨p, hp, rfl⟩) i hi b (by rw [(hfit p.1 hd).2]; exact hb)
    rw [this]
    exact hrep.val p hp i b hi hb
  · intro c hc hno i hi b hb
    refine h4 c hc ?_ i hi b hb
    intro w hw
    obtain ⟨p, hp, rfl⟩ := List.mem_map.1 hw
    exact hno p.1 (hkey p hp)

/-- **C105, sparse and dense agree** (partial: with column indices). With the column indices of the active variables, the matrix of the sparse container
is the one of the dense container. Missing: `asDenseMatrix()` without indices, the virtual function both share, see the counterexample. -/
theorem C105_dense_partial (debug : Bool) (env : Env R) (henv : EnvOk env) (align n k : Nat) (ha : 0 < align) (hn : n < 2 ^ 16)
    (os : List (Op R)) (fs : List (DMat R)) (ev : List (Event R)) (hr : Run env align n ([], []) os (fs, ev)) (cl : Layout) (hcl : cl.Mono)
    (hcolumns : ∀ d, env.active d = true → (env.blockIndex d).toNat < cl.n ∧ cl.size (env.blockIndex d).toNat = env.dim d ∧
      env.columnBase d = cl.base (env.blockIndex d).toNat) (hall : ∀ c, c < cl.n → ∃ d, env.active d = true ∧ env.blockIndex d = c) :
    ∃ (js : JC R (SMap R)) (jd : JC R (DMat R)) (M : DMat R), Res.run (step debug align env sparseAddJ) (newSparse n k) os = .ok js ∧ Res.run (step debug align env denseAddJ) (newDense n cl.total) os = .ok jd ∧
      asDenseCols debug env js cl = .ok M ∧ M.rows = (denseMatrix jd).rows ∧ M.cols = (denseMatrix jd).cols ∧
      ∀ i, i < n → ∀ j, j < cl.total → M.e i j = (denseMatrix jd).e i j := by
  have hact : ∀ d ∈ ev.map Prod.fst, env.active d = true := by
    obtain ⟨-, -, -, -, h⟩ := C04_sparse_accumulates debug env henv align n k ha hn os fs ev hr
    exact h
  have hcol : ColumnsOk env cl.total := by
    refine ⟨fun d hd => ?_, fun d hd => ?_, fun d d' hd hd' hne => ?_⟩
    · rw [(hcolumns d hd).2.2]; exact Int.natCast_nonneg _
    · obtain ⟨h1, h2, h3⟩ := hcolumns d hd
      have := Layout.base_add_size_le_total hcl h1
      rw [h3, ← h2]; omega
    · obtain ⟨h1, h2, h3⟩ := hcolumns d hd
      obtain ⟨h1', h2', h3'⟩ := hcolumns d' hd'
      have a := henv.nonneg d hd
      have b := henv.nonneg d' hd'
      have hk : (env.blockIndex d).toNat ≠ (env.blockIndex d').toNat := fun h => hne (henv.inj d d' hd hd' (by omega))
      rw [h3, h3', ← h2, ← h2']
      rcases lt_or_gt_of_ne hk with h | h
      · left
        have g := Layout.base_add_size hcl h1
        have := Layout.base_le hcl (r := (env.blockIndex d).toNat + 1) (s := (env.blockIndex d').toNat) (by omega) (by omega)
        omega
      · right
        have g := Layout.base_add_size hcl h1'
        have := Layout.base_le hcl (r := (env.blockIndex d').toNat + 1) (s := (env.blockIndex d).toNat) (by omega) (by omega)
        omega
  obtain ⟨js, M, e1, e2, h1, h2, h3, h4⟩ := C105_positions debug env henv align n k ha hn os fs ev hr cl hcl (fun d hd => ⟨(hcolumns d (hact d hd)).1, (hcolumns d (hact d hd)).2.1⟩)
  obtain ⟨jd, e3, g1, g2, g3, -⟩ := C06_dense_agrees debug env henv align n cl.total hcol ha hn os fs ev hr
  refine ⟨js, jd, M, e1, e3, e2, by rw [h1]; exact g1.symm, by rw [h2]; exact g2.symm, fun i hi j hj => ?_⟩
  obtain ⟨c, hc, b, hb, rfl⟩ := Layout.locate hcl hj
  obtain ⟨d, hd, hdc⟩ := hall c hc
  have hc' : (env.blockIndex d).toNat = c := by omega
  obtain ⟨q1, q2, q3⟩ := hcolumns d hd
  rw [hc'] at q1 q2 q3
  obtain ⟨J, ej, -, -, hJ⟩ := g3 d hd
  have hval : (denseMatrix jd).e i (cl.base c + b) = total ev d i b := by
    rw [← hJ i b hi (by omega)]
    unfold denseJacobian at ej
    split_ifs at ej
    cases ej
    simp [denseMatrix, q3]
  rw [hval]
  by_cases hm : d ∈ ev.map Prod.fst
  · have := h3 d hm i hi b (by omega)
    rwa [hc'] at this
  · rw [total_eq_zero hm]
    refine h4 c hc (fun d' hd' h => hm ?_) i hi b hb
    have a := henv.nonneg d' (hact d' hd')
    rwa [henv.inj d d' hd (hact d' hd') (by omega)]

/-- **C105, counterexample.** Through the common interface, `asDenseMatrix()` of a sparse and of a dense container that received the same calls have
different widths when a variable received no Jacobian. -/
theorem C105_width_counterexample (debug : Bool) : ∃ (os : List (Op Int)) (ev : List (Event Int)) (js : JC Int (SMap Int)) (jd : JC Int (DMat Int)) (M : DMat Int),
    Run demoEnv 2 1 ([], []) os ([], ev) ∧
    Res.run (step debug 2 demoEnv sparseAddJ) (newSparse 1 4) os = .ok js ∧ Res.run (step debug 2 demoEnv denseAddJ) (newDense 1 3) os = .ok jd ∧
    asDense debug demoEnv js = .ok M ∧ M.cols = 1 ∧ (denseMatrix jd).cols = 3 := by
  have hr : Run demoEnv 2 1 ([], []) [.add 0 ⟨1, 1, fun _ _ => 7⟩] ([], [(0, contribution [] ⟨1, 1, fun _ _ => 7⟩)]) :=
    .cons rfl (by simp [MatrixStack.Spec.Fits]) (.nil _)
  obtain ⟨js, M, dvs, e1, e2, h1, h2, -, h4, -⟩ := C105_compact debug demoEnv demoEnv_ok 2 1 4 (by norm_num) (by norm_num) _ _ _ hr
  obtain ⟨jd, e3, g1, g2, -⟩ := C06_dense_agrees debug demoEnv demoEnv_ok 2 1 3 demoEnv_columns (by norm_num) (by norm_num) _ _ _ hr
  refine ⟨_, _, js, jd, M, hr, e1, e3, e2, ?_, g2⟩
  have hd : dvs = [0] := by
    have hm : ∀ d, d ∈ dvs ↔ d = 0 := by simpa using h2
    match dvs, h1, hm with
    | [], _, hm => exact absurd ((hm 0).2 rfl) (by simp)
    | [a], _, hm => rw [(hm a).1 (by simp)]
    | a :: b :: l, h1, hm =>
      have ha := (hm a).1 (by simp)
      have hb := (hm b).1 (by simp)
      subst ha hb
      simp at h1
  rw [h4, hd]
  rfl

/-! ### Concrete instances of the hypotheses -/

/-- The column indices of `demoEnv`: block 0 of width 2, block 1 of width 1. -/
def demoColumns : Layout := ⟨2, fun i => if i = 0 then 2 else 3⟩

theorem demoColumns_mono : demoColumns.Mono := by
  intro r hr
  have : r = 0 := by simp only [demoColumns] at hr; omega
  subst this
  decide

theorem demoColumns_fit : ∀ d, demoEnv.active d = true → (demoEnv.blockIndex d).toNat < demoColumns.n ∧
    demoColumns.size (demoEnv.blockIndex d).toNat = demoEnv.dim d ∧ demoEnv.columnBase d = demoColumns.base (demoEnv.blockIndex d).toNat := by
  intro d h
  have : d = 0 ∨ d = 1 := by simpa [demoEnv] using h
  rcases this with rfl | rfl <;> decide

theorem demo_run : Run demoEnv 2 1 ([], []) [.add 0 ⟨1, 1, fun _ _ => 7⟩] ([], [(0, contribution [] ⟨1, 1, fun _ _ => 7⟩)]) :=
  .cons rfl (by simp [MatrixStack.Spec.Fits]) (.nil _)

example := C105_compact true demoEnv demoEnv_ok 2 1 4 (by norm_num) (by norm_num) _ _ _ demo_run
example := C105_positions true demoEnv demoEnv_ok 2 1 4 (by norm_num) (by norm_num) _ _ _ demo_run demoColumns demoColumns_mono
  (fun d hd => by
    have : d = 0 := by simpa using hd
    subst this
    decide)
example := C105_dense_partial true demoEnv demoEnv_ok 2 1 4 (by norm_num) (by norm_num) _ _ _ demo_run demoColumns demoColumns_mono demoColumns_fit
  (fun c hc => by
    have : c = 0 ∨ c = 1 := by simp only [demoColumns] at hc; omega
    rcases this with rfl | rfl
    · exact ⟨1, by decide, by decide⟩
    · exact ⟨0, by decide, by decide⟩)

end Verif.Jacobian
