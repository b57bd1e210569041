import Verif.GenExpr.Lemmas

namespace Verif.GenExpr
open Verif.Geo (VDeriv MDeriv)
open Verif.Quat (Mode Geometry Q4)
open Matrix

/-- Along a curve the value of the node is differentiable and the reported Jacobians predict its derivative, after the
differential and the chain rule. -/
def Good (x : Ext) (c : ℝ → Env) (δ : Delta) (t : ℝ) : {k : Kind} → Node k → Prop
  | .S, e => ∃ D : ℝ, HasDerivAt (fun s => val x (c s) e) D t ∧ ∀ (R : Nat) (ch : Chain R) A, ch.get 1 = some A → Safe R e () →
      ∃ L, jac x (c t) e () ch = .ok L ∧ total δ L = A *ᵥ fun _ => D
  | .V n, e => ∃ D : Fin n → ℝ, VDeriv (fun s => val x (c s) e) D t ∧ ∀ (R : Nat) (ch : Chain R) A, ch.get n = some A → Safe R e () →
      ∃ L, jac x (c t) e () ch = .ok L ∧ total δ L = A *ᵥ D
  | .G r q, e => ∃ D : Mat r q, MDeriv (fun s => val x (c s) e) D t ∧ ∀ (R : Nat) (ch : Chain R) m (d : Diff r q m) A, d.Lin →
      ch.get m = some A → Safe R e d.place → ∃ L, jac x (c t) e ⟨m, d⟩ ch = .ok L ∧ total δ L = A *ᵥ d.apply D

variable {x : Ext} {c : ℝ → Env} {δ : Delta} {t : ℝ}

theorem good_unary {r q r' q' : Nat} {a : Node (.G r q)} {e : Node (.G r' q')} (F : Mat r q → Mat r' q') (hF : IsLin F)
    (hv : ∀ D, MDeriv (fun s => val x (c s) a) D t → MDeriv (fun s => val x (c s) e) (F D) t)
    (hj : ∀ (R : Nat) (ch : Chain R) m (d : Diff r' q' m), jac x (c t) e ⟨m, d⟩ ch = jac x (c t) a ⟨m, .comp F d⟩ ch)
    (hs : ∀ R (p : Place), Safe R e p → Safe R a ⟨p.rows, .comp, false⟩)
    (h : Good x c δ t a) : Good x c δ t e := by
  obtain ⟨D, hD, hA⟩ := h
  refine ⟨F D, hv D hD, fun R ch m d A hl hc hsafe => ?_⟩
  obtain ⟨L, h1, h2⟩ := hA R ch m (.comp F d) A ⟨hF, hl⟩ hc (hs R _ hsafe)
  exact ⟨L, by rw [hj, h1], h2⟩

theorem good_binary {r q r2 q2 r' q' : Nat} {a : Node (.G r q)} {b : Node (.G r2 q2)} {e : Node (.G r' q')}
    (F : Mat r q → Mat r' q') (hF : IsLin F) (G : Mat r2 q2 → Mat r' q') (hG : IsLin G)
    (hv : ∀ D E, MDeriv (fun s => val x (c s) a) D t → MDeriv (fun s => val x (c s) b) E t →
      MDeriv (fun s => val x (c s) e) (F D + G E) t)
    (hj : ∀ (R : Nat) (ch : Chain R) m (d : Diff r' q' m), jac x (c t) e ⟨m, d⟩ ch =
      cat (jac x (c t) a ⟨m, .comp F d⟩ ch) (jac x (c t) b ⟨m, .comp G d⟩ ch))
    (hs : ∀ R (p : Place), Safe R e p → Safe R a ⟨p.rows, .comp, false⟩ ∧ Safe R b ⟨p.rows, .comp, false⟩)
    (h : Good x c δ t a) (h' : Good x c δ t b) : Good x c δ t e := by
  obtain ⟨D, hD, hA⟩ := h
  obtain ⟨E, hE, hB⟩ := h'
  refine ⟨F D + G E, hv D E hD hE, fun R ch m d A hl hc hsafe => ?_⟩
  obtain ⟨L, h1, h2⟩ := hA R ch m (.comp F d) A ⟨hF, hl⟩ hc (hs R _ hsafe).1
  obtain ⟨M, h3, h4⟩ := hB R ch m (.comp G d) A ⟨hG, hl⟩ hc (hs R _ hsafe).2
  exact ⟨L ++ M, by rw [hj]; exact cat_ok h1 h3, by
    rw [total_append, h2, h4, d.apply_add hl, Matrix.mulVec_add]; rfl⟩

theorem good_matrix {n p : Nat} {a : Node (.G n 1)} {e : Node (.G p 1)} (M : Mat p n)
    (hv : ∀ D, MDeriv (fun s => val x (c s) a) D t → MDeriv (fun s => val x (c s) e) (M * D) t)
    (hj : ∀ (R : Nat) (ch : Chain R) m (d : Diff p 1 m), jac x (c t) e ⟨m, d⟩ ch = jac x (c t) a ⟨m, .compMat M d⟩ ch)
    (hs : ∀ R (p : Place), Safe R e p → Safe R a ⟨p.rows, p.shape.under p.isId, false⟩)
    (h : Good x c δ t a) : Good x c δ t e := by
  obtain ⟨D, hD, hA⟩ := h
  refine ⟨M * D, hv D hD, fun R ch m d A hl hc hsafe => ?_⟩
  obtain ⟨L, h1, h2⟩ := hA R ch m (.compMat M d) A hl hc (by rw [place_compMat]; exact hs R _ hsafe)
  exact ⟨L, by rw [hj, h1], h2⟩

theorem good (hm : IsMove c δ t) : ∀ {k : Kind} (e : Node k), Smooth x (c t) e → Good x c δ t e
  | _, .sconst y, _ => ⟨0, hasDerivAt_const t y, fun R ch A _ _ => ⟨[], rfl, by
      rw [show (fun _ : Fin 1 => (0 : ℝ)) = 0 from rfl, Matrix.mulVec_zero]; rfl⟩⟩
  | _, .svar i, _ => ⟨_, hm.sc i, fun R ch A hc _ => by
      obtain ⟨L, h1, h2⟩ := addId_ok (v := .sc i) hc δ
      refine ⟨L, h1, h2.trans ?_⟩
      congr 1
      funext j
      exact congrArg _ (Subsingleton.elim (α := Fin 1) _ _)⟩
  | _, .sadd a b, h => by
      obtain ⟨D, hD, hA⟩ := good hm a h.1
      obtain ⟨E, hE, hB⟩ := good hm b h.2
      refine ⟨D + E, hD.add hE, fun R ch A hc hs => ?_⟩
      obtain ⟨L, h1, h2⟩ := hA R ch A hc hs.1
      obtain ⟨M, h3, h4⟩ := hB R ch A hc hs.2
      exact ⟨L ++ M, cat_ok h1 h3, by rw [total_append, h2, h4, ← Matrix.mulVec_add]; rfl⟩
  | _, .smul a b, h => by
      obtain ⟨D, hD, hA⟩ := good hm a h.1
      obtain ⟨E, hE, hB⟩ := good hm b h.2
      refine ⟨D * val x (c t) b + val x (c t) a * E, hD.mul hE, fun R ch A hc hs => ?_⟩
      obtain ⟨L, h1, h2⟩ := hA R _ _ (Chain.get_pushScalar hc (val x (c t) b)) hs.1
      obtain ⟨M, h3, h4⟩ := hB R _ _ (Chain.get_pushScalar hc (val x (c t) a)) hs.2
      refine ⟨L ++ M, cat_ok h1 h3, ?_⟩
      rw [total_append, h2, h4, Matrix.smul_mulVec, Matrix.smul_mulVec, ← Matrix.mulVec_smul, ← Matrix.mulVec_smul,
        ← Matrix.mulVec_add]
      congr 1
      funext j
      simp only [Pi.add_apply, Pi.smul_apply, smul_eq_mul]
      ring
  | _, .sofV (n := n) v k, h => by
      obtain ⟨D, hD, hA⟩ := good hm v h
      refine ⟨D k, hD k, fun R ch A hc hs => ?_⟩
      obtain ⟨L, h1, h2⟩ := hA R _ _ (Chain.get_some (A * unitRow k)) hs
      refine ⟨L, ?_, ?_⟩
      · rw [jac, Chain.push_ok hc]; exact h1
      · rw [h2, ← Matrix.mulVec_mulVec]
        congr 1
        funext j
        simp [Matrix.mulVec, dotProduct, unitRow]
  | _, .sofG g i j, h => by
      obtain ⟨D, hD, hA⟩ := good hm g h
      refine ⟨D i j, hD i j, fun R ch A hc hs => ?_⟩
      obtain ⟨L, h1, h2⟩ := hA R ch 1 (.comp (fun t => (fun _ _ => t i j : Mat 1 1)) .id) A ⟨lin_entry i j, trivial⟩ hc hs
      exact ⟨L, by rw [jac]; exact h1, h2⟩
  | _, .sqn (r := r) g, h => by
      obtain ⟨D, hD, hA⟩ := good hm g h
      refine ⟨∑ i, 2 * val x (c t) g i 0 * D i 0, ?_, fun R ch A hc hs => ?_⟩
      · have := HasDerivAt.fun_sum (u := Finset.univ) fun i _ => (hD i 0).mul (hD i 0)
        refine HasDerivAt.congr_deriv this ?_
        exact Finset.sum_congr rfl fun i _ => by ring
      · obtain ⟨L, h1, h2⟩ := hA R _ r .id _ trivial (Chain.get_some (A * ((2 : ℝ) • (val x (c t) g)ᵀ))) hs
        refine ⟨L, ?_, ?_⟩
        · rw [jac, Chain.push_ok hc]; exact h1
        · rw [h2, ← Matrix.mulVec_mulVec]
          congr 1
          funext j
          rw [Subsingleton.elim j 0]
          simp [Matrix.mulVec, dotProduct, Diff.apply, col]
  | _, .vconst v, _ => ⟨0, VDeriv.const v, fun R ch A _ _ => ⟨[], rfl, by rw [Matrix.mulVec_zero]; rfl⟩⟩
  | _, .vvar n i, _ => ⟨_, hm.vec n i, fun R ch A hc _ => addId_ok (v := .vec n i) hc δ⟩
  | _, .vstack (n := n) cs, h => by
      have hg : ∀ i, Good x c δ t (cs i) := fun i => good hm (cs i) (h i)
      choose D hD hA using hg
      refine ⟨D, fun i => hD i, fun R ch A hc hs => ?_⟩
      obtain ⟨L, h1, h2⟩ := catAll_ok δ (List.finRange n)
        (fun i => ch.push (basis i) >>= fun ch' => jac x (c t) (cs i) () ch')
        (fun i => fun k => A k i * D i) (fun i => by
          obtain ⟨L, h1, h2⟩ := hA i R _ _ (Chain.get_some (A * basis i)) (hs i)
          refine ⟨L, ?_, ?_⟩
          · rw [Chain.push_ok hc]; exact h1
          · rw [h2]
            funext k
            simp [Matrix.mulVec, dotProduct, Matrix.mul_apply, basis])
      refine ⟨L, by rw [jac]; exact h1, h2.trans ?_⟩
      rw [← Fin.sum_univ_def]
      funext k
      simp [Matrix.mulVec, dotProduct]
  | _, .vadd a b, h => by
      obtain ⟨D, hD, hA⟩ := good hm a h.1
      obtain ⟨E, hE, hB⟩ := good hm b h.2
      refine ⟨D + E, hD.add hE, fun R ch A hc hs => ?_⟩
      obtain ⟨L, h1, h2⟩ := hA R ch A hc hs.1
      obtain ⟨M, h3, h4⟩ := hB R ch A hc hs.2
      exact ⟨L ++ M, cat_ok h1 h3, by rw [total_append, h2, h4, ← Matrix.mulVec_add]⟩
  | _, .vscale p s, h => by
      obtain ⟨D, hD, hA⟩ := good hm p h.1
      obtain ⟨E, hE, hB⟩ := good hm s h.2
      refine ⟨fun i => D i * val x (c t) s + val x (c t) p i * E, fun i => (hD i).mul hE, fun R ch A hc hs => ?_⟩
      obtain ⟨L, h1, h2⟩ := hA R _ _ (Chain.get_pushScalar hc (val x (c t) s)) hs.1
      obtain ⟨M, h3, h4⟩ := hB R _ _ (Chain.get_some (A * ofCol (val x (c t) p))) hs.2
      refine ⟨L ++ M, ?_, ?_⟩
      · rw [jac]
        refine cat_ok h1 ?_
        rw [Chain.push_ok hc]; exact h3
      · rw [total_append, h2, h4, Matrix.smul_mulVec, ← Matrix.mulVec_smul, ← Matrix.mulVec_mulVec, ← Matrix.mulVec_add]
        congr 1
        funext i
        simp [Matrix.mulVec, dotProduct, ofCol, mul_comm]
  | _, .gconst B, _ => ⟨0, MDeriv.const B, fun R ch m d A hl _ _ => ⟨[], rfl, by rw [d.apply_zero hl, Matrix.mulVec_zero]; rfl⟩⟩
  | _, .gvar n i, _ => ⟨_, vderiv_ofCol (hm.gvec n i), fun R ch m d A hl hc hs => addTo_ok (v := .gvec n i) d hl hc hs δ⟩
  | _, .gquat md .right i, _ => ⟨_, vderiv_ofCol (hm.quat md .right i), fun R ch m d A hl hc hs =>
      addToJ_ok (v := .quat md .right i) d hl hc hs.2 _ δ⟩
  | _, .gquat md .left i, _ => ⟨_, vderiv_ofCol (hm.quat md .left i), fun R ch m d A hl hc hs => by
      exact absurd hs.1 (by decide)⟩
  | _, .ofV v, h => by
      obtain ⟨D, hD, hA⟩ := good hm v h
      refine ⟨ofCol D, vderiv_ofCol hD, fun R ch m d A hl hc hs => ?_⟩
      obtain ⟨B, hB, hB'⟩ := applyTo_ok d hl hc hs.1
      obtain ⟨L, h1, h2⟩ := hA R _ _ (Chain.get_some B) hs.2
      exact ⟨L, by rw [jac, hB]; exact h1, by rw [h2, hB']⟩
  | _, .ofS s, h => by
      obtain ⟨D, hD, hA⟩ := good hm s h
      refine ⟨fun _ _ => D, fun i j => hD, fun R ch m d A hl hc hs => ?_⟩
      obtain ⟨B, hB, hB'⟩ := applyTo_ok (.comp (fun t : Mat 1 1 => t) d) ⟨lin_id, hl⟩ hc (by simp [Diff.shape])
      obtain ⟨L, h1, h2⟩ := hA R _ _ (Chain.get_some B) hs
      exact ⟨L, by rw [jac, hB]; exact h1, by rw [h2, hB']; rfl⟩
  | _, .copy a, h => good_unary (a := a) _ lin_id (fun _ hD => hD) (fun _ _ _ _ => by rw [jac]) (fun _ _ hs => hs) (good hm a h)
  | _, .transpose a, h =>
    good_unary _ lin_transpose (fun _ hD => hD.transpose) (fun _ _ _ _ => by rw [jac]) (fun _ _ hs => hs) (good hm a h)
  | _, .inverse a, h =>
    good_unary _ (lin_sandwich (val x (c t) a)⁻¹) (fun _ hD => mderiv_inv hD h.2) (fun _ _ _ _ => by rw [jac]) (fun _ _ hs => hs)
      (good hm a h.1)
  | _, .mul a b, h =>
    good_binary _ (lin_mulR (val x (c t) b)) _ (lin_mulL (val x (c t) a)) (fun _ _ hD hE => hD.mul hE)
      (fun _ _ _ _ => by rw [jac]) (fun _ _ hs => hs) (good hm a h.1) (good hm b h.2)
  | _, .add a b, h =>
    good_binary _ lin_id _ lin_id (fun _ _ hD hE => hD.add hE)
      (fun _ _ _ _ => by rw [jac]) (fun _ _ hs => hs) (good hm a h.1) (good hm b h.2)
  | _, .sub a b, h =>
    good_binary _ lin_id _ lin_neg (fun _ _ hD hE i j => HasDerivAt.congr_deriv ((hD i j).sub (hE i j)) (by simp [sub_eq_add_neg]))
      (fun _ _ _ _ => by rw [jac]) (fun _ _ hs => hs) (good hm a h.1) (good hm b h.2)
  | _, .neg a, h =>
    good_unary _ lin_neg (fun _ hD => hD.neg) (fun _ _ _ _ => by rw [jac]) (fun _ _ hs => hs) (good hm a h)
  | _, .scaleS a s, h => by
      obtain ⟨D, hD, hA⟩ := good hm a h.1
      obtain ⟨E, hE, hB⟩ := good hm s h.2
      refine ⟨val x (c t) s • D + E • val x (c t) a, fun i j => ?_, fun R ch m d A hl hc hs => ?_⟩
      · refine HasDerivAt.congr_deriv (hE.mul (hD i j)) ?_
        simp [add_comm]
      · obtain ⟨L, h1, h2⟩ := hA R ch m (.comp (fun u => val x (c t) s • u) d) A ⟨lin_smul _, hl⟩ hc hs.1
        obtain ⟨B, hB1, hB2⟩ := applyTo_ok (.comp (fun u : Mat 1 1 => u 0 0 • val x (c t) a) d) ⟨lin_smulL _, hl⟩ hc (by simp [Diff.shape])
        obtain ⟨M, h3, h4⟩ := hB R _ _ (Chain.get_some B) hs.2
        refine ⟨L ++ M, ?_, ?_⟩
        · rw [jac]
          refine cat_ok h1 ?_
          rw [hB1]; exact h3
        · rw [total_append, h2, h4, hB2, d.apply_add hl, Matrix.mulVec_add]
          rfl
  | _, .scale a y, h =>
    good_unary _ (lin_smul y) (fun _ hD i j => (hD i j).const_mul y) (fun _ _ _ _ => by rw [jac]) (fun _ _ hs => hs) (good hm a h)
  | _, .crossL a b, h =>
    good_binary _ (lin_crossL (val x (c t) b)) _ (lin_crossLr (col (val x (c t) a)))
      (fun _ _ hD hE => mderiv_crossCols (mderiv_col hD) hE)
      (fun _ _ _ _ => by rw [jac]) (fun _ _ hs => hs) (good hm a h.1) (good hm b h.2)
  | _, .crossR a b, h =>
    good_binary _ (lin_crossRl (col (val x (c t) b))) _ (lin_crossR (val x (c t) a))
      (fun _ _ hD hE => mderiv_colsCross (mderiv_col hE) hD)
      (fun _ _ _ _ => by rw [jac]) (fun _ _ hs => hs) (good hm a h.1) (good hm b h.2)
  | _, .qmul m a b, h =>
    good_binary _ (lin_multL m (col (val x (c t) b))) _ (lin_multR m (col (val x (c t) a)))
      (fun _ _ hD hE => vderiv_ofCol (Quat.deriv_mult m (mderiv_col hD) (mderiv_col hE)))
      (fun _ _ _ _ => by rw [jac]) (fun _ _ hs => hs) (good hm a h.1) (good hm b h.2)
  | _, .qinv m a, h =>
    good_unary _ (lin_inv m (col (val x (c t) a))) (fun _ hD => vderiv_ofCol (Quat.deriv_invert m (mderiv_col hD) h.2))
      (fun _ _ _ _ => by rw [jac]) (fun _ _ hs => hs) (good hm a h.1)
  | _, .qconj m a, h =>
    good_unary _ (lin_conj m) (fun _ hD => vderiv_ofCol (Quat.deriv_conjugate m (mderiv_col hD)))
      (fun _ _ _ _ => by rw [jac]) (fun _ _ hs => hs) (good hm a h)
  | _, .qimag m a, h =>
    good_unary _ (lin_imag m) (fun _ hD => vderiv_ofCol (Quat.deriv_imag m (mderiv_col hD)))
      (fun _ _ _ _ => by rw [jac]) (fun _ _ hs => hs) (good hm a h)
  | _, .qrot m a b, h =>
    good_binary _ (lin_rotL m (col (val x (c t) a)) (col (val x (c t) b))) _ (lin_rotR m (col (val x (c t) a)))
      (fun _ _ hD hE => vderiv_ofCol (Quat.deriv_rotate m (mderiv_col hD) (mderiv_col hE)))
      (fun _ _ _ _ => by rw [jac]) (fun _ _ hs => hs) (good hm a h.1) (good hm b h.2)
  | _, .qlog m a, h =>
    good_matrix (x.dlog m (col (val x (c t) a))) (fun D hD => by
        have := vderiv_ofCol (h.2 _ _ t rfl (mderiv_col hD))
        rw [← col_mul, ofCol_col] at this
        exact this)
      (fun _ _ _ _ => by rw [jac]) (fun _ _ hs => hs) (good hm a h.1)
  | _, .qexp m a, h =>
    good_matrix (x.dexp m (col (val x (c t) a))) (fun D hD => by
        have := vderiv_ofCol (h.2 _ _ t rfl (mderiv_col hD))
        rw [← col_mul, ofCol_col] at this
        exact this)
      (fun _ _ _ _ => by rw [jac]) (fun _ _ hs => hs) (good hm a h.1)

end Verif.GenExpr
