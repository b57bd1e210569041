import Verif.Expr.Program

/-!
C133: what the variables of a program hold.
-/
namespace Verif.Expr
open Matrix Verif.Geo Filter Topology

variable {invS : V3 × ℝ → Matrix (Fin 3 ⊕ Unit) (Fin 3) ℝ} {c : ℝ → Env} {t : ℝ} {δ : (v : Var) → v.Idx → ℝ}

/-- Where it is defined and regular it is defined all around. -/
def Near (invS : V3 × ℝ → Matrix (Fin 3 ⊕ Unit) (Fin 3) ℝ) {ty : Ty} (m : Mean ty) : Prop :=
  ∀ c t δ, Moves invS c t δ → m.reg c t → ∀ v, m.val (c t) = some v → ∀ᶠ s in 𝓝 t, ∃ w, m.val (c s) = some w

theorem Fits.diff {ty : Ty} {tbl : Table} {h : Handle ty} {m : Mean ty} (hf : Fits tbl h m) (hn : Near invS m) (hm : Moves invS c t δ) (hr : m.reg c t) {v : Val ty}
    (hv : m.val (c t) = some v) : ∃ f d, (∀ᶠ s in 𝓝 t, m.val (c s) = some (f s)) ∧ Der ty f d t := by
  have h0 := hn c t δ hm hr v hv
  rcases h with _ | e
  · cases ty
    case E =>
      refine ⟨fun _ => 0, 0, h0.mono fun s ⟨w, hw⟩ => ?_, VDeriv.const _⟩
      have := hf.val _ _ hw
      cases this
      exact hw
    case R =>
      refine ⟨fun _ => 1, 0, h0.mono fun s ⟨w, hw⟩ => ?_, (MDeriv.const _).congr (by ext i j; fin_cases i <;> fin_cases j <;> simp [crossMx]), .of_forall fun _ => IsRot.one⟩
      have := hf.val _ _ hw
      cases this
      exact hw
    case T =>
      refine ⟨fun _ => ⟨1, 0⟩, 0, h0.mono fun s ⟨w, hw⟩ => ?_, (MDeriv.const _).congr (by ext i j; fin_cases i <;> fin_cases j <;> simp [crossMx]), (VDeriv.const _).congr (by simp; rfl), .of_forall fun _ => IsRot.one⟩
      have := hf.val _ _ hw
      cases this
      exact hw
    all_goals
      have := hf.val _ _ hv
      cases this
  · obtain ⟨f, d, -, -, h1, h2, -, -⟩ := C59_first_order hm e (hf.cons e rfl) (hf.smooth e rfl c t hr) (hf.val_eq hv) (0 : Matrix (Fin 0) (TI ty) ℝ) (fun _ => none)
    refine ⟨f, d, (h0.and h1).mono fun s ⟨⟨w, hw⟩, hs⟩ => ?_, h2⟩
    have := hf.val_eq hw
    rw [hs] at this
    cases this
    exact hw

theorem Near.one {ta ty : Ty} {ma : Mean ta} (ha : Near invS ma) (g : Val ta → Val ty) : Near invS (⟨fun env => (ma.val env).bind fun x => some (g x), fun c t => ma.reg c t⟩ : Mean ty) := by
  intro c t δ hm hr v hv
  simp only [Option.bind_eq_some_iff] at hv
  obtain ⟨x, hx, -⟩ := hv
  exact (ha c t δ hm hr x hx).mono fun s ⟨w, hw⟩ => ⟨g w, by simp [hw]⟩

theorem Near.two {ta tb ty : Ty} {ma : Mean ta} {mb : Mean tb} (ha : Near invS ma) (hb : Near invS mb) (g : Val ta → Val tb → Val ty) :
    Near invS (⟨fun env => (ma.val env).bind fun x => (mb.val env).bind fun y => some (g x y), fun c t => ma.reg c t ∧ mb.reg c t⟩ : Mean ty) := by
  intro c t δ hm hr v hv
  simp only [Option.bind_eq_some_iff] at hv
  obtain ⟨x, hx, y, hy, -⟩ := hv
  exact ((ha c t δ hm hr.1 x hx).and (hb c t δ hm hr.2 y hy)).mono fun s ⟨⟨w, hw⟩, ⟨z, hz⟩⟩ => ⟨g w z, by simp [hw, hz]⟩

/-- The value of a scalar stays in an open set. -/
theorem Fits.stays {tbl : Table} {h : Handle .S} {m : Mean .S} (hf : Fits tbl h m) (hn : Near invS m) (hm : Moves invS c t δ) (hr : m.reg c t) {v : ℝ}
    (hv : m.val (c t) = some v) (P : ℝ → Prop) (hP : ∀ᶠ x in 𝓝 v, P x) : ∀ᶠ s in 𝓝 t, ∃ w, m.val (c s) = some w ∧ P w := by
  obtain ⟨f, d, h1, h2⟩ := hf.diff hn hm hr hv
  have hc : ContinuousAt f t := HasDerivAt.continuousAt h2
  have hft : f t = v := by
    have := h1.self_of_nhds
    rw [hv] at this
    exact (Option.some.inj this).symm
  rw [← hft] at hP
  exact (h1.and (hc.eventually hP)).mono fun s hs => ⟨f s, hs⟩

theorem fn1_near {tbl : Table} (g : Fn1) {h : Handle .S} {m : Mean .S} (hf : Fits tbl h m) (hn : Near invS m) :
    Near invS (⟨fun env => (m.val env).bind g.val, fun c t => m.reg c t ∧ ∃ x, m.val (c t) = some x ∧ g.reg x⟩ : Mean .S) := by
  intro c t δ hm hr v hv
  simp only [Option.bind_eq_some_iff] at hv
  obtain ⟨x, hx, hg⟩ := hv
  obtain ⟨h1, x', hx', hr⟩ := hr
  rw [hx] at hx'
  cases hx'
  have key : ∀ᶠ y in 𝓝 x, ∃ w, g.val y = some w := by
    cases g with
    | divc k =>
      by_cases hk : k = 0
      · simp [Fn1.val, hk] at hg
      · exact .of_forall fun y => ⟨y / k, by simp [Fn1.val, hk]⟩
    | cdiv k =>
      by_cases hk : x = 0
      · simp [Fn1.val, hk] at hg
      · exact (isOpen_ne.eventually_mem hk).mono fun y hy => ⟨k / y, by rw [Fn1.val, if_neg hy]⟩
    | sqrt =>
      by_cases hk : 0 < x
      · exact (isOpen_Ioi.eventually_mem hk).mono fun y hy => ⟨_, by rw [Fn1.val, if_pos (show 0 < y from hy)]⟩
      · simp [Fn1.val, hk] at hg
    | log =>
      by_cases hk : 0 < x
      · exact (isOpen_Ioi.eventually_mem hk).mono fun y hy => ⟨_, by rw [Fn1.val, if_pos (show 0 < y from hy)]⟩
      · simp [Fn1.val, hk] at hg
    | acos => exact (isOpen_Ioo.eventually_mem (show x ∈ Set.Ioo (-1) 1 from hr)).mono fun y hy => ⟨_, by rw [Fn1.val, if_pos ⟨hy.1.le, hy.2.le⟩]⟩
    | acosSquared =>
      have h3 : (0 : ℝ) < 1 / 2 ^ 26 := by positivity
      exact (isOpen_Ioo.eventually_mem (show x ∈ Set.Ioo (-1) 1 from ⟨hr.1, by linarith [hr.2]⟩)).mono fun y hy => ⟨_, by rw [Fn1.val, if_pos ⟨hy.1.le, hy.2.le⟩]⟩
    | power k =>
      rcases hr with hr | hr
      · exact (isOpen_ne.eventually_mem hr).mono fun y hy => ⟨_, by rw [Fn1.val, if_neg fun h => hy h.1]⟩
      · exact .of_forall fun y => ⟨_, by rw [Fn1.val, if_neg fun h => by omega]⟩
    | _ => exact .of_forall fun y => ⟨_, rfl⟩
  exact (hf.stays hn hm h1 hx _ key).mono fun s ⟨y, hy, w, hw⟩ => ⟨w, by simp [hy, hw]⟩

theorem fn2_near {tbl : Table} (g : Fn2) {a b : Handle .S} {ma mb : Mean .S} (hb' : Fits tbl b mb) (na : Near invS ma) (nb : Near invS mb) :
    Near invS (⟨fun env => g.val (ma.val env) (mb.val env) env, fun c t => g.reg c t ma mb⟩ : Mean .S) := by
  cases g with
  | add => exact na.two nb _
  | sub => exact na.two nb _
  | mul => exact na.two nb _
  | div =>
    intro c t δ hm hr v hv
    simp only [Fn2.val, Option.bind_eq_some_iff] at hv
    obtain ⟨x, hx, y, hy, hz⟩ := hv
    have h0 : y ≠ 0 := fun h => by simp [h] at hz
    exact ((na c t δ hm hr.1 x hx).and (hb'.stays nb hm hr.2 hy _ (isOpen_ne.eventually_mem h0))).mono fun s ⟨⟨w, hw⟩, ⟨z, hz, h1⟩⟩ => ⟨w / z, by
      have : z ≠ 0 := h1
      simp [Fn2.val, hw, hz, this]⟩
  | atan2 =>
    intro c t δ hm hr v hv
    exact na.two (ty := .S) nb (fun (x y : ℝ) => (Complex.arg ⟨y, x⟩ : ℝ)) c t δ hm ⟨hr.1, hr.2.1⟩ v hv
  | piecewise cond =>
    intro c t δ hm hr v hv
    obtain ⟨h1, h2, h3⟩ := hr
    by_cases hc : cond (c t) = true
    · simp only [Fn2.val, hc, if_true] at hv
      exact (h1.and (na c t δ hm (h2 hc) v hv)).mono fun s ⟨k, w, hw⟩ => ⟨w, by simp [Fn2.val, k, hc, hw]⟩
    · simp only [Fn2.val, hc] at hv
      exact (h1.and (nb c t δ hm (h3 (by simpa using hc)) v hv)).mono fun s ⟨k, w, hw⟩ => ⟨w, by simp [Fn2.val, k, hc, hw]⟩

theorem rhs_near {tbl : Table} {ty : Ty} (r : Rhs ty) (s : Vars) (m : Means) (hi : ∀ ty r, Fits tbl (s.reg ty r) (m ty r)) (hn : ∀ ty r, Near invS (m ty r)) : Near invS (r.mean m) := by
  cases r with
  | fn1 f a => exact fn1_near f (hi .S a) (hn .S a)
  | fn2 f a b => exact fn2_near (a := s.reg .S a) f (hi .S b) (hn .S a) (hn .S b)
  | component k p => exact (hn .E p).one (ty := .S) (fun (x : V3) => (x k : ℝ))
  | stack a b d =>
    intro c t δ hm hr v hv
    simp only [Rhs.mean, Option.bind_eq_some_iff] at hv
    obtain ⟨x, hx, y, hy, z, hz, -⟩ := hv
    exact (((hn .S a c t δ hm hr.1 x hx).and (hn .S b c t δ hm hr.2.1 y hy)).and (hn .S d c t δ hm hr.2.2 z hz)).mono
      fun s ⟨⟨⟨x, hx⟩, ⟨y, hy⟩⟩, ⟨z, hz⟩⟩ => ⟨![x, y, z], by simp [Rhs.mean, hx, hy, hz]⟩
  | add a b => exact (hn .E a).two (ty := .E) (hn .E b) (fun (x y : V3) => (x + y : V3))
  | sub a b => exact (hn .E a).two (ty := .E) (hn .E b) (fun (x y : V3) => (x - y : V3))
  | subVec a v => exact (hn .E a).one (ty := .E) (fun (x : V3) => (x - v : V3))
  | neg a => exact (hn .E a).one (ty := .E) (fun (x : V3) => (-x : V3))
  | scale p k => exact (hn .E p).two (ty := .E) (hn .S k) (fun (x : V3) (y : ℝ) => (y • x : V3))
  | cross a b => exact (hn .E a).two (ty := .E) (hn .E b) (fun (x y : V3) => (x ⨯₃ y : V3))
  | elementwise a b => exact (hn .E a).two (ty := .E) (hn .E b) (fun (x y : V3) => (fun k => x k * y k : V3))
  | rotate a b => exact (hn .R a).two (ty := .E) (hn .E b) (fun (x : M3) (y : V3) => (x *ᵥ y : V3))
  | matMul a b => exact (hn .M a).two (ty := .E) (hn .E b) (fun (x : M3) (y : V3) => (x *ᵥ y : V3))
  | transform a b => exact (hn .T a).two (ty := .E) (hn .E b) (fun (P : Pose) (y : V3) => (P.C *ᵥ y + P.t : V3))
  | translation T => exact (hn .T T).one (ty := .E) (fun (P : Pose) => (P.t : V3))
  | toEuc a =>
    intro c t δ hm hr v hv
    simp only [Rhs.mean, Option.bind_eq_some_iff] at hv
    obtain ⟨x, hx, hz⟩ := hv
    have h0 : x.2 ≠ 0 := fun h => by simp [h] at hz
    obtain ⟨f, d, h1, h2⟩ := (hi .H a).diff (hn .H a) hm hr hx
    have hft : f t = x := by
      have := h1.self_of_nhds
      rw [hx] at this
      exact (Option.some.inj this).symm
    have hc : ContinuousAt (fun s => (f s).2) t := HasDerivAt.continuousAt h2.2
    have h3 : ∀ᶠ s in 𝓝 t, (f s).2 ≠ 0 := hc.eventually_ne (by rw [hft]; exact h0)
    exact (h1.and h3).mono fun s ⟨k1, k2⟩ => ⟨fun k => (f s).1 k / (f s).2, by simp [Rhs.mean, k1, k2]⟩
  | axis k a => exact (hn .S a).one (ty := .R) (fun (x : ℝ) => (turn k x : M3))
  | rmul a b => exact (hn .R a).two (ty := .R) (hn .R b) (fun (x y : M3) => (x * y : M3))
  | rinv a => exact (hn .R a).one (ty := .R) (fun (x : M3) => (xᵀ : M3))
  | rotation T => exact (hn .T T).one (ty := .R) (fun (P : Pose) => (P.C : M3))
  | transformation a b => exact (hn .R a).two (ty := .T) (hn .E b) (fun (x : M3) (y : V3) => (⟨x, y⟩ : Pose))
  | tmul a b => exact (hn .T a).two (ty := .T) (hn .T b) (fun (P Q : Pose) => (⟨P.C * Q.C, P.C *ᵥ Q.t + P.t⟩ : Pose))
  | tinv a =>
    intro c t δ hm hr v hv
    simp only [Rhs.mean, Option.bind_eq_some_iff] at hv
    obtain ⟨x, hx, hz⟩ := hv
    obtain ⟨f, d, h1, h2⟩ := (hi .T a).diff (hn .T a) hm hr hx
    refine (h1.and h2.2.2).mono fun s ⟨k1, k2⟩ => ⟨⟨(f s).C⁻¹, -((f s).C⁻¹ *ᵥ (f s).t)⟩, ?_⟩
    have : (f s).C.det ≠ 0 := by rw [k2.2]; exact one_ne_zero
    simp [Rhs.mean, k1, this]
  | toHom a => exact (hn .E a).one (ty := .H) (fun (v : V3) => ((v, 1) : V3 × ℝ))
  | tmulH a b => exact (hn .T a).two (ty := .H) (hn .H b) (fun (P : Pose) (v : V3 × ℝ) => ((P.C *ᵥ v.1 + v.2 • P.t, v.2) : V3 × ℝ))
  | copy a => exact hn _ a
  | _ => exact fun c t δ _ _ v _ => .of_forall fun s => ⟨_, rfl⟩

theorem start_fits (tbl : Table) (ty : Ty) (r : Nat) : Fits tbl (Vars.start.reg ty r) (Mean.default ty) := by
  refine ⟨fun env v hv => ?_, fun e he => (by cases he), fun e he => (by cases he)⟩
  cases ty <;> cases hv <;> rfl

theorem start_near (ty : Ty) : Near invS (Mean.default ty) := by
  intro c t δ _ _ v hv
  cases ty <;> first | exact .of_forall fun s => ⟨_, rfl⟩ | cases hv

/-- The table with one more entry. -/
theorem inv_step {s : Vars} {m : Means} (hi : Inv s m) (a : Assign) (hc : a.rhs.Clean s) {h : Handle a.ty} (hb : a.rhs.build s = .ok h) :
    Inv ⟨setReg s.reg a.ty a.dst h, s.made + 1⟩ (setReg m a.ty a.dst (a.rhs.mean m)) := by
  obtain ⟨tbl₀, hi⟩ := hi
  refine ⟨Function.update tbl₀ s.made (a.rhs.tag s), fun tbl ht ty r => ?_⟩
  have h1 : ∀ i, i < s.made → tbl i = tbl₀ i := fun i hi' => by
    rw [ht i (Nat.lt_succ_of_lt hi'), Function.update_of_ne (Nat.ne_of_lt hi')]
  have h2 : tbl s.made = a.rhs.tag s := by
    rw [ht _ (Nat.lt_succ_self _), Function.update_self]
  by_cases hr : ty = a.ty ∧ r = a.dst
  · obtain ⟨e1, e2⟩ := hr
    subst e1 e2
    simp only [setReg, and_self, dif_pos]
    exact rhs_fits a.rhs s m (hi tbl h1) h2 hc hb
  · simp only [setReg, dif_neg hr]
    exact hi tbl h1 ty r

theorem inv_run (l : List Assign) : ∀ {s : Vars} {m : Means}, Inv s m → (∀ ty r, Near invS (m ty r)) → Clean l s → ∀ {s'}, run l s = .ok s' →
    Inv s' (meaning l m) ∧ ∀ ty r, Near invS (meaning l m ty r) := by
  induction l with
  | nil =>
    intro s m hi hn _ s' hr
    cases hr
    exact ⟨hi, hn⟩
  | cons a l ih =>
    intro s m hi hn hc s' hr
    rw [run] at hr
    rcases hb : a.rhs.build s with h | _ | _ <;> rw [hb] at hr <;> try cases hr
    refine ih (inv_step hi a hc.1 hb) (fun ty r => ?_) (hc.2 h hb) hr
    obtain ⟨tbl₀, hi⟩ := hi
    by_cases hr' : ty = a.ty ∧ r = a.dst
    · obtain ⟨e1, e2⟩ := hr'
      subst e1 e2
      simp only [setReg, and_self, dif_pos]
      exact rhs_near a.rhs s m (hi tbl₀ fun _ _ => rfl) hn
    · simp only [setReg, dif_neg hr']
      exact hn ty r

theorem inv_start (l : List Assign) (hc : Clean l .start) {s : Vars} (hr : run l .start = .ok s) :
    Inv s (meaning l fun ty _ => Mean.default ty) ∧ ∀ ty r, Near invS (meaning l (fun ty _ => Mean.default ty) ty r) :=
  inv_run l ⟨fun _ => ⟨_, .sconst 0⟩, fun tbl _ ty r => start_fits tbl ty r⟩ (fun ty _ => start_near ty) hc hr

/-- Values: after a program of assignments every variable has, in every state of the design variables in which what it stands for is defined, that value. The full claim
has every program. Missing: programs which subtract something from a default-constructed point (`C61_sub_counterexample`), and programs which use a
default-constructed expression of another kind (`C61_null_counterexample`, here `run` is not `ok`). -/
theorem C133_value_partial (l : List Assign) (hc : Clean l .start) {s : Vars} (hr : run l .start = .ok s) (ty : Ty) (r : Nat) (env : Env) (v : Val ty)
    (hv : (meaning l (fun ty _ => Mean.default ty) ty r).val env = some v) : (s.reg ty r).val env = .ok v := by
  obtain ⟨⟨tbl₀, hi⟩, -⟩ := inv_start (invS := fun _ => 0) l hc hr
  exact (hi tbl₀ (fun _ _ => rfl) ty r).val env v hv

/-- Derivatives: after a program, and after an evaluation of the variable whatever was evaluated before, its Jacobians exist and, summed over the design variables with their velocities,
give the velocity of what the variable stands for, which is defined all around. The full claim has "wherever it is differentiable". Missing: as in `C133_value_partial`, powers
with exponent 0 at 0 (`C57_power_counterexample`), squared arc cosines within 2⁻²⁶ of 1 (`C57_acosSquared_series`), and constants given as rotations which are none. -/
theorem C133_derivative_partial (l : List Assign) (hc : Clean l .start) {s : Vars} (hr : run l .start = .ok s) (ty : Ty) (r : Nat) {e : Node ty} (he : s.reg ty r = some e)
    (hm : Moves invS c t δ) (hd : ((meaning l (fun ty _ => Mean.default ty) ty r).val (c t)).isSome) (hreg : (meaning l (fun ty _ => Mean.default ty) ty r).reg c t)
    {n : Nat} (A : Matrix (Fin n) (TI ty) ℝ) (σ : Store) :
    ∃ f d L σ', (∀ᶠ s in 𝓝 t, (meaning l (fun ty _ => Mean.default ty) ty r).val (c s) = some (f s)) ∧ Der ty f d t ∧
      jac invS (c t) e A (upd (c t) e σ) = .ok (L, σ') ∧ total δ L = A *ᵥ d := by
  obtain ⟨⟨tbl₀, hi⟩, hn⟩ := inv_start (invS := invS) l hc hr
  obtain ⟨v, hv⟩ := Option.isSome_iff_exists.1 hd
  have hf := hi tbl₀ (fun _ _ => rfl) ty r
  rw [he] at hf
  obtain ⟨f, d, L, σ', h1, h2, h3, h4⟩ := C59_first_order hm e (hf.cons e rfl) (hf.smooth e rfl c t hreg) (hf.val_eq hv) A σ
  refine ⟨f, d, L, σ', ((hn ty r c t δ hm hreg v hv).and h1).mono fun s ⟨⟨w, hw⟩, hs⟩ => ?_, h2, h3, h4⟩
  have := hf.val_eq hw
  rw [hs] at this
  cases this
  exact hw

/-- A camera pose is made from a rotation `R` and the sum of `R p` and `R (R p)`, where `R` and `R p` are used several times; a default-constructed point is added, the pose is
inverted and applied to `R p`, and a coordinate of the result goes through scalar functions. The variable 0 for points is overwritten. -/
noncomputable def exProgram : List Assign :=
  [⟨.R, 0, .rvar 0⟩, ⟨.E, 0, .evar 0⟩, ⟨.E, 0, .rotate 0 0⟩, ⟨.E, 1, .rotate 0 0⟩, ⟨.E, 2, .add 0 1⟩, ⟨.E, 2, .add 2 7⟩, ⟨.T, 0, .transformation 0 2⟩, ⟨.T, 0, .tinv 0⟩,
    ⟨.E, 3, .transform 0 0⟩, ⟨.S, 0, .component 0 3⟩, ⟨.S, 0, .fn1 (.cdiv 2) 0⟩, ⟨.S, 1, .fn2 .atan2 0 0⟩]

theorem exProgram_clean : Clean exProgram .start := by
  simp [exProgram, Clean, Rhs.Clean]

theorem exProgram_mean (env : Env) (hC : IsRot (env.ro 0)) (hp : (env.ro 0 *ᵥ env.pt 0) 0 ≠ 0) :
    (meaning exProgram (fun ty _ => Mean.default ty) .S 0).val env = some (2 / -(env.ro 0 *ᵥ env.pt 0) 0) := by
  have h1 : (env.ro 0).det ≠ 0 := by rw [hC.2]; exact one_ne_zero
  have h2 : (env.ro 0)⁻¹ *ᵥ (env.ro 0 *ᵥ env.ro 0 *ᵥ env.pt 0) = env.ro 0 *ᵥ env.pt 0 := by
    rw [mulVec_mulVec, nonsing_inv_mul _ (isUnit_iff_ne_zero.2 h1), one_mulVec]
  simp [exProgram, meaning, setReg, Rhs.mean, Mean.default, Fn1.val, h1, h2, hp, mulVec_add]

example : ∃ s, run exProgram .start = .ok s ∧ ∀ env : Env, IsRot (env.ro 0) → (env.ro 0 *ᵥ env.pt 0) 0 ≠ 0 → (s.reg .S 0).val env = .ok (2 / -(env.ro 0 *ᵥ env.pt 0) 0) :=
  ⟨_, rfl, fun env h1 h2 => C133_value_partial exProgram exProgram_clean rfl .S 0 env _ (exProgram_mean env h1 h2)⟩

theorem exProgram_reg (c : ℝ → Env) (t : ℝ) (hC : IsRot ((c t).ro 0)) : (meaning exProgram (fun ty _ => Mean.default ty) .S 0).reg c t := by
  have h1 : ((c t).ro 0).det ≠ 0 := by rw [hC.2]; exact one_ne_zero
  simp [exProgram, meaning, setReg, Rhs.mean, Mean.default, Fn1.reg, h1]

example : ∃ s e, run exProgram .start = .ok s ∧ s.reg .S 0 = some e ∧ ∃ f d L σ',
    (∀ᶠ s in 𝓝 Real.pi, (meaning exProgram (fun ty _ => Mean.default ty) .S 0).val (exC s) = some (f s)) ∧ Der .S f d Real.pi ∧
      jac invS (exC Real.pi) e (fun _ _ => 1 : Matrix (Fin 1) Unit ℝ) (upd (exC Real.pi) e fun _ => none) = .ok (L, σ') ∧ total exD L = (fun _ _ => 1 : Matrix (Fin 1) Unit ℝ) *ᵥ d :=
  ⟨_, _, rfl, rfl, C133_derivative_partial exProgram exProgram_clean rfl .S 0 rfl (exMoves invS Real.pi)
    (by rw [exProgram_mean _ (axisRot_isRot 2 Real.pi) (by simp [exC, axisRot, mulVec, dotProduct, Fin.sum_univ_three, Real.pi_ne_zero])]; rfl)
    (exProgram_reg exC Real.pi (axisRot_isRot 2 Real.pi)) _ _⟩

end Verif.Expr
