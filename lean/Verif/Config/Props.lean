import Verif.Config.Model
import Verif.Rprop.Props
import Verif.Optimizer2.Model
import Mathlib.Tactic.NormNum
import Mathlib.Tactic.Linarith

/-!
C122: options read from a configuration are the configured ones.
-/
namespace Verif.Config
open FloatLike

variable {F : Type} [FloatLike F]

/-- What the user says about an option: its value is stored under a key, or there is no such key and the option has its default. -/
def Says {α : Type} (stored : Option α) (dflt x : α) : Prop := stored = some x ∨ (stored = none ∧ x = dflt)

/-- The same for an option that is a count. -/
def SaysN (stored : Option Int) (dflt x : Nat) : Prop := stored = some (x : Int) ∨ (stored = none ∧ x = dflt)

/-- The counts stored under some keys are counts. -/
def Counts (t : Tree F) (keys : List String) : Prop := ∀ k ∈ keys, ∀ i, t.int k = some i → 0 ≤ i ∧ i < 2 ^ 31

theorem getD_says {α : Type} (s : Option α) (d x : α) : s.getD d = x ↔ Says s d x := by
  cases s <;> simp [Says, eq_comm]

theorem sizeT_nonneg {i : Int} (h : 0 ≤ i ∧ i < 2 ^ 31) : sizeT i = i.toNat := by
  unfold sizeT
  rw [Int.emod_eq_of_lt h.1 (lt_trans h.2 (by norm_num))]

omit [FloatLike F] in
theorem getCount_says {t : Tree F} {keys : List String} (ht : Counts t keys) {k : String} (hk : k ∈ keys) {d : Nat} (hd : d < 100) (x : Nat) :
    t.getCount k d = x ↔ SaysN (t.int k) d x := by
  unfold Tree.getCount Tree.getInt SaysN
  cases h : t.int k with
  | none =>
    have : sizeT (d : Int) = d := by
      rw [sizeT_nonneg ⟨by positivity, by exact_mod_cast lt_trans hd (by norm_num)⟩]; rfl
    simp [this, eq_comm]
  | some i =>
    have hb := ht k hk i h
    simp only [Option.getD_some, sizeT_nonneg hb, Option.some.injEq, reduceCtorEq, false_and, or_false]
    omega

/-- What `check()` of `OptimizerOptionsBase` promises. -/
structure ValidBase (o : Base F) : Prop where
  gradientNorm : le (lit 0) o.convergenceGradientNorm = true
  deltaX : le (lit 0) o.convergenceDeltaX = true
  deltaError : le (lit 0) o.convergenceDeltaError = true
  some_criterion : lt (lit 0) o.convergenceGradientNorm = true ∨ lt (lit 0) o.convergenceDeltaX = true ∨ lt (lit 0) o.convergenceDeltaError = true
  iterations : o.maxIterations = -1 ∨ 0 ≤ o.maxIterations

theorem validBase_iff (o : Base F) : o.check = true ↔ ValidBase o := by
  unfold Base.check
  simp only [Bool.and_eq_true, Bool.or_eq_true, decide_eq_true_eq]
  constructor
  · rintro ⟨⟨⟨⟨a, b⟩, c⟩, d⟩, e⟩
    exact ⟨a, b, c, by tauto, by omega⟩
  · rintro ⟨a, b, c, d, e⟩
    exact ⟨⟨⟨⟨a, b⟩, c⟩, by tauto⟩, by omega⟩

/-- The base options a tree describes. -/
structure DescribesBase (t : Tree F) (o : Base F) : Prop where
  gradientNorm : Says (t.dbl "convergenceGradientNorm") (lit (1 / 1000)) o.convergenceGradientNorm
  deltaX : Says (t.dbl "convergenceDeltaX") (lit 0) o.convergenceDeltaX
  deltaError : Says (t.dbl "convergenceDeltaError") (lit 0) o.convergenceDeltaError
  iterations : Says (t.int "maxIterations") 100 o.maxIterations
  threadsJacobian : SaysN (t.int "numThreadsJacobian") 4 o.numThreadsJacobian
  threadsError : SaysN (t.int "numThreadsError") 1 o.numThreadsError

/-- The counts of the base options. -/
def baseCounts : List String := ["numThreadsJacobian", "numThreadsError"]

/-- C122: the options of the gradient-based optimizers that are built from a configuration are exactly the described ones, and they are valid. -/
theorem C122_base (t : Tree F) (ht : Counts t baseCounts) (o : Base F) : Base.ofTree t = .ok o ↔ DescribesBase t o ∧ ValidBase o := by
  have key : ∀ x : Base F, x = o → (x.check = true ↔ ValidBase o) := fun x h => h ▸ validBase_iff o
  unfold Base.ofTree
  dsimp only
  have e : ∀ (x : Base F), ((if x.check then Res.ok x else .exc) = Res.ok o) ↔ (x = o ∧ ValidBase o) := by
    intro x
    split
    · next h => exact ⟨fun hx => ⟨by injection hx, (key x (by injection hx)).1 h⟩, fun hx => by rw [hx.1]⟩
    · next h => exact ⟨fun hx => (by cases hx), fun hx => absurd ((key x hx.1).2 hx.2) h⟩
  rw [e]
  refine and_congr_left fun _ => ?_
  obtain ⟨a, b, c, d, f, g⟩ := o
  simp only [Base.mk.injEq, Base.dflt, Tree.getDouble, Tree.getInt, getD_says]
  rw [getCount_says ht (by simp [baseCounts]) (by norm_num), getCount_says ht (by simp [baseCounts]) (by norm_num)]
  exact ⟨fun ⟨h1, h2, h3, h4, h5, h6⟩ => ⟨h1, h2, h3, h4, h5, h6⟩, fun ⟨h1, h2, h3, h4, h5, h6⟩ => ⟨h1, h2, h3, h4, h5, h6⟩⟩

/-- Otherwise the constructor throws. -/
theorem C122_base_total (t : Tree F) : (∃ o, Base.ofTree t = .ok o) ∨ Base.ofTree t = .exc := by
  unfold Base.ofTree
  dsimp only
  split
  · exact .inl ⟨_, rfl⟩
  · exact .inr rfl

/-- What `check()` of the Rprop options promises. -/
structure ValidRprop (o : RpropOptions F) : Prop extends ValidBase o.toBase where
  etaMinus : lt (lit 0) o.etaMinus = true
  etaPlus : lt o.etaMinus o.etaPlus = true
  initialDelta : lt (lit 0) o.initialDelta = true
  minDelta : lt (lit 0) o.minDelta = true
  maxDelta : lt o.minDelta o.maxDelta = true

/-- The Rprop options a tree describes; the method and the kind of Jacobian container are not configurable. -/
structure DescribesRprop (t : Tree F) (o : RpropOptions F) : Prop extends DescribesBase t o.toBase where
  etaMinus : Says (t.dbl "etaMinus") (lit (1 / 2)) o.etaMinus
  etaPlus : Says (t.dbl "etaPlus") (lit (6 / 5)) o.etaPlus
  initialDelta : Says (t.dbl "initialDelta") (lit (1 / 10)) o.initialDelta
  minDelta : Says (t.dbl "minDelta") (lit (1 / 10 ^ 20)) o.minDelta
  maxDelta : Says (t.dbl "maxDelta") (lit 1) o.maxDelta
  dense : o.useDenseJacobianContainer = true
  method : o.method = .rpropPlus

/-- C122: the same for Rprop. -/
theorem C122_rprop (t : Tree F) (ht : Counts t baseCounts) (o : RpropOptions F) : RpropOptions.ofTree t = .ok o ↔ DescribesRprop t o ∧ ValidRprop o := by
  unfold RpropOptions.ofTree
  rcases hb : Base.ofTree t with b | _ | _
  · obtain ⟨hd, hv⟩ := (C122_base t ht b).1 hb
    simp only [Res.bind_ok]
    obtain ⟨ob, em, ep, ini, mn, mx, dn, me⟩ := o
    constructor
    · intro h
      split at h
      · next hc =>
        injection h with h
        simp only [RpropOptions.mk.injEq, Tree.getDouble, getD_says] at h
        obtain ⟨rfl, h1, h2, h3, h4, h5, h6, h7⟩ := h
        rw [← getD_says] at h1 h2 h3 h4 h5
        subst h1 h2 h3 h4 h5
        simp only [RpropOptions.check, Bool.and_eq_true] at hc
        exact ⟨⟨hd, (getD_says _ _ _).1 rfl, (getD_says _ _ _).1 rfl, (getD_says _ _ _).1 rfl, (getD_says _ _ _).1 rfl, (getD_says _ _ _).1 rfl, h6.symm, h7.symm⟩,
          ⟨hv, hc.1.1.1.1.1, hc.1.1.1.1.2, hc.1.1.1.2, hc.1.1.2, hc.1.2⟩⟩
      · cases h
    · rintro ⟨h, w⟩
      have hob : b = ob := by
        have := (C122_base t ht ob).2 ⟨h.toDescribesBase, w.toValidBase⟩
        rw [hb] at this
        injection this
      subst hob
      have h1 := (getD_says _ _ _).2 h.etaMinus
      have h2 := (getD_says _ _ _).2 h.etaPlus
      have h3 := (getD_says _ _ _).2 h.initialDelta
      have h4 := (getD_says _ _ _).2 h.minDelta
      have h5 := (getD_says _ _ _).2 h.maxDelta
      have h6 := h.dense
      have h7 := h.method
      simp only at h1 h2 h3 h4 h5 h6 h7
      subst h6 h7
      simp only [Tree.getDouble, h1, h2, h3, h4, h5]
      have hc : ({ toBase := b, etaMinus := em, etaPlus := ep, initialDelta := ini, minDelta := mn, maxDelta := mx, useDenseJacobianContainer := true, method := .rpropPlus } : RpropOptions F).check = true := by
        simp only [RpropOptions.check, Bool.and_eq_true]
        exact ⟨⟨⟨⟨⟨w.etaMinus, w.etaPlus⟩, w.initialDelta⟩, w.minDelta⟩, w.maxDelta⟩, (validBase_iff _).2 w.toValidBase⟩
      rw [hc, if_pos rfl]
  · simp only [Res.bind_exc, reduceCtorEq, false_iff, not_and]
    intro h w
    rw [(C122_base t ht o.toBase).2 ⟨h.toDescribesBase, w.toValidBase⟩] at hb
    cases hb
  · simp only [Res.bind_ub, reduceCtorEq, false_iff, not_and]
    intro h w
    rw [(C122_base t ht o.toBase).2 ⟨h.toDescribesBase, w.toValidBase⟩] at hb
    cases hb

/-- What `check()` of the line-search options promises. -/
structure ValidSearch (o : LineSearch.Opt F) : Prop where
  c1 : le (lit 0) o.c1 = true
  c2 : le o.c1 o.c2 = true
  maxStep : le (lit 0) o.maxStep = true
  minStep : le (lit 0) o.minStep = true
  xtol : le (lit 0) o.xtol = true
  initStep : lt (lit 0) o.initStep = true
  nWolfe1 : 0 < o.nWolfe1
  nWolfe2 : 0 < o.nWolfe2
  nZoom : 0 < o.nZoom

/-- The line-search options a tree describes. -/
structure DescribesSearch (t : Tree F) (o : LineSearch.Opt F) : Prop where
  c1 : Says (t.dbl "c1WolfeCondition") (lit (1 / 10000)) o.c1
  c2 : Says (t.dbl "c2WolfeCondition") (lit (9 / 10)) o.c2
  maxStep : Says (t.dbl "maxStepLength") (lit 50) o.maxStep
  minStep : Says (t.dbl "minStepLength") (lit (1 / 10 ^ 8)) o.minStep
  xtol : Says (t.dbl "xtol") (lit (1 / 10 ^ 14)) o.xtol
  initStep : Says (t.dbl "initialStepLength") (lit 1) o.initStep
  nWolfe1 : SaysN (t.int "nMaxIterWolfe1") 30 o.nWolfe1
  nWolfe2 : SaysN (t.int "nMaxIterWolfe2") 10 o.nWolfe2
  nZoom : SaysN (t.int "nMaxIterZoom") 10 o.nZoom

/-- The counts of the line-search options. -/
def searchCounts : List String := ["nMaxIterWolfe1", "nMaxIterWolfe2", "nMaxIterZoom"]

theorem validSearch_iff (o : LineSearch.Opt F) : o.check = true ↔ ValidSearch o := by
  unfold LineSearch.Opt.check
  simp only [Bool.and_eq_true, decide_eq_true_eq]
  exact ⟨fun ⟨⟨⟨⟨⟨⟨⟨⟨a, b⟩, c⟩, d⟩, e⟩, f⟩, g⟩, h⟩, i⟩ => ⟨a, b, c, d, e, f, g, h, i⟩, fun ⟨a, b, c, d, e, f, g, h, i⟩ => ⟨⟨⟨⟨⟨⟨⟨⟨a, b⟩, c⟩, d⟩, e⟩, f⟩, g⟩, h⟩, i⟩⟩

theorem search_ofTree (t : Tree F) (ht : Counts t searchCounts) (o : LineSearch.Opt F) : lineSearchOfTree t = .ok o ↔ DescribesSearch t o ∧ ValidSearch o := by
  have key : ∀ x : LineSearch.Opt F, x = o → (x.check = true ↔ ValidSearch o) := fun x h => h ▸ validSearch_iff o
  unfold lineSearchOfTree
  dsimp only
  have e : ∀ (x : LineSearch.Opt F), ((if x.check then Res.ok x else .exc) = Res.ok o) ↔ (x = o ∧ ValidSearch o) := by
    intro x
    split
    · next h => exact ⟨fun hx => ⟨by injection hx, (key x (by injection hx)).1 h⟩, fun hx => by rw [hx.1]⟩
    · next h => exact ⟨fun hx => (by cases hx), fun hx => absurd ((key x hx.1).2 hx.2) h⟩
  rw [e]
  refine and_congr_left fun _ => ?_
  obtain ⟨a, b, c, d, f, g, i, j, k⟩ := o
  simp only [LineSearch.Opt.mk.injEq, Tree.getDouble, getD_says]
  rw [getCount_says ht (by simp [searchCounts]) (by norm_num), getCount_says ht (by simp [searchCounts]) (by norm_num), getCount_says ht (by simp [searchCounts]) (by norm_num)]
  exact ⟨fun ⟨h1, h2, h3, h4, h5, h6, h7, h8, h9⟩ => ⟨h1, h2, h3, h4, h5, h6, h7, h8, h9⟩, fun ⟨h1, h2, h3, h4, h5, h6, h7, h8, h9⟩ => ⟨h1, h2, h3, h4, h5, h6, h7, h8, h9⟩⟩

/-- C122: the same for BFGS; the options of its line search are in the subtree `linesearch`. -/
theorem C122_bfgs (t : Tree F) (ht : Counts t baseCounts) (hs : Counts t (searchCounts.map ("linesearch/" ++ ·))) (o : BfgsOptions F) :
    BfgsOptions.ofTree t = .ok o ↔ DescribesBase t o.toBase ∧ DescribesSearch (t.sub "linesearch") o.linesearch ∧
      Says (t.bool "useDenseJacobianContainer") true o.useDenseJacobianContainer ∧ ValidBase o.toBase ∧ ValidSearch o.linesearch := by
  have hs' : Counts (t.sub "linesearch") searchCounts := fun k hk i hi => hs ("linesearch/" ++ k) (List.mem_map.2 ⟨k, hk, rfl⟩) i hi
  unfold BfgsOptions.ofTree
  obtain ⟨ob, ol, od⟩ := o
  constructor
  · intro h
    rcases hb : Base.ofTree t with b | _ | _
    · rw [hb] at h
      rcases hl : lineSearchOfTree (t.sub "linesearch") with l | _ | _
      · rw [hl] at h
        simp only [Res.bind_ok] at h
        split at h
        · injection h with h
          simp only [BfgsOptions.mk.injEq, Tree.getBool, getD_says] at h
          obtain ⟨rfl, rfl, h3⟩ := h
          obtain ⟨h4, h5⟩ := (C122_base t ht b).1 hb
          obtain ⟨h6, h7⟩ := (search_ofTree _ hs' l).1 hl
          exact ⟨h4, h6, h3, h5, h7⟩
        · cases h
      · rw [hl] at h; cases h
      · rw [hl] at h; cases h
    · rw [hb] at h; cases h
    · rw [hb] at h; cases h
  · rintro ⟨h1, h2, h3, h4, h5⟩
    simp only at h1 h2 h3 h4 h5
    rw [(C122_base t ht ob).2 ⟨h1, h4⟩, (search_ofTree _ hs' ol).2 ⟨h2, h5⟩]
    simp only [Res.bind_ok, Tree.getBool, (getD_says _ _ _).2 h3, (validSearch_iff ol).2 h5, if_true]

/-- What `check()` of the options of the hybrid sampler promises. -/
structure ValidHmc (o : HmcOptions F) : Prop where
  lo : lt (lit 0) o.minLeapFrogStepSize = true
  init_pos : lt (lit 0) o.initialLeapFrogStepSize = true
  hi_pos : lt (lit 0) o.maxLeapFrogStepSize = true
  lo_init : le o.minLeapFrogStepSize o.initialLeapFrogStepSize = true
  init_hi : le o.initialLeapFrogStepSize o.maxLeapFrogStepSize = true
  lo_hi : le o.minLeapFrogStepSize o.maxLeapFrogStepSize = true
  inc : le (lit 1) o.incFactorLeapFrogStepSize = true
  dec_pos : lt (lit 0) o.decFactorLeapFrogStepSize = true
  dec : le o.decFactorLeapFrogStepSize (lit 1) = true
  rate_nonneg : le (lit 0) o.targetAcceptanceRate = true
  rate : le o.targetAcceptanceRate (lit 1) = true

/-- The options of the hybrid sampler a tree describes; the standard deviation of the momentum is not configurable. -/
structure DescribesHmc (trunc : F → Option Nat) (t : Tree F) (o : HmcOptions F) : Prop where
  init : Says (t.dbl "initialLeapFrogStepSize") (lit (1 / 10)) o.initialLeapFrogStepSize
  lo : Says (t.dbl "minLeapFrogStepSize") (lit (1 / 1000)) o.minLeapFrogStepSize
  hi : Says (t.dbl "maxLeapFrogStepSize") (lit (1 / 2)) o.maxLeapFrogStepSize
  inc : Says (t.dbl "incFactorLeapFrogStepSize") (lit (102 / 100)) o.incFactorLeapFrogStepSize
  dec : Says (t.dbl "decFactorLeapFrogStepSize") (lit (98 / 100)) o.decFactorLeapFrogStepSize
  rate : Says (t.dbl "targetAcceptanceRate") (lit (9 / 10)) o.targetAcceptanceRate
  momentum : o.standardDeviationMomentum = lit 1
  steps : SaysN (t.int "nLeapFrogSteps") 20 o.nLeapFrogSteps
  threads : (∃ x, t.dbl "nThreads" = some x ∧ trunc x = some o.nThreads) ∨ (t.dbl "nThreads" = none ∧ o.nThreads = 2)

theorem validHmc_iff (o : HmcOptions F) : o.check = true ↔ ValidHmc o := by
  unfold HmcOptions.check
  simp only [Bool.and_eq_true]
  exact ⟨fun ⟨⟨⟨⟨⟨⟨⟨⟨⟨⟨a, b⟩, c⟩, d⟩, e⟩, f⟩, g⟩, h⟩, i⟩, j⟩, k⟩ => ⟨d, a, e, b, c, f, g, h, i, j, k⟩,
    fun ⟨d, a, e, b, c, f, g, h, i, j, k⟩ => ⟨⟨⟨⟨⟨⟨⟨⟨⟨⟨a, b⟩, c⟩, d⟩, e⟩, f⟩, g⟩, h⟩, i⟩, j⟩, k⟩⟩

/-- C122: the same for the hybrid Monte-Carlo sampler. -/
theorem C122_hmc (trunc : F → Option Nat) (h2 : trunc (lit 2) = some 2) (t : Tree F) (ht : Counts t ["nLeapFrogSteps"]) (o : HmcOptions F) :
    HmcOptions.ofTree trunc t = .ok o ↔ DescribesHmc trunc t o ∧ ValidHmc o := by
  have key : ∀ x : HmcOptions F, x = o → (x.check = true ↔ ValidHmc o) := fun x h => h ▸ validHmc_iff o
  have e : ∀ (x : HmcOptions F), ((if x.check then Res.ok x else .exc) = Res.ok o) ↔ (x = o ∧ ValidHmc o) := by
    intro x
    split
    · next h => exact ⟨fun hx => ⟨by injection hx, (key x (by injection hx)).1 h⟩, fun hx => by rw [hx.1]⟩
    · next h => exact ⟨fun hx => (by cases hx), fun hx => absurd ((key x hx.1).2 hx.2) h⟩
  have thr : ∀ n, ((∃ x, t.dbl "nThreads" = some x ∧ trunc x = some n) ∨ (t.dbl "nThreads" = none ∧ n = 2)) ↔ trunc (t.getDouble "nThreads" (lit 2)) = some n := by
    intro n
    unfold Tree.getDouble
    cases t.dbl "nThreads" with
    | none => simp [h2, eq_comm]
    | some x => simp
  unfold HmcOptions.ofTree
  split
  · next hn =>
    constructor
    · intro h; cases h
    · rintro ⟨h, -⟩
      have := (thr _).1 h.threads
      rw [hn] at this; cases this
  · next n hn =>
    dsimp only
    rw [e]
    refine and_congr_left fun _ => ?_
    obtain ⟨a, b, c, d, f, g, i, j, k⟩ := o
    simp only [HmcOptions.mk.injEq, Tree.getDouble, getD_says]
    rw [getCount_says ht (by simp) (by norm_num)]
    constructor
    · rintro ⟨h1, h2, h3, h4, h5, h6, h7, h8, rfl⟩
      exact ⟨h1, h2, h3, h4, h5, h6, h7.symm, h8, (thr _).2 hn⟩
    · rintro ⟨h1, h2, h3, h4, h5, h6, h7, h8, h9⟩
      have := (thr _).1 h9
      rw [hn] at this
      injection this with this
      exact ⟨h1, h2, h3, h4, h5, h6, h7.symm, h8, this⟩

/-- C122: sparse QR solver and Levenberg-Marquardt policy: every option comes from the key of its name. -/
theorem C122_unchecked (tol : F) (t : Tree F) (q : QrOptions F) (l : LmOptions F) :
    (QrOptions.ofTree tol t = q ↔ Says (t.bool "colNorm") false q.colNorm ∧ Says (t.dbl "qrTol") tol q.qrTol ∧ Says (t.dbl "normTol") (lit (1 / 10 ^ 8)) q.normTol ∧
      Says (t.bool "verbose") false q.verbose) ∧
    (LmOptions.ofTree t = l ↔ Says (t.dbl "lambdaInit") (lit (1 / 1000)) l.lambdaInit ∧ Says (t.dbl "gammaInit") (lit 3) l.gammaInit ∧ Says (t.dbl "betaInit") (lit 2) l.betaInit ∧
      Says (t.int "pInit") 3 l.pInit ∧ Says (t.dbl "muInit") (lit 2) l.muInit) := by
  obtain ⟨a, b, c, d⟩ := q
  obtain ⟨f, g, h, i, j⟩ := l
  simp only [QrOptions.ofTree, LmOptions.ofTree, QrOptions.mk.injEq, LmOptions.mk.injEq, Tree.getDouble, Tree.getBool, Tree.getInt, getD_says]
  exact ⟨trivial, trivial⟩

omit [FloatLike F] in
/-- Names of solvers: the documented names select the documented solver, every other name Cholesky. -/
theorem C122_solver_names (name : String) (t : Tree F) :
    (legacySolver name = .dense ↔ name = "dense") ∧ (legacySolver name = .qr ↔ name = "spqr") ∧
    (blockSolverOfTree t = .qr ↔ t.str "solverType" = some "spqr") ∧ blockSolverOfTree t ≠ .dense := by
  unfold legacySolver blockSolverOfTree Tree.getString
  refine ⟨?_, ?_, ?_, ?_⟩
  · split_ifs with h1 h2 h3 <;> simp_all
  · split_ifs with h1 h2 h3 <;> simp_all
  · cases t.str "solverType" with
    | none => simp
    | some s => simp only [Option.getD_some, Option.some.injEq]; split_ifs with h1 h2 <;> simp_all
  · split_ifs <;> simp

/-! ### What the other properties assume about options -/

section exact
variable {K : Type} [LinearOrder K] [Field K] [Sq K]

theorem lit_zero : (lit 0 : K) = 0 := by
  show ((0 : ℚ).num : K) / ((0 : ℚ).den : K) = 0
  simp

theorem lit_one : (lit 1 : K) = 1 := by
  show ((1 : ℚ).num : K) / ((1 : ℚ).den : K) = 1
  simp

/-- The options in the form the model of Rprop uses. -/
def RpropOptions.toModel (o : RpropOptions K) : Rprop.Opt K :=
  ⟨o.etaMinus, o.etaPlus, o.initialDelta, o.minDelta, o.maxDelta, o.method, o.convergenceGradientNorm, o.convergenceDeltaX, o.convergenceDeltaError, o.maxIterations⟩

/-- C122: an optimizer built from a configuration meets the conditions of the properties of Rprop (C34): the checks accepted its options. What is left to the user is that the initial step is
between the bounds and that the factors shrink and grow. -/
theorem C122_rprop_ready (t : Tree K) (ht : Counts t baseCounts) (o : RpropOptions K) (h : RpropOptions.ofTree t = .ok o) :
    o.toModel.check = true ∧ Optimizer2.Options.check o.convergenceGradientNorm o.convergenceDeltaX o.convergenceDeltaError o.maxIterations = true ∧
    (o.minDelta ≤ o.initialDelta → o.initialDelta ≤ o.maxDelta → o.etaMinus ≤ 1 → 1 ≤ o.etaPlus → Rprop.Sane o.toModel) := by
  obtain ⟨hd, hv⟩ := (C122_rprop t ht o).1 h
  have z : (lit 0 : K) = 0 := lit_zero
  have L : ∀ {a b : K}, FloatLike.lt a b = true → a < b := fun h => of_decide_eq_true h
  have E : ∀ {a b : K}, FloatLike.le a b = true → a ≤ b := fun h => of_decide_eq_true h
  have a1 := L hv.etaMinus; have a2 := L hv.etaPlus; have a3 := L hv.initialDelta; have a4 := L hv.minDelta; have a5 := L hv.maxDelta
  have b1 := E hv.gradientNorm; have b2 := E hv.deltaX; have b3 := E hv.deltaError
  rw [z] at a1 a3 a4 b1 b2 b3
  have c1 : o.toModel.check = true := by
    simp only [Rprop.Opt.check, RpropOptions.toModel, Bool.and_eq_true]
    exact ⟨⟨⟨⟨decide_eq_true a1, decide_eq_true a2⟩, decide_eq_true a3⟩, decide_eq_true a4⟩, decide_eq_true a5⟩
  refine ⟨c1, ?_, fun h1 h2 h3 h4 => ?_⟩
  · simp only [Optimizer2.Options.check, Bool.and_eq_true, Bool.or_eq_true, decide_eq_true_eq]
    refine ⟨⟨⟨⟨b1, b2⟩, b3⟩, ?_⟩, ?_⟩
    · rcases hv.some_criterion with h | h | h <;> have := L h <;> rw [z] at this
      · exact .inl (.inr this)
      · exact .inl (.inl this)
      · exact .inr this
    · have := hv.iterations; omega
  · exact ⟨c1, h3, h4, h1, h2⟩

end exact

/-- C122: a value that is not a number is refused for every option that is checked. -/
theorem C122_nan {K : Type} [LinearOrder K] [Field K] [Sq K] (t : Tree (Dbl K)) (ht : Counts t baseCounts) (k : String)
    (hk : k ∈ ["convergenceGradientNorm", "convergenceDeltaX", "convergenceDeltaError", "etaMinus", "etaPlus", "initialDelta", "minDelta", "maxDelta"]) (hn : t.dbl k = some .nan) :
    RpropOptions.ofTree t = .exc := by
  have tot : (∃ o, RpropOptions.ofTree t = .ok o) ∨ RpropOptions.ofTree t = .exc := by
    unfold RpropOptions.ofTree
    rcases C122_base_total t with ⟨b, hb⟩ | hb
    · rw [hb]
      simp only [Res.bind_ok]
      split
      · exact .inl ⟨_, rfl⟩
      · exact .inr rfl
    · rw [hb]; exact .inr rfl
  rcases tot with ⟨o, ho⟩ | h
  · exfalso
    obtain ⟨hd, hv⟩ := (C122_rprop t ht o).1 ho
    have nl : ∀ a : Dbl K, FloatLike.lt a (.nan : Dbl K) = false := Dbl.lt_nan_right
    have nl' : ∀ a : Dbl K, FloatLike.lt (.nan : Dbl K) a = false := Dbl.lt_nan_left
    have nr : ∀ a : Dbl K, FloatLike.le a (.nan : Dbl K) = false := Dbl.le_nan_right
    have g : ∀ {d x : Dbl K}, Says (t.dbl k) d x → x = .nan := by
      intro d x h
      rcases h with h | ⟨h, -⟩
      · rw [hn] at h; injection h with h; exact h.symm
      · rw [hn] at h; cases h
    simp only [List.mem_cons, List.not_mem_nil, or_false] at hk
    rcases hk with rfl | rfl | rfl | rfl | rfl | rfl | rfl | rfl
    · have := hv.gradientNorm; rw [g hd.gradientNorm, nr] at this; cases this
    · have := hv.deltaX; rw [g hd.deltaX, nr] at this; cases this
    · have := hv.deltaError; rw [g hd.deltaError, nr] at this; cases this
    · have := hv.etaMinus; rw [g hd.etaMinus, nl] at this; cases this
    · have := hv.etaPlus; rw [g hd.etaPlus, nl] at this; cases this
    · have := hv.initialDelta; rw [g hd.initialDelta, nl] at this; cases this
    · have := hv.minDelta; rw [g hd.minDelta, nl] at this; cases this
    · have := hv.maxDelta; rw [g hd.maxDelta, nl] at this; cases this
  · exact h

/-! ### Deprecated keys -/

/-- What the user expects of a deprecated key: either name is honoured, and using both is refused. -/
def Expected {α : Type} (dep v : Option α) (dflt : α) (r : Res α) : Prop :=
  match dep, v with
  | none, none => r = .ok dflt
  | some x, none => r = .ok x
  | none, some y => r = .ok y
  | some _, some _ => r = .exc

/-- C122 (deprecated keys). Missing: both keys with one of them equal to the default, see the counterexample. -/
theorem C122_deprecated_partial {α : Type} (ne : α → α → Bool) (dflt : α) (hne : ∀ a, ne a dflt = false ↔ a = dflt) (dep v : Option α)
    (h : dep.isSome → v.isSome → dep ≠ some dflt ∧ v ≠ some dflt) : Expected dep v dflt (deprecated ne dep v dflt) := by
  have hd : ne dflt dflt = false := (hne dflt).2 rfl
  have hn : ∀ a, a ≠ dflt → ne a dflt = true := by
    intro a ha
    cases hx : ne a dflt with
    | true => rfl
    | false => exact absurd ((hne a).1 hx) ha
  unfold Expected deprecated
  rcases dep with _ | x <;> rcases v with _ | y <;> simp only [Option.getD_none, Option.getD_some, hd]
  · simp
  · simp
  · by_cases hx : x = dflt
    · subst hx; simp [hd]
    · simp [hn x hx]
  · obtain ⟨h1, h2⟩ := h rfl rfl
    simp only [ne_eq, Option.some.injEq] at h1 h2
    simp [hn x h1, hn y h2]

/-- Both keys are used and nothing is thrown: a deprecated key that repeats the default is ignored, and a new key that repeats the default is overridden by the deprecated one. -/
theorem C122_deprecated_counterexample :
    (¬ Expected (some 4) (some 7) (4 : Int) (deprecated (fun a b => a != b) (some 4) (some 7) 4) ∧ deprecated (fun a b => a != b) (some 4) (some 7) (4 : Int) = .ok 7) ∧
    (¬ Expected (some 7) (some 4) (4 : Int) (deprecated (fun a b => a != b) (some 7) (some 4) 4) ∧ deprecated (fun a b => a != b) (some 7) (some 4) (4 : Int) = .ok 7) := by
  refine ⟨⟨?_, rfl⟩, ⟨?_, rfl⟩⟩ <;> (intro h; cases h)

/-! ### Optimizer2 -/

/-- The options of `Optimizer2` a tree without deprecated keys describes. -/
structure Describes2 (t : Tree F) (o : Options2 F) : Prop where
  gradientNorm : o.convergenceGradientNorm = lit (1 / 1000)
  deltaX : Says (t.dbl "convergenceDeltaX") (lit (1 / 1000)) o.convergenceDeltaX
  deltaError : Says (t.dbl "convergenceDeltaError") (lit (1 / 1000)) o.convergenceDeltaError
  iterations : Says (t.int "maxIterations") 20 o.maxIterations
  threadsJacobian : SaysN (t.int "numThreadsJacobian") 4 o.numThreadsJacobian
  threadsError : SaysN (t.int "numThreadsError") 1 o.numThreadsError
  schur : Says (t.bool "doSchurComplement") false o.doSchurComplement
  verbose : Says (t.bool "verbose") false o.verbose
  fails : Says (t.int "linearSolverMaximumFails") 0 o.linearSolverMaximumFails

/-- C122 (Optimizer2): the options are the described ones. Missing: `convergenceGradientNorm` cannot be configured, and nothing is checked, see the counterexamples. -/
theorem C122_optimizer2_partial (heq : FloatLike.eq (lit (1 / 1000) : F) (lit (1 / 1000)) = true) (t : Tree F) (ht : Counts t baseCounts) (h1 : t.dbl "convergenceDeltaJ" = none)
    (h2 : t.int "nThreads" = none) (o : Options2 F) : Options2.ofTree t = .ok o ↔ Describes2 t o := by
  unfold Options2.ofTree deprecated
  rw [h1, h2]
  simp only [Option.getD_none, Options2.dflt, heq, Bool.not_true, Bool.false_eq_true, if_false, Res.bind_ok, Base.dflt, bne_self_eq_false]
  obtain ⟨⟨a, b, c, d, e, f⟩, g, h, i⟩ := o
  have hc := getCount_says ht (k := "numThreadsJacobian") (by simp [baseCounts]) (d := 4) (by norm_num) e
  unfold Tree.getCount Tree.getInt at hc
  simp only [Res.ok.injEq, Options2.mk.injEq, Base.mk.injEq, Tree.getDouble, Tree.getInt, Tree.getBool, getD_says]
  rw [getCount_says ht (by simp [baseCounts]) (by norm_num)]
  constructor
  · rintro ⟨⟨r1, r2, r3, r4, r5, r6⟩, r7, r8, r9⟩
    exact ⟨r1.symm, r2, r3, r4, hc.1 r5, r6, r7, r8, r9⟩
  · rintro ⟨r1, r2, r3, r4, r5, r6, r7, r8, r9⟩
    exact ⟨⟨r1.symm, r2, r3, r4, hc.2 r5, r6⟩, r7, r8, r9⟩

/-! ### Concrete configurations -/

/-- No square root is needed here. -/
local instance : Sq ℚ := ⟨id⟩

/-- A tree with one value of each kind. -/
def one (kd : String) (d : ℚ) (ki : String) (i : Int) : Tree ℚ := ⟨fun k => if k = kd then some d else none, fun k => if k = ki then some i else none, fun _ => none, fun _ => none⟩

theorem of_run {α : Type} {r : Res α} {P : α → Prop} [DecidablePred P] (h : (match r with | .ok a => decide (P a) | _ => false) = true) : ∃ o, r = .ok o ∧ P o := by
  cases r with
  | ok a => exact ⟨a, rfl, of_decide_eq_true h⟩
  | exc => cases h
  | ub => cases h

/-- Conversion of a rational number to `std::size_t`. -/
def truncQ (x : ℚ) : Option Nat := if x ≤ -1 ∨ 2 ^ 64 ≤ x then none else some (x.num / x.den).toNat

example : Counts (one "maxDelta" 3 "numThreadsError" 7) baseCounts ∧ ∃ o, RpropOptions.ofTree (one "maxDelta" 3 "numThreadsError" 7) = .ok o ∧ o.maxDelta = 3 ∧ o.numThreadsError = 7 ∧
    o.minDelta ≤ o.initialDelta ∧ o.initialDelta ≤ o.maxDelta ∧ o.etaMinus ≤ 1 ∧ 1 ≤ o.etaPlus := by
  refine ⟨?_, of_run (by decide +kernel)⟩
  · intro k hk i hi
    simp only [one] at hi
    split at hi
    · injection hi with hi; subst hi; norm_num
    · cases hi

example : ∃ o, BfgsOptions.ofTree (one "linesearch/c2WolfeCondition" (1 / 2) "linesearch/nMaxIterZoom" 3) = .ok o ∧ o.linesearch.c2 = 1 / 2 ∧ o.linesearch.nZoom = 3 := of_run (by decide +kernel)

example : truncQ (lit 2) = some 2 ∧ ∃ o, HmcOptions.ofTree truncQ (one "nThreads" (7 / 2) "nLeapFrogSteps" 5) = .ok o ∧ o.nThreads = 3 ∧ o.nLeapFrogSteps = 5 :=
  ⟨by decide +kernel, of_run (by decide +kernel)⟩

example : FloatLike.eq (lit (1 / 1000) : ℚ) (lit (1 / 1000)) = true ∧ ∃ o, Options2.ofTree (one "convergenceDeltaX" 5 "maxIterations" 3) = .ok o ∧ o.convergenceDeltaX = 5 ∧ o.maxIterations = 3 :=
  ⟨by decide +kernel, of_run (by decide +kernel)⟩

/-- A negative number of iterations is not refused, although the check asks for a positive one: it becomes a huge count. -/
theorem C122_negative_count_counterexample :
    ∃ o, lineSearchOfTree (one "xtol" 0 "nMaxIterZoom" (-1)) = .ok o ∧ o.nZoom = 2 ^ 64 - 1 := of_run (by decide +kernel)

/-- Reading a negative number of threads for the hybrid sampler is undefined behaviour. -/
theorem C122_threads_counterexample : HmcOptions.ofTree truncQ (one "nThreads" (-1) "" 0) = .ub := by decide +kernel

/-- The Metropolis-Hastings sampler accepts a standard deviation its own check refuses. -/
theorem C122_metropolis_counterexample :
    ∃ o, MhOptions.ofTree truncQ (one "transitionKernelSigma" (-1) "" 0) = .ok o ∧ o.check = false := of_run (by decide +kernel)

/-- Optimizer2 accepts options its check refuses, and ignores the key of one of its options. -/
theorem C122_optimizer2_counterexample :
    (∃ o, Options2.ofTree (one "convergenceDeltaX" (-1) "maxIterations" (-5)) = .ok o ∧ o.toBase.check = false ∧ o.maxIterations = -5) ∧
    (∃ o, Options2.ofTree (one "convergenceGradientNorm" 7 "" 0) = .ok o ∧ o.convergenceGradientNorm ≠ 7) := ⟨of_run (by decide +kernel), of_run (by decide +kernel)⟩

/-- The options of a line search may have an empty range of step lengths. -/
theorem C122_empty_range_counterexample :
    ∃ o, lineSearchOfTree (one "maxStepLength" 0 "" 0) = .ok o ∧ o.maxStep < o.minStep := of_run (by decide +kernel)

end Verif.Config
