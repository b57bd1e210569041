import Verif.Sampler.Hybrid
import Mathlib.Algebra.Group.End
import Mathlib.MeasureTheory.Measure.Lebesgue.Basic
import Mathlib.MeasureTheory.Constructions.Pi
import Mathlib.Analysis.SpecialFunctions.Exp
import Mathlib.Analysis.Complex.ExponentialBounds

/-!
C79: the trajectories of the hybrid sampler are reversible and preserve the volume, and the acceptance probability then balances the two directions.
-/
namespace Verif.Sampler
open FloatLike

section rev
variable {K : Type} [LinearOrder K] [Field K] [IsStrictOrderedRing K] {V : Type} [AddCommGroup V] [Module K V]

/-- A problem with additive design variables, a gradient that can always be evaluated and updates that are always finite. Everything else is arbitrary. -/
def smooth (gr : V → V) (dens : V → Option (Dbl K)) (kin : V → Dbl K) : HProb K V V V :=
  ⟨id, (· + ·), fun _ p => p, dens, fun x => some (gr x), kin, fun _ => true⟩

/-- A step of the momentum. -/
def kick (gr : V → V) (c : K) : Equiv.Perm (V × V) where
  toFun z := (z.1, z.2 - c • gr z.1)
  invFun z := (z.1, z.2 + c • gr z.1)
  left_inv z := by simp
  right_inv z := by simp

/-- A step of the position. -/
def drift (c : K) : Equiv.Perm (V × V) where
  toFun z := (z.1 + c • z.2, z.2)
  invFun z := (z.1 - c • z.2, z.2)
  left_inv z := by simp
  right_inv z := by simp

/-- Reversal of the momentum. -/
def flip : Equiv.Perm (V × V) where
  toFun z := (z.1, -z.2)
  invFun z := (z.1, -z.2)
  left_inv z := by simp
  right_inv z := by simp

theorem flip_kick (gr : V → V) (c : K) : flip * kick gr c * flip = (kick gr c)⁻¹ := by
  ext z : 1
  show (z.1, -(-z.2 - c • gr z.1)) = (z.1, z.2 + c • gr z.1)
  simp [add_comm]

theorem flip_drift (c : K) : (flip * drift c * flip : Equiv.Perm (V × V)) = (drift c)⁻¹ := by
  ext z : 1
  show (z.1 + c • -z.2, - -z.2) = (z.1 - c • z.2, z.2)
  simp [sub_eq_add_neg]

theorem flip_flip : (flip * flip : Equiv.Perm (V × V)) = 1 := by
  ext z : 1
  show (z.1, - -z.2) = z
  simp

/-- The whole trajectory as a permutation of the phase space. -/
def leap (gr : V → V) (n : Nat) (eps half : K) : Equiv.Perm (V × V) :=
  kick gr half * (drift eps * kick gr eps) ^ passes n * drift eps * kick gr half

theorem full_leap (gr : V → V) (dens : V → Option (Dbl K)) (kin : V → Dbl K) (eps : K) :
    ∀ (m : Nat) (t : Tr V V), (full (smooth gr dens kin) eps m t).diverged = t.diverged ∧
      ((full (smooth gr dens kin) eps m t).x, (full (smooth gr dens kin) eps m t).p) = ((drift eps * kick gr eps) ^ m : Equiv.Perm (V × V)) (t.x, t.p) := by
  intro m
  induction m with
  | zero => intro t; exact ⟨rfl, rfl⟩
  | succ m ih =>
    intro t
    have := ih { t with x := t.x + eps • (t.p - eps • gr t.x), p := t.p - eps • gr t.x, g := gr t.x }
    refine ⟨this.1, this.2.trans ?_⟩
    rw [pow_succ]
    rfl

theorem trajectory_leap (gr : V → V) (dens : V → Option (Dbl K)) (kin : V → Dbl K) (n : Nat) (eps half : K) (x p : V) :
    let t := trajectory (smooth gr dens kin) n eps half x p (gr x)
    t.diverged = false ∧ (t.x, t.p) = leap gr n eps half (x, p) := by
  intro t
  have h := full_leap gr dens kin eps (passes n) (first (smooth gr dens kin) eps half x p (gr x))
  have hd : (full (smooth gr dens kin) eps (passes n) (first (smooth gr dens kin) eps half x p (gr x))).diverged = false := h.1
  have ht : t = lastHalf (smooth gr dens kin) half (full (smooth gr dens kin) eps (passes n) (first (smooth gr dens kin) eps half x p (gr x))) := rfl
  rw [ht]
  have hl : leap gr n eps half (x, p) = kick gr half (((drift eps * kick gr eps) ^ passes n : Equiv.Perm (V × V)) (x + eps • (p - half • gr x), p - half • gr x)) := rfl
  have h2 : ((drift eps * kick gr eps) ^ passes n : Equiv.Perm (V × V)) (x + eps • (p - half • gr x), p - half • gr x) =
    ((full (smooth gr dens kin) eps (passes n) (first (smooth gr dens kin) eps half x p (gr x))).x,
     (full (smooth gr dens kin) eps (passes n) (first (smooth gr dens kin) eps half x p (gr x))).p) := h.2.symm
  rw [hl, h2]
  generalize full (smooth gr dens kin) eps (passes n) (first (smooth gr dens kin) eps half x p (gr x)) = u at hd ⊢
  obtain ⟨ux, up, ug, ud⟩ := u
  dsimp only at hd
  subst hd
  exact ⟨rfl, rfl⟩

theorem leap_reverse (gr : V → V) (n : Nat) (eps half : K) : flip * leap gr n eps half * flip = (leap gr n eps half)⁻¹ := by
  have c : ∀ a b : Equiv.Perm (V × V), flip * (a * b) * flip = (flip * a * flip) * (flip * b * flip) := by
    intro a b
    calc flip * (a * b) * flip = flip * a * 1 * b * flip := by simp only [mul_assoc, mul_one]
      _ = flip * a * (flip * flip) * b * flip := by rw [flip_flip]
      _ = _ := by simp only [mul_assoc]
  have cp : ∀ (a : Equiv.Perm (V × V)) (m : Nat), flip * a ^ m * flip = (flip * a * flip) ^ m := by
    intro a m
    induction m with
    | zero => simp [flip_flip]
    | succ m ih => rw [pow_succ, c, ih, pow_succ]
  unfold leap
  rw [c, c, c, cp, c, flip_kick, flip_kick, flip_drift]
  simp only [mul_inv_rev, ← inv_pow]
  have := mul_pow_mul (drift eps : Equiv.Perm (V × V))⁻¹ (kick gr eps)⁻¹ (passes n)
  rw [mul_assoc (kick gr half)⁻¹, this]
  simp only [mul_assoc]

/-- **C79, reversibility.** For every gradient (it need not be the gradient of the density), every number of steps, step length and half step: start a trajectory anywhere, reverse the momentum it
ends with and start another one from there; this ends where the first began, with the reversed momentum. Trajectories never diverge if the gradient can be evaluated and updates are finite. -/
theorem C79_reversible (gr : V → V) (dens : V → Option (Dbl K)) (kin : V → Dbl K) (n : Nat) (eps half : K) (x p : V) :
    let Q := smooth gr dens kin
    let t := trajectory Q n eps half x p (gr x)
    let b := trajectory Q n eps half t.x (-t.p) t.g
    t.diverged = false ∧ b.diverged = false ∧ b.x = x ∧ b.p = -p ∧ t.g = gr t.x := by
  intro Q t b
  obtain ⟨h1, h2⟩ := trajectory_leap gr dens kin n eps half x p
  have hg : t.g = gr t.x := by
    have := lastHalf_g (Q := Q) (half := half) h1
    exact (Option.some.inj this).symm
  have hb : b = trajectory Q n eps half t.x (-t.p) (gr t.x) := by rw [← hg]
  obtain ⟨h3, h4⟩ := trajectory_leap gr dens kin n eps half t.x (-t.p)
  have h5 : leap gr n eps half (t.x, -t.p) = (x, -p) := by
    have h6 : (t.x, -t.p) = flip (leap gr n eps half (x, p)) := by rw [← h2]; rfl
    have h7 : flip (leap gr n eps half (flip (x, -p))) = (leap gr n eps half)⁻¹ (x, -p) := by
      rw [← leap_reverse]; rfl
    have h8 : flip (x, -p) = (x, p) := by
      show (x, - -p) = (x, p)
      simp
    rw [h6, ← h8, h7]
    simp
  rw [h5, ← hb] at h4
  exact ⟨h1, by rw [hb]; exact h3, (Prod.mk.inj h4).1, (Prod.mk.inj h4).2, hg⟩

theorem pow_const (g : V) (eps : K) (m : Nat) (x p : V) :
    ((drift eps * kick (fun _ => g) eps) ^ m : Equiv.Perm (V × V)) (x, p) =
      (x + ((m : K) * eps) • p - ((m : K) * ((m : K) + 1) / 2 * (eps * eps)) • g, p - ((m : K) * eps) • g) := by
  induction m with
  | zero => simp
  | succ m ih =>
    rw [pow_succ', Equiv.Perm.mul_apply, ih]
    show (x + ((m : K) * eps) • p - ((m : K) * ((m : K) + 1) / 2 * (eps * eps)) • g + eps • (p - ((m : K) * eps) • g - eps • g),
      p - ((m : K) * eps) • g - eps • g) = _
    push_cast
    have h2 : (2 : K) ≠ 0 := two_ne_zero
    refine Prod.ext ?_ ?_
    · dsimp only
      have e : ((m : K) + 1) * ((m : K) + 1 + 1) / 2 * (eps * eps) =
          (m : K) * ((m : K) + 1) / 2 * (eps * eps) + (eps * ((m : K) * eps) + eps * eps) := by
        field_simp
        ring
      rw [e]
      module
    · dsimp only
      module

/-- **C79, duration.** Where the force is constant a trajectory with `half = eps / 2` is the exact motion, a parabola, over the time `N eps`. The number `N` of
steps is one less than the option `nLeapFrogSteps` asks for; a value of 1 is treated as 2, and with the value 0, which the check of the options accepts,
there are `2⁶⁴ - 1` steps. -/
theorem C79_duration (g : V) (dens : V → Option (Dbl K)) (kin : V → Dbl K) (n : Nat) (eps : K) (x p : V) :
    let t := trajectory (smooth (fun _ => g) dens kin) n eps (eps / 2) x p g
    ∃ N : Nat, t.x = x + ((N : K) * eps) • p - (((N : K) * eps) ^ 2 / 2) • g ∧ t.p = p - ((N : K) * eps) • g ∧
      (2 ≤ n → N + 1 = n) ∧ (n = 1 → N = 1) ∧ (n = 0 → N = 2 ^ 64 - 1) := by
  intro t
  obtain ⟨_, h⟩ := trajectory_leap (fun _ => g) dens kin n eps (eps / 2) x p
  have h2 : (t.x, t.p) = leap (fun _ => g) n eps (eps / 2) (x, p) := h
  have hl : leap (fun _ => g) n eps (eps / 2) (x, p) = kick (fun _ => g) (eps / 2)
      (((drift eps * kick (fun _ => g) eps) ^ passes n : Equiv.Perm (V × V)) (x + eps • (p - (eps / 2) • g), p - (eps / 2) • g)) := rfl
  rw [hl, pow_const] at h2
  have hx := congrArg Prod.fst h2
  have hp := congrArg Prod.snd h2
  have k2 : (2 : K) ≠ 0 := two_ne_zero
  refine ⟨passes n + 1, ?_, ?_, ?_, ?_, ?_⟩
  · refine hx.trans ?_
    show x + eps • (p - (eps / 2) • g) + ((passes n : K) * eps) • (p - (eps / 2) • g) - _ = _
    push_cast
    have e : (((passes n : K) + 1) * eps) ^ 2 / 2 =
        (passes n : K) * ((passes n : K) + 1) / 2 * (eps * eps) + (passes n : K) * eps * (eps / 2) + eps * (eps / 2) := by
      field_simp
      ring
    rw [e]
    module
  · refine hp.trans ?_
    show p - (eps / 2) • g - ((passes n : K) * eps) • g - (eps / 2) • g = _
    push_cast
    have e : ((passes n : K) + 1) * eps = (passes n : K) * eps + eps / 2 + eps / 2 := by
      field_simp
      ring
    rw [e]
    module
  · intro h; unfold passes; rw [if_neg (by omega)]; omega
  · rintro rfl; rfl
  · rintro rfl; rfl

/-- A ball thrown upwards at speed 3 under the gradient 2: with the option at 4 the time is 3, not 4, and it is back at the start. -/
example (dens : ℚ → Option (Dbl ℚ)) (kin : ℚ → Dbl ℚ) :
    (trajectory (smooth (fun _ => (2 : ℚ)) dens kin) 4 1 (1 / 2) 0 3 2).x = 0 := by
  obtain ⟨N, h1, _, h2, _⟩ := C79_duration (K := ℚ) 2 dens kin 4 1 (0 : ℚ) 3
  obtain rfl : N = 3 := by have := h2 (by norm_num); omega
  rw [h1]
  norm_num

end rev

section balance

/-- The kinetic energy of the code, H:161 and H:226. -/
noncomputable def kinetic {m : Nat} (p : Fin m → ℝ) : Dbl ℝ := .fin (1 / 2 * ∑ i, p i * p i)

theorem kinetic_neg {m : Nat} (p : Fin m → ℝ) : kinetic (-p) = kinetic p := by simp [kinetic]

open MeasureTheory

theorem kick_mp {m : Nat} (gr : (Fin m → ℝ) → Fin m → ℝ) (hg : Measurable gr) (c : ℝ) :
    MeasurePreserving (kick gr c) ((volume : Measure (Fin m → ℝ)).prod volume) (volume.prod volume) := by
  have h := MeasurePreserving.skew_product (μa := (volume : Measure (Fin m → ℝ))) (μb := volume) (μc := (volume : Measure (Fin m → ℝ))) (μd := volume)
    (f := id) (MeasurePreserving.id _) (g := fun x p => p - c • gr x) (by fun_prop)
    (Filter.Eventually.of_forall fun x => (measurePreserving_sub_right volume (c • gr x)).map_eq)
  exact h

theorem drift_mp {m : Nat} (c : ℝ) : MeasurePreserving (drift c) ((volume : Measure (Fin m → ℝ)).prod volume) (volume.prod volume) := by
  have h := MeasurePreserving.skew_product (μa := (volume : Measure (Fin m → ℝ))) (μb := volume) (μc := (volume : Measure (Fin m → ℝ))) (μd := volume)
    (f := id) (MeasurePreserving.id _) (g := fun p x => x + c • p) (by fun_prop)
    (Filter.Eventually.of_forall fun p => (measurePreserving_add_right volume (c • p)).map_eq)
  have hs : MeasurePreserving (Prod.swap : (Fin m → ℝ) × (Fin m → ℝ) → _) (volume.prod volume) (volume.prod volume) := Measure.measurePreserving_swap
  exact hs.comp (h.comp hs)

/-- **C79, volume.** For every measurable gradient the map from the start to the end of a trajectory preserves the volume of the phase space. -/
theorem C79_volume {m : Nat} (gr : (Fin m → ℝ) → Fin m → ℝ) (hg : Measurable gr) (dens : (Fin m → ℝ) → Option (Dbl ℝ)) (n : Nat) (eps half : ℝ) :
    MeasurePreserving (fun z : (Fin m → ℝ) × (Fin m → ℝ) =>
        let t := trajectory (smooth gr dens kinetic) n eps half z.1 z.2 (gr z.1)
        (t.x, t.p)) (volume.prod volume) (volume.prod volume) := by
  have hp : ∀ k : Nat, MeasurePreserving ((drift eps * kick gr eps) ^ k : Equiv.Perm _) ((volume : Measure (Fin m → ℝ)).prod volume) (volume.prod volume) := by
    intro k
    induction k with
    | zero => exact MeasurePreserving.id _
    | succ k ih => rw [pow_succ]; exact ih.comp ((drift_mp eps).comp (kick_mp gr hg eps))
  have h : MeasurePreserving (leap gr n eps half) ((volume : Measure (Fin m → ℝ)).prod volume) (volume.prod volume) :=
    (kick_mp gr hg half).comp ((hp _).comp ((drift_mp eps).comp (kick_mp gr hg half)))
  have he : (fun z : (Fin m → ℝ) × (Fin m → ℝ) =>
        let t := trajectory (smooth gr dens kinetic) n eps half z.1 z.2 (gr z.1)
        (t.x, t.p)) = leap gr n eps half := by
    funext z
    exact (trajectory_leap gr dens kinetic n eps half z.1 z.2).2
  rw [he]
  exact h

/-- The acceptance probability the code computes for a trajectory from `x` with momentum `p`. -/
noncomputable def hAccept {m : Nat} (gr : (Fin m → ℝ) → Fin m → ℝ) (U : (Fin m → ℝ) → ℝ) (n : Nat) (eps half : ℝ) (x p : Fin m → ℝ) : Dbl ℝ :=
  let Q := smooth gr (fun x => some (.fin (U x))) kinetic
  let t := trajectory Q n eps half x p (gr x)
  hProb Real.exp (dadd (.fin (U x)) (kinetic p)) (energies Q t).2

theorem hAccept_val {m : Nat} (gr : (Fin m → ℝ) → Fin m → ℝ) (U : (Fin m → ℝ) → ℝ) (n : Nat) (eps half : ℝ) (x p : Fin m → ℝ) :
    let t := trajectory (smooth gr (fun x => some (.fin (U x))) kinetic) n eps half x p (gr x)
    hAccept gr U n eps half x p = accProb Real.exp (.fin (U x + 1 / 2 * ∑ i, p i * p i)) (.fin (U t.x + 1 / 2 * ∑ i, t.p i * t.p i)) := by
  intro t
  obtain ⟨h1, -⟩ := trajectory_leap gr (fun x => some (Dbl.fin (U x))) kinetic n eps half x p
  have he : energies (smooth gr (fun x => some (.fin (U x))) kinetic) t = (some (.fin (U t.x)), some (.fin (U t.x + 1 / 2 * ∑ i, t.p i * t.p i))) := by
    unfold energies
    rw [show t.diverged = false from h1]
    rfl
  show hProb Real.exp _ (energies (smooth gr (fun x => some (.fin (U x))) kinetic) t).2 = _
  rw [he]
  generalize U t.x + 1 / 2 * ∑ i, t.p i * t.p i = b
  show hProb Real.exp (.fin (U x + 1 / 2 * ∑ i, p i * p i)) (some (.fin b)) = _
  generalize U x + 1 / 2 * ∑ i, p i * p i = a
  unfold hProb dmin
  show (if Dbl.lt (.fin (Real.exp (a - b))) (.fin 1) = true then _ else _) = _
  rcases lt_or_ge a b with h | h
  · rw [accProb_worse h, if_pos (by rw [Dbl.lt_fin, Real.exp_lt_one_iff]; linarith)]
    rfl
  · rw [accProb_better Real.exp_zero h, if_neg (by rw [Dbl.lt_fin, Real.exp_lt_one_iff]; linarith)]

/-- **C79, balance.** For momenta of unit variance: the weight `exp(-U(x) - p²/2)` of the start times the probability of accepting the trajectory equals the weight of its end times the probability of
accepting the reversed trajectory. With reversibility and volume preservation this is what makes `exp(-U)` invariant. -/
theorem C79_balance_partial {m : Nat} (gr : (Fin m → ℝ) → Fin m → ℝ) (U : (Fin m → ℝ) → ℝ) (n : Nat) (eps half : ℝ) (x p : Fin m → ℝ) :
    let t := trajectory (smooth gr (fun x => some (.fin (U x))) kinetic) n eps half x p (gr x)
    ∃ a b : ℝ, hAccept gr U n eps half x p = .fin a ∧ hAccept gr U n eps half t.x (-t.p) = .fin b ∧
      Real.exp (-(U x + 1 / 2 * ∑ i, p i * p i)) * a = Real.exp (-(U t.x + 1 / 2 * ∑ i, t.p i * t.p i)) * b := by
  intro t
  obtain ⟨-, -, hx, hp, hg⟩ := C79_reversible gr (fun x => some (Dbl.fin (U x))) kinetic n eps half x p
  obtain ⟨a, b, h1, h2, h3⟩ := C39_detailed_balance (U x + 1 / 2 * ∑ i, p i * p i) (U t.x + 1 / 2 * ∑ i, t.p i * t.p i)
  refine ⟨a, b, (hAccept_val gr U n eps half x p).trans h1, ?_, h3⟩
  have h4 := hAccept_val gr U n eps half t.x (-t.p)
  have hg' : gr t.x = t.g := hg.symm
  rw [hg'] at h4
  have h5 : ∀ q : Fin m → ℝ, ∑ i, (-q) i * (-q) i = ∑ i, q i * q i := fun q => by simp
  dsimp only at h4
  rw [show (trajectory (smooth gr (fun x => some (Dbl.fin (U x))) kinetic) n eps half t.x (-t.p) t.g).x = x from hx,
    show (trajectory (smooth gr (fun x => some (Dbl.fin (U x))) kinetic) n eps half t.x (-t.p) t.g).p = -p from hp, h5, h5] at h4
  exact h4.trans h2

/-- A trajectory in the phase space of a harmonic oscillator that does not return to its start. -/
example : leap (K := ℚ) (V := ℚ) id 3 1 (1/2) (1, 1) ≠ (1, 1) := by
  simp [leap, kick, drift, passes]

/-- **C79: momentum of another standard deviation.** The option `standardDeviationMomentum` scales the random momentum, but the energies use `p²/2` whatever its value. With standard deviation 2 the
momentum has density proportional to `exp(-p²/8)` and the balance fails: here the potential energy is `x²/2` with its gradient, the trajectory starts from `x = 2`, `p = 0` with one position step of length 1.
The start has weight `exp(-2)`, the end `x = 1`, `p = -3/2` has weight `exp(-1/2 - 9/32)`. -/
theorem C79_momentum_counterexample :
    let gr : (Fin 1 → ℝ) → Fin 1 → ℝ := fun x => x
    let U : (Fin 1 → ℝ) → ℝ := fun x => 1 / 2 * (x 0 * x 0)
    let x : Fin 1 → ℝ := fun _ => 2
    let p : Fin 1 → ℝ := fun _ => 0
    let t := trajectory (smooth gr (fun x => some (.fin (U x))) kinetic) 2 (1 : ℝ) (1/2) x p (gr x)
    ∃ a b : ℝ, hAccept gr U 2 1 (1/2) x p = .fin a ∧ hAccept gr U 2 1 (1/2) t.x (-t.p) = .fin b ∧
      Real.exp (-(U x + 1 / 8 * ∑ i, p i * p i)) * a ≠ Real.exp (-(U t.x + 1 / 8 * ∑ i, t.p i * t.p i)) * b := by
  intro gr U x p t
  obtain ⟨a, b, h1, h2, h3⟩ := C79_balance_partial gr U 2 1 (1/2) x p
  refine ⟨a, b, h1, h2, ?_⟩
  have ht : (t.x, t.p) = leap gr 2 (1 : ℝ) (1/2) (x, p) := (trajectory_leap gr _ kinetic 2 (1 : ℝ) (1/2) x p).2
  have hl : leap gr 2 (1 : ℝ) (1/2) (x, p) = (fun _ => 1, fun _ => -(3/2)) := by
    simp only [leap, passes]
    show (x + (1 : ℝ) • (p - (1/2 : ℝ) • x), p - (1/2 : ℝ) • x - (1/2 : ℝ) • (x + (1 : ℝ) • (p - (1/2 : ℝ) • x))) = _
    refine Prod.ext ?_ ?_ <;> funext i <;> simp [x, p] <;> norm_num
  rw [hl] at ht
  have htx : t.x = fun _ => 1 := (Prod.mk.inj ht).1
  have htp : t.p = fun _ => -(3/2) := (Prod.mk.inj ht).2
  have hv := hAccept_val gr U 2 1 (1/2) x p
  change hAccept gr U 2 1 (1/2) x p = accProb Real.exp (.fin (U x + 1 / 2 * ∑ i, p i * p i)) (.fin (U t.x + 1 / 2 * ∑ i, t.p i * t.p i)) at hv
  change Real.exp (-(U x + 1 / 2 * ∑ i, p i * p i)) * a = Real.exp (-(U t.x + 1 / 2 * ∑ i, t.p i * t.p i)) * b at h3
  have e1 : U x + 1 / 2 * ∑ i, p i * p i = 2 := by simp [U, x, p]
  have e2 : U t.x + 1 / 2 * ∑ i, t.p i * t.p i = 13 / 8 := by rw [htx, htp]; simp [U]; norm_num
  have e3 : U x + 1 / 8 * ∑ i, p i * p i = 2 := by simp [U, x, p]
  have e4 : U t.x + 1 / 8 * ∑ i, t.p i * t.p i = 25 / 32 := by rw [htx, htp]; simp [U]; norm_num
  rw [e1, e2] at hv h3
  have ha : a = 1 := by
    have := accProb_better (ex := Real.exp) Real.exp_zero (show (13/8 : ℝ) ≤ 2 by norm_num)
    rw [this, h1] at hv
    exact Dbl.fin.inj hv
  rw [e3, e4]
  intro h
  rw [ha] at h h3
  have hb : b ≠ 0 := by
    intro hb
    rw [hb] at h3
    have := Real.exp_pos (-2)
    linarith
  have : Real.exp (-(13/8)) * b = Real.exp (-(25/32)) * b := h3.symm.trans h
  have := mul_right_cancel₀ hb this
  have := Real.exp_injective this
  norm_num at this

end balance
end Verif.Sampler
