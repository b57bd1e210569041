import Verif.Expr.Props

/-!
C132: formulas written with the operators and functions on scalar expressions (`aslam_backend_expressions/src/ScalarExpression.cpp`, S').
-/
namespace Verif.Expr
open Matrix Verif.Geo Filter Topology

/-- What a user writes: design variables, components of points, constants, operators and functions. -/
inductive Formula
  | var (i : Nat)
  | comp (k : Fin 3) (i : Nat)
  | const (x : ℝ)
  | add (a b : Formula) | sub (a b : Formula) | mul (a b : Formula) | div (a b : Formula)
  | addc (a : Formula) (x : ℝ) | subc (a : Formula) (x : ℝ) | mulc (a : Formula) (x : ℝ) | divc (a : Formula) (x : ℝ)
  | cdiv (x : ℝ) (a : Formula)
  | neg (a : Formula)
  | sqrt (a : Formula) | log (a : Formula) | exp (a : Formula) | atan (a : Formula) | tanh (a : Formula)
  | sin (a : Formula) | cos (a : Formula) | acos (a : Formula) | acosSquared (a : Formula)
  | atan2 (a b : Formula)
  | inverseSigmoid (height scale shift : ℝ) (a : Formula)
  | power (k : ℤ) (a : Formula)
  | piecewise (cond : Env → Bool) (a b : Formula)

namespace Formula

/-- The number a formula stands for. -/
noncomputable def den (env : Env) : Formula → ℝ
  | var i => env.sc i
  | comp k i => env.pt i k
  | const x => x
  | add a b => den env a + den env b
  | sub a b => den env a - den env b
  | mul a b => den env a * den env b
  | div a b => den env a / den env b
  | addc a x => den env a + x
  | subc a x => den env a - x
  | mulc a x => den env a * x
  | divc a x => den env a / x
  | cdiv x a => x / den env a
  | neg a => -den env a
  | sqrt a => Real.sqrt (den env a)
  | log a => Real.log (den env a)
  | exp a => Real.exp (den env a)
  | atan a => Real.arctan (den env a)
  | tanh a => Real.tanh (den env a)
  | sin a => Real.sin (den env a)
  | cos a => Real.cos (den env a)
  | acos a => Real.arccos (den env a)
  | acosSquared a => Real.arccos (den env a) ^ 2
  | atan2 a b => Complex.arg ⟨den env b, den env a⟩
  | inverseSigmoid h s c a => h / (1 + Real.exp (s * (den env a - c)))
  | power k a => den env a ^ k
  | piecewise cond a b => if cond env then den env a else den env b

/-- No division by zero, no root or logarithm of a number which is not positive, no arc cosine outside of [-1, 1]. -/
def Defined (env : Env) : Formula → Prop
  | var _ | comp _ _ | const _ => True
  | add a b | sub a b | mul a b | atan2 a b => Defined env a ∧ Defined env b
  | div a b => Defined env a ∧ Defined env b ∧ den env b ≠ 0
  | addc a _ | subc a _ | mulc a _ | neg a | exp a | atan a | tanh a | sin a | cos a | inverseSigmoid _ _ _ a => Defined env a
  | divc a x => Defined env a ∧ x ≠ 0
  | cdiv _ a => Defined env a ∧ den env a ≠ 0
  | sqrt a | log a => Defined env a ∧ 0 < den env a
  | acos a | acosSquared a => Defined env a ∧ -1 ≤ den env a ∧ den env a ≤ 1
  | power k a => Defined env a ∧ (den env a = 0 → 0 ≤ k)
  | piecewise cond a b => if cond env then Defined env a else Defined env b

/-- The expression object the operators make. -/
noncomputable def build : Formula → Res (Handle .S)
  | var i => .ok (some (.svar i))
  | comp k i => Handle.component k (some (.evar i))
  | const x => .ok (some (.sconst x))
  | add a b => build a >>= fun p => build b >>= fun q => Handle.sadd p q
  | sub a b => build a >>= fun p => build b >>= fun q => Handle.ssub p q
  | mul a b => build a >>= fun p => build b >>= fun q => Handle.smul p q
  | div a b => build a >>= fun p => build b >>= fun q => Handle.sdiv p q
  | addc a x => build a >>= fun p => Handle.saddc p x
  | subc a x => build a >>= fun p => Handle.ssubc p x
  | mulc a x => build a >>= fun p => Handle.smulc p x
  | divc a x => build a >>= fun p => Handle.sdivc p x
  | cdiv x a => build a >>= fun p => Handle.scdiv x p
  | neg a => build a >>= fun p => Handle.sneg p
  | sqrt a => build a >>= fun p => Handle.sqrt p
  | log a => build a >>= fun p => Handle.log p
  | exp a => build a >>= fun p => Handle.exp p
  | atan a => build a >>= fun p => Handle.atan p
  | tanh a => build a >>= fun p => Handle.tanh p
  | sin a => build a >>= fun p => Handle.sin p
  | cos a => build a >>= fun p => Handle.cos p
  | acos a => build a >>= fun p => Handle.acos p
  | acosSquared a => build a >>= fun p => Handle.acosSquared p
  | atan2 a b => build a >>= fun p => build b >>= fun q => Handle.atan2 p q
  | inverseSigmoid h s c a => build a >>= fun p => Handle.inverseSigmoid h s c p
  | power k a => build a >>= fun p => Handle.power k p
  | piecewise cond a b => build a >>= fun p => build b >>= fun q => Handle.piecewise cond p q

/-- `h/2 (1 + tanh (-s (x - c) / 2))` is `h / (1 + exp (s (x - c)))`. -/
theorem sigmoid_eq (h s c x : ℝ) : h * 0.5 * (1 + Real.tanh (-s * (x - c) * 0.5)) = h / (1 + Real.exp (s * (x - c))) := by
  set y := s * (x - c) with hy
  have e1 : -s * (x - c) * 0.5 = -(y / 2) := by rw [hy]; ring
  rw [e1, Real.tanh_neg, Real.tanh_eq_sinh_div_cosh, Real.sinh_eq, Real.cosh_eq]
  have e2 : Real.exp y = Real.exp (y / 2) * Real.exp (y / 2) := by rw [← Real.exp_add]; congr 1; ring
  have p := Real.exp_pos (y / 2)
  have e3 : Real.exp (-(y / 2)) = (Real.exp (y / 2))⁻¹ := Real.exp_neg _
  rw [e2, e3]
  generalize Real.exp (y / 2) = w at p ⊢
  have : (1 : ℝ) + w * w ≠ 0 := by positivity
  have hw : w ≠ 0 := p.ne'
  have : w + w⁻¹ ≠ 0 := by positivity
  field_simp
  ring

/-- An expression which has the value `d env` where `D env` holds and no value elsewhere. -/
def Is (e : Node .S) (D : Env → Prop) (d : Env → ℝ) : Prop := ∀ env x, val env e = .ok x ↔ D env ∧ x = d env

theorem Is.un {e : Node .S} {D : Env → Prop} {d : Env → ℝ} (h : Is e D d) (f : UnOp) {P : ℝ → Prop} {g : ℝ → ℝ}
    (hf : ∀ x y, f.ap x = .ok y ↔ P x ∧ y = g x) : Is (.sun f e) (fun env => D env ∧ P (d env)) (fun env => g (d env)) := by
  intro env y
  simp only [val, bind_eq_ok]
  constructor
  · rintro ⟨x, hx, hy⟩
    obtain ⟨h1, rfl⟩ := (h env x).1 hx
    obtain ⟨h2, rfl⟩ := (hf _ _).1 hy
    exact ⟨⟨h1, h2⟩, rfl⟩
  · rintro ⟨⟨h1, h2⟩, rfl⟩
    exact ⟨d env, (h env _).2 ⟨h1, rfl⟩, (hf _ _).2 ⟨h2, rfl⟩⟩

theorem Is.bin {a b e : Node .S} {D E : Env → Prop} {d f : Env → ℝ} (ha : Is a D d) (hb : Is b E f) {op : ℝ → ℝ → Res ℝ} {P : ℝ → ℝ → Prop}
    {g : ℝ → ℝ → ℝ} (he : ∀ env, val env e = (val env a >>= fun x => val env b >>= fun y => op x y))
    (hop : ∀ x y z, op x y = .ok z ↔ P x y ∧ z = g x y) :
    Is e (fun env => D env ∧ E env ∧ P (d env) (f env)) (fun env => g (d env) (f env)) := by
  intro env z
  rw [he]
  simp only [bind_eq_ok]
  constructor
  · rintro ⟨x, hx, y, hy, hz⟩
    obtain ⟨h1, rfl⟩ := (ha env x).1 hx
    obtain ⟨h2, rfl⟩ := (hb env y).1 hy
    obtain ⟨h3, rfl⟩ := (hop _ _ _).1 hz
    exact ⟨⟨h1, h2, h3⟩, rfl⟩
  · rintro ⟨⟨h1, h2, h3⟩, rfl⟩
    exact ⟨_, (ha env _).2 ⟨h1, rfl⟩, _, (hb env _).2 ⟨h2, rfl⟩, (hop _ _ _).2 ⟨h3, rfl⟩⟩

theorem Is.const (x : ℝ) : Is (.sconst x) (fun _ => True) (fun _ => x) := fun env y => by simp [val, eq_comm]

theorem Is.congr {e : Node .S} {D E : Env → Prop} {d f : Env → ℝ} (h : Is e D d) (hD : ∀ env, D env ↔ E env) (hd : ∀ env, d env = f env) :
    Is e E f := fun env x => by rw [h env x, hD, hd]

/-- The expression exists, and in every state of the design variables it has a value exactly where the formula is defined, namely the
number the formula stands for. -/
theorem spec (φ : Formula) : ∃ e, build φ = .ok (some e) ∧ Is e (fun env => Defined env φ) (fun env => den env φ) := by
  have bin : ∀ (a b : Formula) (mk : Node .S → Node .S → Node .S) (ψ : Formula) (op : ℝ → ℝ → Res ℝ) (P : ℝ → ℝ → Prop) (g : ℝ → ℝ → ℝ),
      (∃ e, build a = .ok (some e) ∧ Is e (fun env => Defined env a) (fun env => den env a)) →
      (∃ e, build b = .ok (some e) ∧ Is e (fun env => Defined env b) (fun env => den env b)) →
      (∀ x y env, val env (mk x y) = (val env x >>= fun u => val env y >>= fun v => op u v)) →
      (∀ x y z, op x y = .ok z ↔ P x y ∧ z = g x y) →
      (∀ x y, build a = .ok (some x) → build b = .ok (some y) → build ψ = .ok (some (mk x y))) →
      (∀ env, Defined env a ∧ Defined env b ∧ P (den env a) (den env b) ↔ Defined env ψ) →
      (∀ env, g (den env a) (den env b) = den env ψ) →
      ∃ e, build ψ = .ok (some e) ∧ Is e (fun env => Defined env ψ) (fun env => den env ψ) := by
    rintro a b mk ψ op P g ⟨x, hx, hx'⟩ ⟨y, hy, hy'⟩ hv hop hb hD hd
    exact ⟨mk x y, hb x y hx hy, (hx'.bin hy' (hv x y) hop).congr hD hd⟩
  have unc : ∀ (a : Formula) (k : ℝ) (mk : Node .S → Node .S) (ψ : Formula) (op : ℝ → ℝ → Res ℝ) (P : ℝ → ℝ → Prop) (g : ℝ → ℝ → ℝ),
      (∃ e, build a = .ok (some e) ∧ Is e (fun env => Defined env a) (fun env => den env a)) →
      (∀ x env, val env (mk x) = (val env x >>= fun u => val env (.sconst k) >>= fun v => op u v)) →
      (∀ x y z, op x y = .ok z ↔ P x y ∧ z = g x y) →
      (∀ x, build a = .ok (some x) → build ψ = .ok (some (mk x))) →
      (∀ env, Defined env a ∧ P (den env a) k ↔ Defined env ψ) →
      (∀ env, g (den env a) k = den env ψ) →
      ∃ e, build ψ = .ok (some e) ∧ Is e (fun env => Defined env ψ) (fun env => den env ψ) := by
    rintro a k mk ψ op P g ⟨x, hx, hx'⟩ hv hop hb hD hd
    exact ⟨mk x, hb x hx, (hx'.bin (Is.const k) (hv x) hop).congr (fun env => by rw [← hD]; simp) hd⟩
  have un : ∀ (a : Formula) (f : UnOp) (ψ : Formula) (P : ℝ → Prop) (g : ℝ → ℝ),
      (∃ e, build a = .ok (some e) ∧ Is e (fun env => Defined env a) (fun env => den env a)) →
      (∀ x y, f.ap x = .ok y ↔ P x ∧ y = g x) →
      (∀ x, build a = .ok (some x) → build ψ = .ok (some (.sun f x))) →
      (∀ env, Defined env a ∧ P (den env a) ↔ Defined env ψ) →
      (∀ env, g (den env a) = den env ψ) →
      ∃ e, build ψ = .ok (some e) ∧ Is e (fun env => Defined env ψ) (fun env => den env ψ) := by
    rintro a f ψ P g ⟨x, hx, hx'⟩ hf hb hD hd
    exact ⟨.sun f x, hb x hx, (hx'.un f hf).congr hD hd⟩
  have tot : ∀ {g : ℝ → ℝ → ℝ} (x y z : ℝ), (Res.ok (g x y) = Res.ok z) ↔ True ∧ z = g x y := by
    intro g x y z; simp [eq_comm]
  have tot1 : ∀ {g : ℝ → ℝ} (x z : ℝ), (Res.ok (g x) = Res.ok z) ↔ True ∧ z = g x := by
    intro g x z; simp [eq_comm]
  induction φ with
  | var i => exact ⟨_, rfl, fun env x => by simp [val, Defined, den, eq_comm]⟩
  | comp k i => exact ⟨_, rfl, fun env x => by simp [val, Defined, den, eq_comm]⟩
  | const x => exact ⟨_, rfl, fun env y => by simp [val, Defined, den, eq_comm]⟩
  | add a b iha ihb =>
    exact bin a b (fun x y => .sadd x y 1) _ (fun x y => .ok (x + 1 * y)) (fun _ _ => True) (fun x y => x + 1 * y) iha ihb (fun _ _ _ => rfl)
      (tot (g := fun x y => x + 1 * y)) (fun x y hx hy => by simp [build, hx, hy, Handle.sadd, both]) (fun env => by simp [Defined]) (fun env => by simp [den])
  | sub a b iha ihb =>
    exact bin a b (fun x y => .sadd x y (-1)) _ (fun x y => .ok (x + -1 * y)) (fun _ _ => True) (fun x y => x + -1 * y) iha ihb (fun _ _ _ => rfl)
      (tot (g := fun x y => x + -1 * y)) (fun x y hx hy => by simp [build, hx, hy, Handle.ssub, both]) (fun env => by simp [Defined]) (fun env => by simp [den]; ring)
  | mul a b iha ihb =>
    exact bin a b .smul _ (fun x y => .ok (x * y)) (fun _ _ => True) (fun x y => x * y) iha ihb (fun _ _ _ => rfl)
      (tot (g := fun x y => x * y)) (fun x y hx hy => by simp [build, hx, hy, Handle.smul, both]) (fun env => by simp [Defined]) (fun env => by simp [den])
  | div a b iha ihb =>
    exact bin a b .sdiv _ (fun x y => if y = 0 then .ub else .ok (x / y)) (fun _ y => y ≠ 0) (fun x y => x / y) iha ihb (fun _ _ _ => rfl)
      (fun x y z => by by_cases h : y = 0 <;> simp [h, eq_comm]) (fun x y hx hy => by simp [build, hx, hy, Handle.sdiv, both])
      (fun env => by simp [Defined]) (fun env => by simp [den])
  | addc a k iha =>
    exact unc a k (fun x => .sadd x (.sconst k) 1) _ (fun x y => .ok (x + 1 * y)) (fun _ _ => True) (fun x y => x + 1 * y) iha (fun _ _ => rfl)
      (tot (g := fun x y => x + 1 * y)) (fun x hx => by simp [build, hx, Handle.saddc, Handle.one]) (fun env => by simp [Defined]) (fun env => by simp [den])
  | subc a k iha =>
    exact unc a (-k) (fun x => .sadd x (.sconst (-k)) 1) _ (fun x y => .ok (x + 1 * y)) (fun _ _ => True) (fun x y => x + 1 * y) iha (fun _ _ => rfl)
      (tot (g := fun x y => x + 1 * y)) (fun x hx => by simp [build, hx, Handle.ssubc, Handle.one]) (fun env => by simp [Defined]) (fun env => by simp [den]; ring)
  | mulc a k iha =>
    exact unc a k (fun x => .smul x (.sconst k)) _ (fun x y => .ok (x * y)) (fun _ _ => True) (fun x y => x * y) iha (fun _ _ => rfl)
      (tot (g := fun x y => x * y)) (fun x hx => by simp [build, hx, Handle.smulc, Handle.one]) (fun env => by simp [Defined]) (fun env => by simp [den])
  | divc a k iha =>
    exact unc a k (fun x => .sdiv x (.sconst k)) _ (fun x y => if y = 0 then .ub else .ok (x / y)) (fun _ y => y ≠ 0) (fun x y => x / y) iha (fun _ _ => rfl)
      (fun x y z => by by_cases h : y = 0 <;> simp [h, eq_comm]) (fun x hx => by simp [build, hx, Handle.sdivc, Handle.one])
      (fun env => by simp [Defined]) (fun env => by simp [den])
  | cdiv k a iha =>
    obtain ⟨e, he, he'⟩ := iha
    exact ⟨.sdiv (.sconst k) e, by simp [build, he, Handle.scdiv, Handle.sdiv, both],
      ((Is.const k).bin he' (op := fun x y => if y = 0 then .ub else .ok (x / y)) (P := fun _ y => y ≠ 0) (g := fun x y => x / y) (fun _ => rfl)
        (fun x y z => by by_cases h : y = 0 <;> simp [h, eq_comm])).congr (fun env => by simp [Defined]) (fun env => by simp [den])⟩
  | neg a iha => exact un a .neg _ (fun _ => True) (fun x => -x) iha (tot1 (g := fun x => -x)) (fun x hx => by simp [build, hx, Handle.sneg, Handle.one]) (fun env => by simp [Defined]) (fun env => by simp [den])
  | sqrt a iha => exact un a .sqrt _ (fun x => 0 < x) Real.sqrt iha (fun x y => by by_cases h : 0 < x <;> simp [UnOp.ap, h, eq_comm]) (fun x hx => by simp [build, hx, Handle.sqrt, Handle.one]) (fun env => by simp [Defined]) (fun env => by simp [den])
  | log a iha => exact un a .log _ (fun x => 0 < x) Real.log iha (fun x y => by by_cases h : 0 < x <;> simp [UnOp.ap, h, eq_comm]) (fun x hx => by simp [build, hx, Handle.log, Handle.one]) (fun env => by simp [Defined]) (fun env => by simp [den])
  | exp a iha => exact un a .exp _ (fun _ => True) Real.exp iha (tot1 (g := Real.exp)) (fun x hx => by simp [build, hx, Handle.exp, Handle.one]) (fun env => by simp [Defined]) (fun env => by simp [den])
  | atan a iha => exact un a .atan _ (fun _ => True) Real.arctan iha (tot1 (g := Real.arctan)) (fun x hx => by simp [build, hx, Handle.atan, Handle.one]) (fun env => by simp [Defined]) (fun env => by simp [den])
  | tanh a iha => exact un a .tanh _ (fun _ => True) Real.tanh iha (tot1 (g := Real.tanh)) (fun x hx => by simp [build, hx, Handle.tanh, Handle.one]) (fun env => by simp [Defined]) (fun env => by simp [den])
  | sin a iha => exact un a .sin _ (fun _ => True) Real.sin iha (tot1 (g := Real.sin)) (fun x hx => by simp [build, hx, Handle.sin, Handle.one]) (fun env => by simp [Defined]) (fun env => by simp [den])
  | cos a iha => exact un a .cos _ (fun _ => True) Real.cos iha (tot1 (g := Real.cos)) (fun x hx => by simp [build, hx, Handle.cos, Handle.one]) (fun env => by simp [Defined]) (fun env => by simp [den])
  | acos a iha => exact un a .acos _ (fun x => -1 ≤ x ∧ x ≤ 1) Real.arccos iha (fun x y => by by_cases h : -1 ≤ x ∧ x ≤ 1 <;> simp [UnOp.ap, h, eq_comm]) (fun x hx => by simp [build, hx, Handle.acos, Handle.one]) (fun env => by simp [Defined]) (fun env => by simp [den])
  | acosSquared a iha => exact un a .acosSquared _ (fun x => -1 ≤ x ∧ x ≤ 1) (fun x => Real.arccos x * Real.arccos x) iha (fun x y => by by_cases h : -1 ≤ x ∧ x ≤ 1 <;> simp [UnOp.ap, h, eq_comm]) (fun x hx => by simp [build, hx, Handle.acosSquared, Handle.one]) (fun env => by simp [Defined]) (fun env => by simp [den, sq])
  | atan2 a b iha ihb =>
    exact bin a b .satan2 _ (fun x y => .ok (Expr.atan2 x y)) (fun _ _ => True) (fun x y => Expr.atan2 x y) iha ihb (fun _ _ _ => rfl)
      (tot (g := fun x y => Expr.atan2 x y)) (fun x y hx hy => by simp [build, hx, hy, Handle.atan2, both]) (fun env => by simp [Defined]) (fun env => by simp [den, Expr.atan2])
  | inverseSigmoid h s c a iha => exact un a (.inverseSigmoid h s c) _ (fun _ => True) (fun x => h * 0.5 * (1 + Real.tanh (-s * (x - c) * 0.5))) iha (tot1 (g := fun x => h * 0.5 * (1 + Real.tanh (-s * (x - c) * 0.5)))) (fun x hx => by simp [build, hx, Handle.inverseSigmoid, Handle.one]) (fun env => by simp [Defined]) (fun env => sigmoid_eq _ _ _ _)
  | power k a iha => exact un a (.power k) _ (fun x => x = 0 → 0 ≤ k) (fun x => x ^ k) iha (fun x y => by
      by_cases h : x = 0 ∧ k < 0
      · simp [UnOp.ap, h]
      · have h' : x = 0 → 0 ≤ k := fun h0 => not_lt.1 fun hk => h ⟨h0, hk⟩
        rw [UnOp.ap, if_neg h]
        exact ⟨fun e => ⟨h', by cases e; rfl⟩, fun e => by rw [e.2]⟩) (fun x hx => by simp [build, hx, Handle.power, Handle.one]) (fun env => by simp [Defined]) (fun env => by simp [den])
  | piecewise cond a b iha ihb =>
    obtain ⟨x, hx, hx'⟩ := iha
    obtain ⟨y, hy, hy'⟩ := ihb
    refine ⟨.spiece cond x y, by simp [build, hx, hy, Handle.piecewise, both], fun env z => ?_⟩
    by_cases h : cond env = true
    · simpa [val, Defined, den, h] using hx' env z
    · simpa [val, Defined, den, h] using hy' env z

/-- The nodes the operators make. -/
noncomputable def node : Formula → Node .S
  | var i => .svar i
  | comp k i => .scomp k (.evar i)
  | const x => .sconst x
  | add a b => .sadd (node a) (node b) 1
  | sub a b => .sadd (node a) (node b) (-1)
  | mul a b => .smul (node a) (node b)
  | div a b => .sdiv (node a) (node b)
  | addc a x => .sadd (node a) (.sconst x) 1
  | subc a x => .sadd (node a) (.sconst (-x)) 1
  | mulc a x => .smul (node a) (.sconst x)
  | divc a x => .sdiv (node a) (.sconst x)
  | cdiv x a => .sdiv (.sconst x) (node a)
  | neg a => .sun .neg (node a)
  | sqrt a => .sun .sqrt (node a)
  | log a => .sun .log (node a)
  | exp a => .sun .exp (node a)
  | atan a => .sun .atan (node a)
  | tanh a => .sun .tanh (node a)
  | sin a => .sun .sin (node a)
  | cos a => .sun .cos (node a)
  | acos a => .sun .acos (node a)
  | acosSquared a => .sun .acosSquared (node a)
  | atan2 a b => .satan2 (node a) (node b)
  | inverseSigmoid h s c a => .sun (.inverseSigmoid h s c) (node a)
  | power k a => .sun (.power k) (node a)
  | piecewise cond a b => .spiece cond (node a) (node b)

theorem build_node (φ : Formula) : build φ = .ok (some (node φ)) := by
  induction φ <;> simp_all [build, node, Handle.component, Handle.sadd, Handle.ssub, Handle.smul, Handle.sdiv, Handle.saddc, Handle.ssubc, Handle.smulc,
    Handle.sdivc, Handle.scdiv, Handle.sneg, Handle.sqrt, Handle.log, Handle.exp, Handle.atan, Handle.tanh, Handle.sin, Handle.cos, Handle.acos,
    Handle.acosSquared, Handle.atan2, Handle.inverseSigmoid, Handle.power, Handle.piecewise, Handle.one, both]

theorem node_spec (φ : Formula) : Is (node φ) (fun env => Defined env φ) (fun env => den env φ) := by
  obtain ⟨e, he, h⟩ := spec φ
  rw [build_node] at he
  cases he
  exact h

theorem node_cons (tbl : Table) (φ : Formula) : Cons tbl (node φ) := by
  induction φ <;> simp_all [node, Cons]

/-- Where the reported derivatives are meant to be exact: arc cosines inside of (-1, 1), squared ones farther than 2⁻²⁶ from 1, powers not
of 0 unless the exponent is positive, `atan2` not on its cut, and conditions which do not change. -/
def Regular (c : ℝ → Env) (t : ℝ) : Formula → Prop
  | var _ | comp _ _ | const _ => True
  | add a b | sub a b | mul a b | div a b => Regular c t a ∧ Regular c t b
  | addc a _ | subc a _ | mulc a _ | divc a _ | cdiv _ a | neg a | sqrt a | log a | exp a | atan a | tanh a | sin a | cos a
  | inverseSigmoid _ _ _ a => Regular c t a
  | acos a => Regular c t a ∧ -1 < den (c t) a ∧ den (c t) a < 1
  | acosSquared a => Regular c t a ∧ -1 < den (c t) a ∧ den (c t) a < 1 - 1 / 2 ^ 26
  | power k a => Regular c t a ∧ (den (c t) a ≠ 0 ∨ 1 ≤ k)
  | atan2 a b => Regular c t a ∧ Regular c t b ∧ ¬ (den (c t) a = 0 ∧ den (c t) b ≤ 0)
  | piecewise cond a b => (∀ᶠ s in 𝓝 t, cond (c s) = cond (c t)) ∧ (cond (c t) = true → Regular c t a) ∧ (cond (c t) = false → Regular c t b)

theorem node_smooth {c : ℝ → Env} {t : ℝ} (φ : Formula) (h : Regular c t φ) : Smooth c t (node φ) := by
  have v : ∀ (a : Formula) (x : ℝ), val (c t) (node a) = .ok x → x = den (c t) a := fun a x hx => ((node_spec a (c t) x).1 hx).2
  induction φ with
  | acos a iha => exact ⟨iha h.1, fun x hx => by rw [v a x hx]; exact h.2⟩
  | acosSquared a iha =>
    refine ⟨iha h.1, fun x hx => ?_⟩
    rw [v a x hx]
    have h2 : (1 : ℝ) / 2 ^ 26 ≤ 1 - den (c t) a := by linarith [h.2.2]
    have h3 : (0 : ℝ) < 1 / 2 ^ 26 := by positivity
    refine ⟨h.2.1, by linarith, ?_⟩
    have : eps = (1 / 2 ^ 26 : ℝ) * (1 / 2 ^ 26) := by norm_num [eps]
    rw [this]
    nlinarith
  | power k a iha => exact ⟨iha h.1, fun x hx => by rw [v a x hx]; exact h.2⟩
  | atan2 a b iha ihb => exact ⟨iha h.1, ihb h.2.1, fun y x hy hx => by rw [v a y hy, v b x hx]; exact h.2.2⟩
  | piecewise cond a b iha ihb => exact ⟨h.1, fun hc => iha (h.2.1 hc), fun hc => ihb (h.2.2 hc)⟩
  | _ => simp_all [node, Smooth, Regular, UnOp.Smooth]

/-- The design variables a formula mentions; of a piecewise one, those of the chosen branch. -/
def vars (env : Env) : Formula → List Var
  | var i => [.sc i]
  | comp _ i => [.pt i]
  | const _ => []
  | add a b | sub a b | mul a b | div a b | atan2 a b => vars env a ++ vars env b
  | addc a _ | subc a _ | mulc a _ | divc a _ | cdiv _ a | neg a | sqrt a | log a | exp a | atan a | tanh a | sin a | cos a | acos a
  | acosSquared a | inverseSigmoid _ _ _ a | power _ a => vars env a
  | piecewise cond a b => if cond env then vars env a else vars env b

theorem node_vars (env : Env) (φ : Formula) : dvs env (node φ) = vars env φ := by
  induction φ <;> simp_all [node, dvs, vars]

end Formula

open Formula

/-- Values: the operators and functions never fail to make an expression, and in every state of the design variables it has a value
exactly where the formula is defined, namely the number the formula stands for. Constant operands, operators with constants and
conditions included. -/
theorem C132_value (φ : Formula) : ∃ h : Handle .S, build φ = .ok h ∧ ∀ env x, h.val env = .ok x ↔ Defined env φ ∧ x = den env φ :=
  ⟨some (node φ), build_node φ, fun env x => node_spec φ env x⟩

variable {invS : V3 × ℝ → Matrix (Fin 3 ⊕ Unit) (Fin 3) ℝ} {c : ℝ → Env} {t : ℝ} {δ : (v : Var) → v.Idx → ℝ}

/-- Derivatives: after an evaluation the Jacobians exist and, summed over the design variables with their velocities, give the derivative of
the formula, which is defined all around. The full claim has "wherever the formula is differentiable". Missing: powers with exponent 0 at 0
(`C57_power_counterexample`) and squared arc cosines within 2⁻²⁶ of 1 (`C57_acosSquared_series`). -/
theorem C132_derivative_partial (hm : Moves invS c t δ) (φ : Formula) (hd : Defined (c t) φ) (hr : Regular c t φ) (σ : Store) :
    ∃ e, build φ = .ok (some e) ∧ (∀ᶠ s in 𝓝 t, Defined (c s) φ) ∧
      ∃ L σ', jac invS (c t) e (fun _ _ => 1 : Matrix (Fin 1) Unit ℝ) (upd (c t) e σ) = .ok (L, σ') ∧
        HasDerivAt (fun s => den (c s) φ) (total δ L 0) t := by
  obtain ⟨f, L, σ', h1, h2, h3⟩ := C57_derivative_partial (tbl := fun _ => ⟨_, .sconst 0⟩) hm (node φ) (node_cons _ φ) (node_smooth φ hr)
    ((node_spec φ (c t) _).2 ⟨hd, rfl⟩) σ
  refine ⟨node φ, build_node φ, h1.mono fun s hs => ((node_spec φ (c s) _).1 hs).1, L, σ', h2, h3.congr_of_eventuallyEq ?_⟩
  exact h1.mono fun s hs => ((node_spec φ (c s) _).1 hs).2.symm

/-- Design variables: exactly those of the formula are reported. -/
theorem C132_variables (φ : Formula) : ∃ e, build φ = .ok (some e) ∧ ∀ env, dvs env e = vars env φ :=
  ⟨node φ, build_node φ, fun env => node_vars env φ⟩

/-- Empty scalar expressions can be neither combined nor evaluated. -/
theorem C132_null_counterexample (env : Env) (e : Node .S) (p : Node .E) (x : ℝ) : Handle.val env (none : Handle .S) = .ub ∧
    Handle.sadd (some e) none = .ub ∧ Handle.smul none (some e) = .ub ∧ Handle.saddc none x = .ub ∧ Handle.sqrt none = .ub ∧
    Handle.scale (some p) none = .ub := ⟨rfl, rfl, rfl, rfl, rfl, rfl⟩

/-- `(2 / x₀ - 3 y₁) ^ 3 * inverseSigmoid (x₀)` where `y₁` is the second coordinate of a point. -/
noncomputable def exFormula : Formula := .mul (.power 3 (.sub (.cdiv 2 (.var 0)) (.mulc (.comp 1 0) 3))) (.inverseSigmoid 1 2 3 (.var 0))

example : ∃ h : Handle .S, build exFormula = .ok h ∧ h.val (exC 1) = .ok ((2 / (1 + (0 : ℕ)) - 1 * 3) ^ (3 : ℤ) * (1 / (1 + Real.exp (2 * ((1 + (0 : ℕ)) - 3))))) := by
  obtain ⟨h, h1, h2⟩ := C132_value exFormula
  refine ⟨h, h1, (h2 _ _).2 ⟨?_, rfl⟩⟩
  simp [exFormula, Defined, den, exC]

example : ∃ e, build exFormula = .ok (some e) ∧ (∀ᶠ s in 𝓝 (1 : ℝ), Defined (exC s) exFormula) ∧
      ∃ L σ', jac invS (exC 1) e (fun _ _ => 1 : Matrix (Fin 1) Unit ℝ) (upd (exC 1) e fun _ => none) = .ok (L, σ') ∧
        HasDerivAt (fun s => den (exC s) exFormula) (total exD L 0) 1 :=
  C132_derivative_partial (exMoves invS 1) exFormula (by simp [exFormula, Defined, den, exC]) (by simp [exFormula, Regular]) _

end Verif.Expr
