import Verif.LegacyCov.Model

/-!
The damping of the Levenberg-Marquardt method of the legacy optimizer, `aslam_backend/src/Optimizer.cpp` (LO below), and `optimize` with it. The options are those of `OptimizerOptions.hpp`. Left out: rounding, overflow and the sign of zero.
-/
namespace Verif.LegacyRun
open Verif.Legacy Verif.LegacyCov

variable {K X D M : Type} [LinearOrder K] [Field K]

/-- `a * b` of a finite `a` and any double `b`: used in the expressions of LO:535, 559 and 566-576. -/
def scale (a : K) : Dbl K → Dbl K
  | .nan => .nan
  | .fin b => .fin (a * b)
  | .pinf => if a = 0 then .nan else if 0 < a then .pinf else .ninf
  | .ninf => if a = 0 then .nan else if 0 < a then .ninf else .pinf

/-- `a * b` of any doubles: `_lambda *= u1`, `_lambda *= u2`, LO:570-573. -/
def mulD : Dbl K → Dbl K → Dbl K
  | .fin a, b => scale a b
  | a, .fin b => scale b a
  | .nan, _ => .nan
  | _, .nan => .nan
  | .pinf, .pinf => .pinf
  | .ninf, .ninf => .pinf
  | .pinf, .ninf => .ninf
  | .ninf, .pinf => .ninf

/-- `pow(a, p)` with an exponent `p >= 0`, LO:569. Simplified: negative exponents are not modelled. -/
def powD (a : Dbl K) (p : Nat) : Dbl K :=
  if p = 0 then .fin 1 else
  match a with
  | .nan => .nan
  | .fin r => .fin (r ^ p)
  | .pinf => .pinf
  | .ninf => if p % 2 = 0 then .pinf else .ninf

/-- The options of the damping, OptimizerOptions.hpp:38-48; `beta` and `p` are integers there. -/
structure LmOptions (K : Type) where
  lambdaInit : K
  gamma : K
  beta : Int
  p : Nat
  muInit : K
  estimateScale : K

/-- `_lambda` and the local variable `mu` of `optimize`. Optimizer.hpp:181, LO:487. -/
structure Damp (K : Type) where
  lambda : Dbl K
  mu : K

/-- After a failed linear solve or a rejected step, LO:535-536 and 559-560. -/
def failed (q : Damp K) : Damp K := ⟨scale q.mu q.lambda, q.mu * 2⟩

/-- `u2` of LO:569. -/
def u2 (o : LmOptions K) (rho : Dbl K) : Dbl K := Dbl.sub (.fin 1) (scale ((o.beta : K) - 1) (powD (Dbl.sub (scale 2 rho) (.fin 1)) o.p))

/-- After an accepted step, LO:562-577. -/
def good (o : LmOptions K) (q : Damp K) (rho : Dbl K) : Damp K :=
  if Dbl.lt (.fin (1 / 10 ^ 16)) q.lambda then
    let u1 := Dbl.div 1 o.gamma
    ⟨if Dbl.lt (u2 o rho) u1 then mulD q.lambda u1 else mulD q.lambda (u2 o rho), o.beta⟩
  else { q with lambda := .fin (1 / 10 ^ 15) }

/-- `setInitialLambda`, LO:136-159; `maxDiag` is what the loop over the diagonal blocks finds, see `Legacy.initialMax`. -/
def lambda0 (o : LmOptions K) (maxDiag : K) (q : Damp K) : Damp K :=
  if q.lambda = .fin 0 then { q with lambda := .fin (if o.estimateScale ≤ 0 then o.lambdaInit else maxDiag * o.estimateScale) } else q

/-- What the method is applied to, as in `LegacyCov.Parts`: `build`: the matrices at an estimate; `solve`: `applySchurComplement` and the linear solve with a given `_lambda`, LO:516-528, `none` if it fails; `den`: the denominator in `getLmRho`, LO:131. -/
structure Prob (K X D M : Type) where
  cost : X → Dbl K
  update : X → D → X × Dbl K
  revert : X → X
  build : X → M
  maxDiag : M → K
  solve : Dbl K → M → Option D
  den : Dbl K → M → D → K

/-- `optimize`, LO:472-590, put together. -/
def Prob.parts (S : Prob K X D M) (lo : LmOptions K) : Parts K X D M (Damp K) where
  cost := S.cost
  update := S.update
  revert := S.revert
  build := S.build
  lambda0 q m := lambda0 lo (S.maxDiag m) q
  solve q m := S.solve q.lambda m
  den q m d := S.den q.lambda m d
  failed := failed
  good := good lo

/-- `optimize`, LO:472-590: `_lambda` is zero and `mu` its initial value when it starts, LO:483 and 487; `m` are the matrices before. -/
def optimizeLM (S : Prob K X D M) (lo : LmOptions K) (o : Options K) (x : X) (m : M) : Out K X :=
  Legacy.optimize (S.parts lo).setup o x (m, ⟨.fin 0, lo.muInit⟩)

end Verif.LegacyRun
