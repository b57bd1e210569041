import Verif.Prelude
import Verif.Num

/-!
Model of the line search (`aslam_backend/src/LineSearch.cpp`, L below; `LineSearch.hpp`, H below) over every
number type with the operations of `double` (`FloatLike`, no laws assumed). The cost function is arbitrary.
Not modelled: log output, the two evaluation callbacks, option loading, the debug-only checks L:260-264.
-/
namespace Verif.LineSearch
open FloatLike

variable {F : Type} [FloatLike F]

local instance : Add F := ⟨FloatLike.add⟩
local instance : Sub F := ⟨FloatLike.sub⟩
local instance : Mul F := ⟨FloatLike.mul⟩
local instance : Div F := ⟨FloatLike.div⟩
local instance : Neg F := ⟨FloatLike.neg⟩

/-- Not code: the constant 0.0. -/
abbrev zero : F := lit 0

/-- `utils::sqr`, util/utils.hpp:29-32. -/
def sqr (a : F) : F := a * a

/-- `utils::sign` converted to `double`, util/utils.hpp:23-26. -/
def sign (a : F) : F := lit ((if lt zero a then 1 else 0) - (if lt a zero then 1 else 0))

/-- The interval of `dcstep` (reference parameters, L:58): best step, other end, current step, bracketed or not. -/
structure Iv (F : Type) where
  stx : F
  fx : F
  dx : F
  sty : F
  fy : F
  dy : F
  stp : F
  brackt : Bool

/-- `theta` and `s` of the cubic interpolation, L:70-71, 94-95, 119-120, 178-179 (`num` = difference of values, `den` = of steps). -/
def theta (num den da db : F) : F := lit 3 * num / den + da + db
/-- See `theta`. L:70-71, 94-95, 119-120, 178-179. -/
def scaleS (th da db : F) : F := fmax (abs th) (fmax (abs da) (abs db))

/-- First case of `dcstep` (higher value), L:70-84. -/
def stepf1 (v : Iv F) (fp dp : F) : F :=
  let th := theta (v.fx - fp) (v.stp - v.stx) v.dx dp
  let s := scaleS th v.dx dp
  let srec := lit 1 / s
  let g0 := s * sqrt (sqr (th * srec) - (v.dx * srec) * (dp * srec))
  let g := if lt v.stp v.stx then -g0 else g0
  let r := ((g - v.dx) + th) / (((g - v.dx) + g) + dp)
  let stpc := v.stx + r * (v.stp - v.stx)
  let stpq := v.stx + ((v.dx / ((v.fx - fp) / (v.stp - v.stx) + v.dx)) / lit 2) * (v.stp - v.stx)
  if lt (abs (stpc - v.stx)) (abs (stpq - v.stx)) then stpc else stpc + (stpq - stpc) / lit 2

/-- Second case of `dcstep` (derivatives of opposite sign), L:94-108. -/
def stepf2 (v : Iv F) (fp dp : F) : F :=
  let th := theta (v.fx - fp) (v.stp - v.stx) v.dx dp
  let s := scaleS th v.dx dp
  let srec := lit 1 / s
  let g0 := s * sqrt (sqr (th * srec) - (v.dx * srec) * (dp * srec))
  let g := if lt v.stx v.stp then -g0 else g0
  let r := ((g - dp) + th) / (((g - dp) + g) + v.dx)
  let stpc := v.stp + r * (v.stx - v.stp)
  let stpq := v.stp + (dp / (dp - v.dx)) * (v.stx - v.stp)
  if lt (abs (stpq - v.stp)) (abs (stpc - v.stp)) then stpc else stpq

/-- Third case of `dcstep` (smaller derivative of the same sign), L:119-168. -/
def stepf3 (v : Iv F) (fp dp stpmin stpmax : F) : F :=
  let th := theta (v.fx - fp) (v.stp - v.stx) v.dx dp
  let s := scaleS th v.dx dp
  let srec := lit 1 / s
  let g0 := s * sqrt (fmax zero (sqr (th * srec) - (v.dx * srec) * (dp * srec)))
  let g := if lt v.stx v.stp then -g0 else g0
  let r := ((g - dp) + th) / ((g + (v.dx - dp)) + g)
  let stpc := if lt r zero && !eq g zero then v.stp + r * (v.stx - v.stp)
    else if lt v.stx v.stp then stpmax else stpmin
  let stpq := v.stp + (dp / (dp - v.dx)) * (v.stx - v.stp)
  if v.brackt then
    let c := if lt (abs (stpc - v.stp)) (abs (stpq - v.stp)) then stpc else stpq
    if lt v.stx v.stp then fmin (v.stp + lit (66/100) * (v.sty - v.stp)) c
    else fmax (v.stp + lit (66/100) * (v.sty - v.stp)) c
  else
    let c := if lt (abs (stpq - v.stp)) (abs (stpc - v.stp)) then stpc else stpq
    fmax (fmin stpmax c) stpmin

/-- Fourth case of `dcstep`, L:176-194. -/
def stepf4 (v : Iv F) (fp dp stpmin stpmax : F) : F :=
  if v.brackt then
    let th := theta (fp - v.fy) (v.sty - v.stp) v.dy dp
    let s := scaleS th v.dy dp
    let srec := lit 1 / s
    let g0 := s * sqrt (sqr (th * srec) - (v.dy * srec) * (dp * srec))
    let g := if lt v.sty v.stp then -g0 else g0
    let r := ((g - dp) + th) / (((g - dp) + g) + v.dy)
    v.stp + r * (v.sty - v.stp)
  else if lt v.stx v.stp then stpmax else stpmin

/-- `sgnd`, L:61. -/
def sgnd (v : Iv F) (dp : F) : F := dp * sign v.dx

/-- The new trial step and the new bracketing flag, L:68-195. -/
def stepf (v : Iv F) (fp dp stpmin stpmax : F) : F × Bool :=
  if lt v.fx fp then (stepf1 v fp dp, true)
  else if lt (sgnd v dp) zero then (stepf2 v fp dp, true)
  else if lt (abs dp) (abs v.dx) then (stepf3 v fp dp stpmin stpmax, v.brackt)
  else (stepf4 v fp dp stpmin stpmax, v.brackt)

/-- `dcstep`, L:58-216. -/
def dcstep (v : Iv F) (fp dp stpmin stpmax : F) : Iv F :=
  let n := stepf v fp dp stpmin stpmax
  if lt v.fx fp then { v with sty := v.stp, fy := fp, dy := dp, stp := n.1, brackt := n.2 }
  else if lt (sgnd v dp) zero then
    { stx := v.stp, fx := fp, dx := dp, sty := v.stx, fy := v.fx, dy := v.dx, stp := n.1, brackt := n.2 }
  else { v with stx := v.stp, fx := fp, dx := dp, stp := n.1, brackt := n.2 }

/-- `cubicMin`, L:219-231 (the 2x2 product written out). -/
def cubicMin (a fa fpa b fb c fc : F) : F :=
  let db := b - a
  let dc := c - a
  let denom := sqr (db * dc) * (db - dc)
  let d00 := sqr dc
  let d01 := -sqr db
  let d10 := -d00 * dc
  let d11 := -d01 * db
  let v0 := fb - fa - fpa * db
  let v1 := fc - fa - fpa * dc
  let A := (d00 * v0 + d01 * v1) / denom
  let B := (d10 * v0 + d11 * v1) / denom
  let radical := sqr B - lit 3 * A * fpa
  a + (-B + sqrt radical) / (lit 3 * A)

/-- `quadMin`, L:233-237. -/
def quadMin (a fa fpa b fb : F) : F :=
  let db := b - a
  let B := (fb - fa - fpa * db) / sqr db
  a - lit (1/2) * fpa / B

/-- `Dcsrch::Status`, H:105. -/
inductive DStatus where
  | running | converged | warning
  deriving DecidableEq, Repr

/-- The class `Dcsrch`, H:135-173. -/
structure Dc (F : Type) where
  brackt : Bool
  status : DStatus
  stage : Nat
  xtol : F
  minS : F
  maxS : F
  step : F
  finit : F
  fx : F
  fy : F
  gtest : F
  gneg : F
  gx : F
  gy : F
  stx : F
  sty : F
  stmin : F
  stmax : F
  width : F
  width1 : F

/-- Constructor of `Dcsrch`, L:240-270, after the assertion L:266 (checked by the caller in this model). -/
def Dc.new (s0 e d minS maxS ftol xtol gtol : F) : Dc F :=
  { brackt := false, status := .running, stage := 0, xtol := xtol, minS := minS, maxS := maxS, step := s0,
    finit := e, fx := e, fy := e, gtest := ftol * d, gneg := -gtol * d, gx := d, gy := d,
    stx := zero, sty := zero, stmin := zero, stmax := s0 + lit 4 * s0, width := maxS - minS,
    width1 := (maxS - minS) * lit 2 }

/-- `ftest`, L:281. -/
def Dc.ftest (d : Dc F) : F := d.finit + d.step * d.gtest

/-- The stage after L:282-283. -/
def Dc.stage' (d : Dc F) (e g : F) : Nat :=
  if d.stage == 1 && le e d.ftest && le zero g then 2 else d.stage

/-- The four tests for warnings, L:288-305. -/
def Dc.warns (d : Dc F) (e g : F) : Bool :=
  (d.brackt && (le d.step d.stmin || le d.stmax d.step)) ||
  (d.brackt && le (d.stmax - d.stmin) (d.xtol * d.stmax)) ||
  (eq d.step d.maxS && le e d.ftest && le g d.gtest) ||
  (eq d.step d.minS && (lt d.ftest e || le d.gtest g))

/-- The test for convergence, L:307-319. -/
def Dc.conv (d : Dc F) (e g : F) : Bool := le e d.ftest && le (abs g) d.gneg

/-- The status after both tests, L:288-322: convergence overrides a warning. -/
def Dc.status' (d : Dc F) (e g : F) : DStatus :=
  if d.conv e g then .converged else if d.warns e g then .warning else d.status

/-- The interval after the call of `dcstep`, L:325-350. -/
def Dc.interval (d : Dc F) (stage : Nat) (e g : F) : Iv F :=
  if stage == 1 && le e d.fx && lt d.ftest e then
    let v := dcstep ⟨d.stx, d.fx - d.stx * d.gtest, d.gx - d.gtest, d.sty, d.fy - d.sty * d.gtest, d.gy - d.gtest,
      d.step, d.brackt⟩ (e - d.step * d.gtest) (g - d.gtest) d.stmin d.stmax
    { v with fx := v.fx + v.stx * d.gtest, fy := v.fy + v.sty * d.gtest, dx := v.dx + d.gtest, dy := v.dy + d.gtest }
  else dcstep ⟨d.stx, d.fx, d.gx, d.sty, d.fy, d.gy, d.step, d.brackt⟩ e g d.stmin d.stmax

/-- Bisection, L:352-360. -/
def Dc.bisect (d : Dc F) (v : Iv F) : F :=
  if v.brackt && le (lit (66/100) * d.width1) (abs (v.sty - v.stx)) then v.stx + lit (1/2) * (v.sty - v.stx) else v.stp

/-- The step forced into the bounds, or the best one, L:372-379. -/
def Dc.force (d : Dc F) (v : Iv F) (s : F) : F :=
  let c := fmin (fmax s d.minS) d.maxS
  if (v.brackt && (le c d.minS || le d.maxS c)) || (v.brackt && le (d.maxS - d.minS) (d.xtol * d.maxS)) then v.stx else c

/-- The search after the call of `dcstep`, L:337-380: `s` is the step length after L:357. -/
def Dc.advance (d : Dc F) (stage : Nat) (v : Iv F) (s : F) : Dc F :=
  { d with
    stage := stage
    stx := v.stx
    fx := v.fx
    gx := v.dx
    sty := v.sty
    fy := v.fy
    gy := v.dy
    brackt := v.brackt
    width1 := if v.brackt then d.width else d.width1
    width := if v.brackt then abs (v.sty - v.stx) else d.width
    stmin := if v.brackt then fmin v.stx v.sty else s + lit (11/10) * (s - v.stx)
    stmax := if v.brackt then fmax v.stx v.sty else s + lit 4 * (s - v.stx)
    step := d.force v s }

/-- `Dcsrch::updateStepLength`, L:272-384; the returned step length is the field `step`. -/
def Dc.update (d : Dc F) (e g : F) : Dc F :=
  if d.stage == 0 then { d with stage := 1 }
  else if d.status' e g ≠ .running then { d with stage := d.stage' e g, status := d.status' e g }
  else d.advance (d.stage' e g) (d.interval (d.stage' e g) e g) (d.bisect (d.interval (d.stage' e g) e g))

/-- `LineSearchOptions`, H:182-190. -/
structure Opt (F : Type) where
  c1 : F
  c2 : F
  maxStep : F
  minStep : F
  xtol : F
  initStep : F
  nWolfe1 : Nat
  nWolfe2 : Nat
  nZoom : Nat

/-- `LineSearchOptions::check`, L:406-416 (the counters are unsigned). -/
def Opt.check (o : Opt F) : Bool :=
  le zero o.c1 && le o.c1 o.c2 && le zero o.maxStep && le zero o.minStep && le zero o.xtol && lt zero o.initStep &&
  decide (0 < o.nWolfe1) && decide (0 < o.nWolfe2) && decide (0 < o.nZoom)

/-- The cost function (`CostFunctionInterface`) and the update of its design variables
(`utils::applyStateUpdate(dvs, ds * direction)`, util/utils.hpp:119-133); `dot` is the product of two row vectors. -/
structure Env (F X V : Type) where
  err : X → F
  grad : X → V
  upd : X → F → V → X
  dot : V → V → F

/-- The class `LineSearch`, H:335-368, with the design variables `x` it works on. The direction is absent
after `initialize` without one (a vector of size zero, L:481). -/
structure LS (F X V : Type) where
  x : X
  dir : Option V
  grad : V
  step : F
  err : F
  errOld : F
  derr : F
  errOut : Bool
  derrOut : Bool
  deriving DecidableEq

variable {X V : Type}

/-- `updateError`, L:523-531. -/
def updateError (E : Env F X V) (s : LS F X V) : LS F X V :=
  if s.errOut then { s with err := E.err s.x, errOut := false } else s

/-- `updateGradient`, L:533-536. -/
def updateGradient (E : Env F X V) (s : LS F X V) : LS F X V := { s with grad := E.grad s.x }

/-- `setSearchDirection`, L:486-496: an ascent direction throws, after everything has been set. -/
def setSearchDirection (E : Env F X V) (s : LS F X V) (d : V) : LS F X V × Res Unit :=
  let s1 := { s with step := zero, dir := some d, derr := E.dot s.grad d, derrOut := false }
  (s1, if le s1.derr zero then .ok () else .exc)

/-- `initialize`, L:459-483; the optional error and gradient are given by the caller. -/
def initialize' (E : Env F X V) (s : LS F X V) (d : Option V) (e : Option F) (g : Option V) (nan : F) : LS F X V × Res Unit :=
  let s1 := { s with step := zero, errOut := true, derrOut := true, errOld := nan }
  let s2 := match e with
    | some e => { s1 with err := e, errOut := false }
    | none => updateError E s1
  let s3 := match g with
    | some g => { s2 with grad := g }
    | none => updateGradient E s2
  match d with
  | some d => setSearchDirection E s3 d
  | none => ({ s3 with dir := none }, .ok ())

/-- `applyStateUpdate`, L:499-520. Without a direction the segments of a vector of size zero are read. -/
def applyStateUpdate (E : Env F X V) (s : LS F X V) (t : F) : LS F X V × Res Unit :=
  let ds := t - s.step
  let s1 := { s with step := t }
  if eq ds zero then (s1, .ok ())
  else match s.dir with
    | some d => ({ s1 with x := E.upd s.x ds d, errOut := true, derrOut := true }, .ok ())
    | none => (s1, .ub)

/-- `updateErrorDerivative`, L:538-546, with `computeErrorDerivative`, L:649-651 (a product of vectors of different
sizes without a direction). -/
def updateErrorDerivative (E : Env F X V) (s : LS F X V) : LS F X V × Res Unit :=
  if s.derrOut then
    match s.dir with
    | some d => ({ s with grad := E.grad s.x, derr := E.dot (E.grad s.x) d, derrOut := false }, .ok ())
    | none => ({ s with grad := E.grad s.x }, .ub)
  else (s, .ok ())

/-- `getError`, H:388-391. -/
def getError (s : LS F X V) : Res F := if s.errOut then .exc else .ok s.err
/-- `getErrorDerivative`, H:392-395. -/
def getErrorDerivative (s : LS F X V) : Res F := if s.derrOut then .exc else .ok s.derr

/-- Not code: a move followed by both updates with a direction `d`, see L:694-696 and L:596-597. -/
def moveTo (E : Env F X V) (d : V) (s : LS F X V) (t : F) : LS F X V :=
  let s1 := { s with step := t }
  if eq (t - s.step) zero then s1
  else { s1 with x := E.upd s.x (t - s.step) d, errOut := true, derrOut := true }

/-- Not code: `updateErrorDerivative` with a direction `d`. The code calls it at L:614, 696, 783; the function is L:538. -/
def derivAt (E : Env F X V) (d : V) (s : LS F X V) : LS F X V :=
  if s.derrOut then { s with grad := E.grad s.x, derr := E.dot (E.grad s.x) d, derrOut := false } else s

/-- The first trial step of `lineSearchWolfe1`, L:660-664, and of `lineSearchWolfe2` (with `cap` the initial instead of the
maximal step length), L:732-736. -/
def firstStep (o : Opt F) (cap : F) (s : LS F X V) : F :=
  if !isnan s.errOld && !eq s.derr zero then
    let t := fmin cap (lit (101/100) * lit 2 * (s.err - s.errOld) / s.derr)
    if lt t zero then o.initStep else t
  else o.initStep

/-- How the loop of `lineSearchWolfe1` ends. -/
inductive End1 where
  | success | warning | exhausted
  deriving DecidableEq, Repr

/-- The loop L:684-709. The argument is `nMaxIterWolfe1 - cnt`. Convergence in the last permitted pass counts as failure
(L:711-714). Within the loop both flags are up to date, so the getters do not throw. -/
def loop1 (E : Env F X V) (d : V) : Nat → LS F X V → Dc F → LS F X V × End1
  | 0, s, _ => (s, .exhausted)
  | n + 1, s, c =>
    let c' := c.update s.err s.derr
    match c'.status with
    | .running => loop1 E d n (derivAt E d (updateError E (moveTo E d s c'.step))) c'
    | .converged => (s, if n = 0 then .exhausted else .success)
    | .warning => (s, .warning)

/-- `lineSearchWolfe1` after the checks L:657-658, L:660-723. -/
def body1 (E : Env F X V) (o : Opt F) (d : V) (s : LS F X V) : LS F X V × Res Bool :=
  if !(le o.minStep (firstStep o o.maxStep s) && le (firstStep o o.maxStep s) o.maxStep) then ({ s with errOld := s.err }, .exc)
  else if eq s.derr zero then ({ s with errOld := s.err }, .ok true)
  else if !lt s.derr zero then ({ s with errOld := s.err }, .exc)
  else
    let r := loop1 E d o.nWolfe1 { s with errOld := s.err }
      (Dc.new (firstStep o o.maxStep s) s.err s.derr o.minStep o.maxStep o.c1 o.xtol o.c2)
    (r.1, .ok (r.2 == .success))

/-- `lineSearchWolfe1`, L:654-723. -/
def wolfe1 (E : Env F X V) (o : Opt F) (s : LS F X V) : LS F X V × Res Bool :=
  match s.errOut || isnan s.err || s.derrOut || isnan s.derr, s.dir with
  | true, _ => (s, .exc)
  | false, none => (s, .ub)
  | false, some d => body1 E o d s

/-- The arguments and local variables of `zoom`, L:548-554. -/
structure Zm (F : Type) where
  lo : F
  hi : F
  elo : F
  ehi : F
  dlo : F
  erec : F
  srec : F

/-- The trial step, L:562-592 (`first` = the first pass). -/
def trial (first : Bool) (z : Zm F) : F :=
  let dS := z.hi - z.lo
  let a := if lt dS zero then z.hi else z.lo
  let b := if lt dS zero then z.lo else z.hi
  let cchk := lit (2/10) * dS
  let qchk := lit (1/10) * dS
  let c := cubicMin z.lo z.elo z.dlo z.hi z.ehi z.srec z.erec
  if first || isnan c || lt (b - cchk) c || lt c (a + cchk) then
    let q := quadMin z.lo z.elo z.dlo z.hi z.ehi
    if isnan q || lt (b - qchk) q || lt q (a + qchk) then z.lo + lit (1/2) * dS else q
  else c

/-- The test L:603: the sufficient decrease condition (with the derivative at the lower end of the interval) fails. -/
def Zm.tooHigh (o : Opt F) (z : Zm F) (e0 t e : F) : Bool :=
  lt (e0 + o.c1 * t * z.dlo) e || le z.elo e

/-- The interval after a trial step that is too high, L:605-608. -/
def Zm.shrink (z : Zm F) (t e : F) : Zm F :=
  { z with erec := z.ehi, srec := z.hi, hi := t, ehi := e }

/-- The interval after a trial step with sufficient decrease but too steep, L:623-634. -/
def Zm.advance (z : Zm F) (t e d : F) : Zm F :=
  if le zero (d * (z.hi - z.lo)) then ⟨t, z.lo, e, z.elo, d, z.ehi, z.hi⟩
  else ⟨t, z.hi, e, z.ehi, d, z.elo, z.lo⟩

/-- `zoom`, L:548-647. The first argument is `nMaxIterZoom - i`; with `nMaxIterZoom = 0` (excluded by `check`) the C++ loop would
not end. -/
def zoom (E : Env F X V) (o : Opt F) (d : V) (e0 d0 : F) : Nat → Bool → LS F X V → Zm F → LS F X V × Bool
  | 0, _, s, _ => (s, false)
  | n + 1, first, s, z =>
    let t := trial first z
    let s1 := updateError E (moveTo E d s t)
    if z.tooHigh o e0 t s1.err then zoom E o d e0 d0 n false s1 (z.shrink t s1.err)
    else
      let s2 := derivAt E d s1
      if le (abs s2.derr) (-o.c2 * d0) then (s2, true)
      else zoom E o d e0 d0 n false s2 (z.advance t s1.err s2.derr)

/-- The local variables of the loop of `lineSearchWolfe2`, L:731-736, 754-761. -/
structure W2 (F : Type) where
  lo : F
  hi : F
  elo : F
  ehi : F
  dlo : F

/-- The loop L:765-814. The argument is `nMaxIterWolfe2 - i`. -/
def loop2 (E : Env F X V) (o : Opt F) (d : V) (e0 d0 : F) : Nat → Bool → LS F X V → W2 F → LS F X V × Bool
  | 0, _, s, _ => (s, false)
  | n + 1, first, s, w =>
    if eq w.hi zero then (s, false)
    else if lt (e0 + o.c1 * w.hi * d0) w.ehi || (le w.elo w.ehi && !first) then
      zoom E o d e0 d0 o.nZoom true s ⟨w.lo, w.hi, w.elo, w.ehi, w.dlo, e0, zero⟩
    else
      let s1 := derivAt E d s
      if le (abs s1.derr) (-o.c2 * d0) then (s1, true)
      else if le zero s1.derr then
        zoom E o d e0 d0 o.nZoom true s1 ⟨w.hi, w.lo, w.ehi, w.elo, s1.derr, e0, zero⟩
      else
        let s2 := updateError E (moveTo E d s1 (lit 2 * w.hi))
        loop2 E o d e0 d0 n false s2 ⟨w.hi, lit 2 * w.hi, w.ehi, s2.err, s1.derr⟩

/-- `lineSearchWolfe2` after the checks L:728-729, L:731-824. -/
def body2 (E : Env F X V) (o : Opt F) (d : V) (s : LS F X V) : LS F X V × Res Bool :=
  if eq s.derr zero then ({ s with errOld := s.err }, .ok true)
  else if eq (firstStep o o.initStep s) zero then ({ s with errOld := s.err }, .ok false)
  else
    let s2 := updateError E (moveTo E d { s with errOld := s.err } (firstStep o o.initStep s))
    let r := loop2 E o d s.err s.derr o.nWolfe2 true s2 ⟨zero, firstStep o o.initStep s, s.err, s2.err, s.derr⟩
    (r.1, .ok r.2)

/-- `lineSearchWolfe2`, L:725-824. -/
def wolfe2 (E : Env F X V) (o : Opt F) (s : LS F X V) : LS F X V × Res Bool :=
  match s.errOut || isnan s.err || s.derrOut || isnan s.derr, s.dir with
  | true, _ => (s, .exc)
  | false, none => (s, .ub)
  | false, some d => body2 E o d s

/-- The state after the fallback restored it, L:839-843: not restored are the gradient and the two flags. -/
def restore (s s1 : LS F X V) : LS F X V :=
  { s1 with errOld := s.errOld, err := s.err, derr := s.derr, step := zero, x := s.x }

/-- `lineSearchWolfe12`, L:826-849. Restoring the design variables is exact (C63 for vector-space variables). -/
def wolfe12 (E : Env F X V) (o : Opt F) (s : LS F X V) : LS F X V × Res Bool :=
  match wolfe1 E o s with
  | (s1, .ok false) => wolfe2 E o (restore s s1)
  | r => r

end Verif.LineSearch
