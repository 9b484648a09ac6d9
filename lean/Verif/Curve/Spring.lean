import Verif.Curve.Model
import Verif.Math.Range
import Mathlib.Analysis.SpecialFunctions.Log.Base
import Mathlib.Analysis.Real.Sqrt
import Mathlib.Order.WithBot
/-!
# The quadratic spring (`QuadraticSpring`, curve_util.h:317-607, curve_util.cpp:365-633)

Arithmetic is exact (real numbers). `none` is a failed assert or a computation that leaves the finite floats.
-/

namespace Motive.Curve

noncomputable section

/-- `QuadraticSpring` (curve_util.h:573-600): `start_away_coeff_`, `start_peak_`, `start_x_`, `target_`, `bias_`, `r_`,
`sqrt_b_`, `log_sqrt_b_reciprocal_`. -/
structure Spring where
  /-- `start_away_coeff_` -/
  awayCoeff : ℝ
  /-- `start_peak_` -/
  peak : ℝ
  /-- `start_x_` -/
  startX : ℝ
  /-- `target_` -/
  target : ℝ
  /-- `bias_` -/
  bias : ℝ
  /-- `r_` -/
  r : ℝ
  /-- `sqrt_b_` -/
  sqrtB : ℝ
  /-- `log_sqrt_b_reciprocal_` -/
  logRecip : ℝ

/-- `QuadraticSpring::Context` (curve_util.h:324-372). The end of the valid range may be infinite. -/
structure SpringCtx where
  /-- `coeff` -/
  coeff : ℝ
  /-- `peak` -/
  peak : ℝ
  /-- `peak_x` -/
  peakX : ℝ
  /-- `valid_x.start()` -/
  validStart : ℝ
  /-- `valid_x.end()` -/
  validEnd : WithTop ℝ

namespace Spring

/-- The bias the constructor uses (curve_util.cpp:494-498). -/
def clampBias (bias : ℝ) : ℝ :=
  if bias = 1 then 1 else if bias < 1 then min (1 - 5 / 100) bias else max (1 + 5 / 100) bias

/-- The constructor (curve_util.cpp:489-534). `none` when a divisor is zero or a square root is taken of a negative
number. When the bias is 1, `1 / log(sqrt_b)` is a division by zero whose result is never used; here it is 0. -/
def make (current currentD target typDelta typX bias : ℝ) : Option Spring :=
  let b := clampBias bias
  if typX = 0 ∨ typDelta ≤ 0 ∨ b ≤ 0 then none
  else
    let delta := target - current
    let towardCoeff := typDelta / (typX * typX)
    let awayCoeff := towardCoeff / b
    let absCoeff := if 0 ≤ delta * currentD then towardCoeff else awayCoeff
    let coeff := if delta < 0 then -absCoeff else absCoeff
    let peakX := 1 / 2 * currentD / coeff
    let peak := -(delta + coeff * peakX * peakX)
    let sqrtB := Real.sqrt b
    let d := Real.sqrt (|peak| / awayCoeff)
    some {
      awayCoeff := if delta < 0 then -awayCoeff else awayCoeff
      peak := peak
      startX := peakX
      target := target
      bias := b
      r := if b = 1 then 2 * d else d * (1 + b) / (sqrtB - b)
      sqrtB := sqrtB
      logRecip := 1 / Real.log sqrtB }

/-- `ToInternalX` (curve_util.h:569). -/
def internal (s : Spring) (x : ℝ) : ℝ := x + s.startX

/-- `ToExternalX` (curve_util.h:570). -/
def external (s : Spring) (x : ℝ) : ℝ := x - s.startX

/-- `swap_signs ? -v : v` with `swap_signs = n % 2 != 0` (curve_util.cpp:576, 606, 615-616). -/
def signed (n : Int) (v : ℝ) : ℝ := if n % 2 ≠ 0 then -v else v

/-- `CalculateContext` for a bias of 1 (curve_util.cpp:569-581). With `r_ = 0` the conversion of NaN to int is
undefined. -/
def contextOne (s : Spring) (x : ℝ) : Option SpringCtx :=
  if s.r = 0 then none
  else
    let it : Int := ⌊x / s.r + 1 / 2⌋
    let start := s.r * ((it : ℝ) - 1 / 2)
    some ⟨signed it s.awayCoeff, signed it s.peak, s.r * it, start, ((start + s.r : ℝ) : WithTop ℝ)⟩

/-- `CalculateContext` (curve_util.cpp:563-623), from the internal x. With `r_ = 0` the quotient `x / r_` is infinite or
NaN, so the "at end" test succeeds (for `x < 0` it would be `+infinity`, and the log fails: `none`). A `pow` with an
integral exponent is an integer power. -/
def contextAt (s : Spring) (x : ℝ) : Option SpringCtx :=
  if s.bias = 1 then s.contextOne x
  else if s.r = 0 then (if x < 0 then none else some ⟨0, 0, 0, x, ⊤⟩)
  else
    let inside := 1 - x / s.r
    if inside ≤ 1 / 100 then some ⟨0, 0, 0, x, ⊤⟩
    else
      let before : Int := ⌊Real.log inside * s.logRecip⌋
      let pow := s.sqrtB ^ before
      let xBefore := s.r * (1 - pow)
      let xAfter := s.r * (1 - pow * s.sqrtB)
      let xZero := xBefore + (xAfter - xBefore) * (1 / (1 + s.bias))
      if x < xZero then
        some ⟨signed before (s.awayCoeff * s.bias), signed before (s.peak * (pow * pow)), xBefore, xBefore,
          (xZero : WithTop ℝ)⟩
      else
        some ⟨signed (before + 1) s.awayCoeff, signed (before + 1) (s.peak * (pow * pow * s.bias)), xAfter, xZero,
          (xAfter : WithTop ℝ)⟩

/-- `CalculateContext` (curve_util.cpp:563-565). -/
def context (s : Spring) (x : ℝ) : Option SpringCtx := s.contextAt (s.internal x)

/-- `ValidX` (curve_util.h:563-567) with `ContainsWithTolerance` (range.h:244-249): within 1% of the length of the range.
When the range is infinite so is the tolerance. -/
def validX (s : Spring) (c : SpringCtx) (x : ℝ) : Prop :=
  match c.validEnd with
  | none => True
  | some hi =>
    let tolerance := (hi - c.validStart) * (1 / 100)
    c.validStart - tolerance ≤ s.internal x ∧ s.internal x ≤ hi + tolerance

open Classical in
/-- `EvaluateWithContext` (curve_util.h:511-516). -/
def evalWith (s : Spring) (c : SpringCtx) (x : ℝ) : Option ℝ :=
  if s.validX c x then
    some (s.target + c.peak + c.coeff * (s.internal x - c.peakX) * (s.internal x - c.peakX))
  else none

open Classical in
/-- `DerivativeWithContext` (curve_util.h:525-529). -/
def derivWith (s : Spring) (c : SpringCtx) (x : ℝ) : Option ℝ :=
  if s.validX c x then some (2 * c.coeff * (s.internal x - c.peakX)) else none

/-- `Evaluate` (curve_util.h:466-469). -/
def eval (s : Spring) (x : ℝ) : Option ℝ := (s.context x).bind fun c => s.evalWith c x

/-- `Derivative` (curve_util.h:481-484). -/
def deriv (s : Spring) (x : ℝ) : Option ℝ := (s.context x).bind fun c => s.derivWith c x

open Classical in
/-- The single step of `IncrementContextInternal` (curve_util.cpp:536-554), for a context with a finite end. `none` when
the width is NaN: a division by zero or the square root of a negative number. (A zero `bias_` divides zero by zero
too.) -/
def stepCtx (s : Spring) (c : SpringCtx) (stop : ℝ) : Option SpringCtx :=
  let nextIsToward := c.peakX = stop
  if ¬ nextIsToward ∧ s.bias = 0 then none
  else
    let coeff := if nextIsToward then c.coeff * s.bias else -c.coeff / s.bias
    let peak := if nextIsToward then c.peak else -c.peak * s.bias
    if coeff = 0 ∨ -peak / coeff < 0 then none
    else
      let stop' := stop + Real.sqrt (-peak / coeff)
      some ⟨coeff, if nextIsToward then c.peak else peak, if nextIsToward then c.peakX else stop', stop,
        (stop' : WithTop ℝ)⟩

open Classical in
/-- `IncrementContext` (curve_util.h:435-441) with `IncrementContextInternal` (curve_util.cpp:536-561), before the
assert. -/
def advanceCtx (s : Spring) (c : SpringCtx) (x : ℝ) : Option SpringCtx :=
  match c.validEnd with
  | none => some c
  | some stop =>
    if stop < s.internal x then
      (s.stepCtx c stop).bind fun n =>
        if n.validEnd < ((s.internal x : ℝ) : WithTop ℝ) then s.context (s.external (s.internal x)) else some n
    else some c

open Classical in
/-- `IncrementContext` (curve_util.h:435-441). After a NaN width the assert fails. -/
def increment (s : Spring) (c : SpringCtx) (x : ℝ) : Option SpringCtx :=
  (s.advanceCtx c x).bind fun c => if s.validX c x then some c else none

/-- The constructor from a value alone (curve_util.h:392-403): a constant, with every other member zero. -/
def const (v : ℝ) : Spring := ⟨0, 0, 0, v, 0, 0, 0, 0⟩

/-- The default `Context` (curve_util.h:325-326). -/
def noCtx : SpringCtx := ⟨0, 0, 0, 0, ((0 : ℝ) : WithTop ℝ)⟩

/-- `IterationX` (curve_util.cpp:625-633), for a whole number of iterations. -/
def iterationX (s : Spring) (n : Int) : ℝ :=
  if s.bias = 1 then s.r * n else s.external (s.r * (1 - s.sqrtB ^ n))

end Spring

end

end Motive.Curve
