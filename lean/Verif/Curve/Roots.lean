import Verif.Curve.Model
import Mathlib.Data.Int.Log
import Mathlib.Analysis.Real.Sqrt

/-!
# Model of the root finding of `QuadraticCurve` (src/motive/math/curve.cpp, include/motive/math/float.h)

Real numbers stand for `float`; the exponent helpers keep the float format's exponent range.
A division by zero, an infinite scale or a failed assertion is `none`.
-/

namespace Motive.Curve

/-- `ExponentAsInt` (float.h:60-64) on values: `floor(log2 |f|)`, -127 below the smallest normal number,
128 from 2^128 on.  `Verif.Math.FloatBits` proves this against the bit-level definition. -/
noncomputable def exponentAsInt (f : ℝ) : Int :=
  if |f| < 2 ^ (-126 : Int) then -127 else if |f| < 2 ^ (128 : Int) then Int.log 2 |f| else 128

/-- `ExponentFromInt` (float.h:71-75): the exponent field is `(i + 127) mod 256`; field 0 is the number 0,
field 255 is infinity, here `none`. -/
noncomputable def exponentFromInt (i : Int) : Option ℝ :=
  let e := (i + 127) % 256
  if e = 0 then some 0 else if e = 255 then none else some (2 ^ (e - 127))

/-- `ReciprocalExponent` (float.h:86-88). -/
noncomputable def reciprocalExponent (f : ℝ) : Option ℝ := exponentFromInt (-exponentAsInt f)
/-- `SqrtReciprocalExponent` (float.h:96-98); `/` truncates toward zero. -/
noncomputable def sqrtReciprocalExponent (f : ℝ) : Option ℝ := exponentFromInt ((-exponentAsInt f).tdiv 2)
/-- `MaxPowerOf2Scale` (float.h:102-105). -/
noncomputable def maxPowerOf2Scale (f : ℝ) (maxExponent : Int) : Option ℝ :=
  exponentFromInt (min 127 (maxExponent - exponentAsInt f))

/-- `kInvertablePowerOf2Range` (float.h:43-46, float.cpp:25-28). -/
noncomputable def invertableRange : Math.Range ℝ := ⟨2 ^ (-126 : Int), 2 ^ (126 : Int)⟩

namespace Quad

/-- `EpsilonOfCoefficients` (curve.h:189, 181-183). -/
noncomputable def epsilon (q : Quad ℝ) : ℝ := q.maxCoeff * epsScale

/-- `ReliableDiscriminant` (curve.cpp:85-91). -/
noncomputable def reliableDiscriminant (q : Quad ℝ) (eps : ℝ) : ℝ := clampNearZero q.discriminant eps

open Classical in
/-- `RootsWithoutNormalizing` (curve.cpp:187-218). -/
noncomputable def rootsWithoutNormalizing (q : Quad ℝ) : Option (List ℝ) :=
  let eps := q.epsilon
  if |q.c2| < eps then
    if |q.c1| < eps then some [] else if q.c1 = 0 then none else some [-q.c0 / q.c1]
  else
    let disc := q.reliableDiscriminant eps
    if disc < 0 then some []
    else if q.c2 = 0 then none
    else
      let divisor := (1 / q.c2) * (1 / 2)
      if disc = 0 then some [-q.c1 * divisor]
      else
        let rootMinus := (-q.c1 - Real.sqrt disc) * divisor
        let rootPlus := (-q.c1 + Real.sqrt disc) * divisor
        if rootMinus = rootPlus then none
        else some [min rootMinus rootPlus, max rootMinus rootPlus]

open Classical in
/-- `x_scale_reciprocal_unclamped` in `Roots` (curve.cpp:105-114).  A quotient over zero is infinite or NaN and
is not contained in the invertible range. -/
noncomputable def xScaleUnclamped (q : Quad ℝ) : Option ℝ :=
  let comparison := max |q.c1| |q.c0|
  if comparison = 0 then some 1
  else if ¬ invertableRange.contains (|q.c2| / comparison) then some 1
  else if |q.c0| ≤ |q.c1| then reciprocalExponent (|q.c2| / comparison)
  else sqrtReciprocalExponent (|q.c2| / comparison)

/-- `x_scale_reciprocal` in `Roots` (curve.cpp:116-127). -/
noncomputable def xScaleReciprocal (q : Quad ℝ) : Option ℝ := do
  let unclamped ← q.xScaleUnclamped
  let mx ← maxPowerOf2Scale |q.c1| 126
  some (min unclamped mx)

/-- `y_scale` in `Roots` (curve.cpp:162-167), from the quadratic already scaled in x. -/
noncomputable def yScale (x : Quad ℝ) : Option ℝ := do
  let unclamped ← reciprocalExponent (invertableRange.clamp |x.c2|)
  let m0 ← maxPowerOf2Scale |x.c0| 125
  let m1 ← maxPowerOf2Scale |x.c1| 125
  some (min (min m0 m1) unclamped)

/-- The quadratic whose roots `Roots` computes, and the factor it multiplies them by (curve.cpp:128-170). -/
noncomputable def normalized (q : Quad ℝ) : Option (Quad ℝ × ℝ) := do
  let xr ← q.xScaleReciprocal
  let x := q.scaleInXByReciprocal xr
  let ys ← x.yScale
  some (x.scaleUp ys, xr)

/-- `Roots` (curve.cpp:93-182). -/
noncomputable def roots (q : Quad ℝ) : Option (List ℝ) := do
  let n ← q.normalized
  let rs ← n.1.rootsWithoutNormalizing
  some (rs.map (· * n.2))

/-- `XsForValue` (curve.h:246-249). -/
noncomputable def xsForValue (q : Quad ℝ) (v : ℝ) : Option (List ℝ) := roots ⟨q.c2, q.c1, q.c0 - v⟩

/-- `RootsInRange` (curve.cpp:220-231). -/
noncomputable def rootsInRange (q : Quad ℝ) (r : Math.Range ℝ) : Option (List ℝ) := do
  let rs ← q.roots
  some (r.valuesInRange (r.length * epsScale) rs)

/-- The body of `RangesMatchingSign` after the roots are known (curve.cpp:236-269), with its assertion. -/
noncomputable def rangesForRoots (rs : List ℝ) (validAtStart validAtEnd : Bool) (lim : Math.Range ℝ) :
    Option (List (Math.Range ℝ)) :=
  match rs with
  | [] => if validAtStart ≠ validAtEnd then none
          else if validAtStart then some [lim] else some []
  | [r] => some [⟨if validAtStart then lim.start else r, if validAtEnd then lim.stop else r⟩]
  | [r0, r1] =>
      if validAtStart ≠ validAtEnd then none
      else if validAtStart then some [⟨lim.start, r0⟩, ⟨r1, lim.stop⟩] else some [⟨r0, r1⟩]
  | _ => none

open Classical in
/-- `RangesMatchingSign` (curve.cpp:233-270). -/
noncomputable def rangesMatchingSign (q : Quad ℝ) (lim : Math.Range ℝ) (sign : ℝ) :
    Option (List (Math.Range ℝ)) := do
  let rs ← q.rootsInRange lim
  rangesForRoots rs (decide (0 ≤ sign * q.eval lim.start)) (decide (0 ≤ sign * q.eval lim.stop)) lim

end Quad
end Motive.Curve
