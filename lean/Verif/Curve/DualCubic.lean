import Verif.Curve.Roots
import Mathlib.Analysis.SpecialFunctions.Log.Base

/-!
# Model of `CalculateDualCubicMidNode` (src/motive/math/dual_cubic.cpp)

Real arithmetic; the decimal constants are exact (0.1f is 1/10).  A failed assertion or a division by zero in
the root finder is `none`.
-/

namespace Motive.Curve.Dual

/-- `SplineControlNode` (dual_cubic.cpp:29-41). -/
structure Node where
  x : ℝ
  y : ℝ
  s : ℝ
  w : ℝ

/-- `mathfu::Lerp(a, b, p)`. -/
def lerp (a b p : ℝ) : ℝ := (1 - p) * a + p * b

/-- `CalculateValidMidRangeSplineForStart` (dual_cubic.cpp:45-60). -/
def startSpline (a b : Node) : Quad ℝ :=
  ⟨b.w - a.w, 4 * (b.s - a.s) - a.w - 2 * b.w, 6 * (b.y - a.y) - 2 * a.s - 4 * b.s + b.w⟩

/-- `CalculateValidMidRangeSplineForEnd` (dual_cubic.cpp:62-75). -/
def endSpline (a b : Node) : Quad ℝ :=
  ⟨-(b.w - a.w), -4 * (b.s - a.s) + 3 * b.w, -6 * (b.y - a.y) + 6 * b.s - 2 * b.w⟩

/-- `kZeroToOne` (dual_cubic.cpp:43). -/
def zeroToOne : Math.Range ℝ := ⟨0, 1⟩

/-- The choice at the end of `CalculateValidMidRange` (dual_cubic.cpp:95-110). -/
noncomputable def chooseRange (as bs : List (Math.Range ℝ)) : Math.Range ℝ :=
  let p := Math.Range.intersectRanges as bs
  if 0 < p.1.length then (p.1[Math.Range.indexOfLongest p.1]?).getD zeroToOne
  else if 0 < p.2.length then (p.2[Math.Range.indexOfShortest p.2]?).getD zeroToOne
  else zeroToOne

/-- `CalculateValidMidRange` (dual_cubic.cpp:77-111). -/
noncomputable def validMidRange (a b : Node) : Option (Math.Range ℝ) := do
  let sr ← (startSpline a b).rangesMatchingSign zeroToOne a.w
  let er ← (endSpline a b).rangesMatchingSign zeroToOne b.w
  some (chooseRange sr er)

/-- `CalculateMidPercent` (dual_cubic.cpp:113-130) with `kMinMidPercent`, `kMaxMidPercent` (23-24). -/
noncomputable def midPercent (a b : Node) : Option ℝ := do
  let r ← validMidRange a b
  some (max (1 / 10) (min (r.clamp (1 / 2)) (9 / 10)))

/-- `CalculateMidNode` (dual_cubic.cpp:132-162). -/
noncomputable def midNode (a b : Node) (k : ℝ) : Node :=
  let j := 1 - k
  let secondKSquared := k * k * a.w - j * j * b.w
  { x := lerp a.x b.x k
    y := lerp a.y b.y k + k * j * (-2 / 3 * (b.s - a.s) + 1 / 6 * lerp b.w a.w k)
    s := 3 * (b.y - a.y) - 2 * lerp b.s a.s k - 1 / 2 * secondKSquared
    w := 0 }

/-- `ExtremeSecondDerivativeForStart` (dual_cubic.cpp:165-175). -/
noncomputable def extremeStart (a b : Node) (k : ℝ) : ℝ :=
  (b.s - a.s) + (1 / k) * (3 * (b.y - a.y) - 2 * a.s - b.s)

/-- `ExtremeSecondDerivativeForEnd` (dual_cubic.cpp:178-188). -/
noncomputable def extremeEnd (a b : Node) (k : ℝ) : ℝ :=
  (1 / (k - 1)) * ((b.s - a.s) * k + 3 * (b.y - a.y) - 3 * b.s)

/-- `CalculateSteepness` (dual_cubic.cpp:204-207). -/
noncomputable def steepness (d : ℝ) : ℝ := if |d| ≤ 1 then 0 else Real.logb 2 |d|

/-- `ApproximateMidPercent` (dual_cubic.cpp:209-234): `(mid_percent, start_percent, end_percent)`. -/
noncomputable def approximateMidPercent (a b : Node) : ℝ × ℝ × ℝ :=
  let recip := 1 / max |b.y - a.y| (1 / 10)
  let s0 := steepness (a.s * recip)
  let s1 := steepness (b.s * recip)
  let extreme := min (|s0 - s1| / 4) 1
  if s1 ≤ s0 then (lerp (1 / 2) (1 / 10) extreme, extreme, 1 - extreme)
  else (lerp (1 / 2) (9 / 10) extreme, 1 - extreme, extreme)

/-- The two control nodes, with their second derivatives, that `CalculateDualCubicMidNode` works from
(dual_cubic.cpp:238-262). -/
noncomputable def controlNodes (i : CubicInit ℝ) : Node × Node :=
  let a : Node := ⟨0, i.startY, i.startDerivative * i.widthX, 0⟩
  let b : Node := ⟨1, i.endY, i.endDerivative * i.widthX, 0⟩
  let m := approximateMidPercent a b
  (⟨a.x, a.y, a.s, lerp 0 (extremeStart a b m.1) m.2.1⟩, ⟨b.x, b.y, b.s, lerp 0 (extremeEnd a b m.1) m.2.2⟩)

/-- `CalculateDualCubicMidNode` (dual_cubic.cpp:236-277): `(x, y, derivative)`. -/
noncomputable def dualCubicMidNode (i : CubicInit ℝ) : Option (ℝ × ℝ × ℝ) := do
  let n := controlNodes i
  let k ← midPercent n.1 n.2
  let m := midNode n.1 n.2 k
  some (m.x * i.widthX, m.y, m.s / i.widthX)

end Motive.Curve.Dual
