import Verif.Curve.Roots
import Mathlib.Order.WithBot
/-!
# Ease-in-ease-out curves (`src/motive/math/curve_util.cpp`, `include/motive/math/curve_util.h`)

Two quadratics laid end to end: an "in" piece that leaves the start value and an "out" piece that arrives at the end
value. Arithmetic is exact (real numbers); a failed assert, and a division by zero that is not given a meaning below,
is `none`. A second derivative that the code lets become the float infinity is `⊤`.
-/

namespace Motive.Curve

noncomputable section

/-- `QuadraticEaseInEaseOut` (curve_util.h:30-95): `in_`, `out_`, `intersection_x_`, `total_x_`. -/
structure EaseCurve where
  /-- `in_` -/
  inC : Quad ℝ
  /-- `out_` -/
  outC : Quad ℝ
  /-- `intersection_x_` -/
  inter : ℝ
  /-- `total_x_` -/
  total : ℝ

namespace EaseCurve

/-- The constructor that takes one curve (curve_util.h:38-41). -/
def single (c : Quad ℝ) (endX : ℝ) : EaseCurve := ⟨c, c, endX, endX⟩

/-- `Curve` (curve_util.h:77-79). -/
def curve (c : EaseCurve) (x : ℝ) : Quad ℝ := if x ≤ c.inter then c.inC else c.outC

/-- `Evaluate` (curve_util.h:47). -/
def eval (c : EaseCurve) (x : ℝ) : ℝ := (c.curve x).eval x

/-- `Derivative` (curve_util.h:50). -/
def deriv (c : EaseCurve) (x : ℝ) : ℝ := (c.curve x).deriv x

end EaseCurve

namespace Ease

/-- The quadratic (2) whose roots are the admissible shifts (curve_util.cpp:105-114). -/
def shiftQuad (f g : Quad ℝ) : Quad ℝ :=
  ⟨4 * g.c2 * f.c2, 4 * (g.c2 * (f.sub g).c1 - g.c1 * (f.sub g).c2),
    (f.sub g).c1 * (f.sub g).c1 - 4 * (f.sub g).c2 * (f.sub g).c0⟩

/-- `u`, the place where `f` touches `g` moved right by `s` (curve_util.cpp:122). -/
def touchX (f g : Quad ℝ) (s : ℝ) : ℝ := -((f.sub g).c1 + 2 * g.c2 * s) / (2 * (f.sub g).c2)

/-- The last part of `CalculateShiftForUniqueIntersection` (curve_util.cpp:118-143), for a chosen shift `s`: the sanity
check (an assert in debug builds) and the snapping of tiny intersections to zero. -/
def finishIntersection (f g : Quad ℝ) (typX s : ℝ) : Option (ℝ × ℝ) :=
  if (f.sub g).c2 = 0 then none
  else
    let u := touchX f g s
    let eps := typX * (1 / 10000)
    if |(⟨(f.sub g).c2, (f.sub g).c1 + 2 * g.c2 * s, (f.sub g).c0 - g.c2 * s * s + g.c1 * s⟩ : Quad ℝ).eval u| ≤ eps
    then some (if |u| < eps then 0 else u, s)
    else none

/-- `CalculateShiftForUniqueIntersection` (curve_util.cpp:68-144): `(intersection_x, shift_x)`. The caller asserts that
it does not return false, so no root is `none`. -/
def uniqueIntersection (f g : Quad ℝ) (typX : ℝ) : Option (ℝ × ℝ) :=
  (shiftQuad f g).roots.bind fun rs => rs.getLast?.bind fun s => finishIntersection f g typX s

/-- `CalculateSecondDerivativesFromTypicalCurve` (curve_util.cpp:146-240). The divisor `(1 - s) * x^2` is zero when
`bias` is 0 or 1 and the quotient is then the float infinity: `⊤`. -/
def typicalSecond (typDelta typX bias : ℝ) : Option (WithTop ℝ × WithTop ℝ) :=
  if ¬ (0 ≤ bias ∧ bias ≤ 1 ∧ 0 < typX ∧ 0 < typDelta) then none
  else
    let s := if 1 / 2 ≤ bias then bias else 1 - bias
    let bigger : WithTop ℝ := ((2 * typDelta / (s * (typX * typX)) : ℝ) : WithTop ℝ)
    let smaller : WithTop ℝ := if s = 1 then ⊤ else ((2 * typDelta / ((1 - s) * (typX * typX)) : ℝ) : WithTop ℝ)
    some (if 1 / 2 ≤ bias then (bigger, smaller) else (smaller, bigger))

/-- The choice of the end time of a fly-out among the roots (curve_util.cpp:254-258). -/
def pickEnd : List ℝ → Option ℝ
  | [] => none
  | [a] => if 0 ≤ a then some a else none
  | a :: b :: _ => if 0 ≤ a then some a else if 0 ≤ b then some b else none

/-- The curve of `CalculateQuadraticFlyOut` (curve_util.cpp:249-251). -/
def flyOutCurve (start endV startD second : ℝ) : Quad ℝ :=
  Quad.initOrigin start startD ((if start ≤ endV then 1 else -1) * second)

/-- `CalculateQuadraticFlyOut` (curve_util.cpp:245-260). -/
def flyOut (start endV startD second : ℝ) : Option EaseCurve :=
  ((flyOutCurve start endV startD second).xsForValue endV).bind fun xs =>
    (pickEnd xs).map fun e => EaseCurve.single (flyOutCurve start endV startD second) e

/-- The curve of `CalculateQuadraticFlyIn` before it is shifted (curve_util.cpp:267-269). -/
def flyInCurve (start endV endD second : ℝ) : Quad ℝ :=
  Quad.initOrigin endV endD ((if endV ≤ start then 1 else -1) * second)

/-- `CalculateQuadraticFlyIn` (curve_util.cpp:262-282). -/
def flyIn (start endV endD second : ℝ) : Option EaseCurve :=
  ((flyInCurve start endV endD second).xsForValue start).bind fun xs =>
    xs.head?.bind fun b =>
      if b ≤ 0 then some (EaseCurve.single ((flyInCurve start endV endD second).shiftRight (-b)) (-b)) else none

/-- `start_curvature` (curve_util.cpp:316-321). -/
def curvature (start startD endV typDelta : ℝ) : ℝ :=
  if |endV - start| ≤ epsScale * typDelta then (if startD < 0 then 1 else -1) else (if start ≤ endV then 1 else -1)

/-- `in_curve` (curve_util.cpp:335-337). -/
def inPiece (start startD s k : ℝ) : Quad ℝ := Quad.initOrigin start startD (k * s)

/-- `out_curve` before it is shifted (curve_util.cpp:338-339). -/
def outPiece (endV endD e k : ℝ) : Quad ℝ := Quad.initOrigin endV endD (-k * e)

/-- The part of `CalculateQuadraticEaseInEaseOut` with both second derivatives finite (curve_util.cpp:333-362). -/
def twoPiece (start startD s endV endD e k typX : ℝ) : Option EaseCurve :=
  (uniqueIntersection (inPiece start startD s k) (outPiece endV endD e k) typX).bind fun it =>
    if it.2 < it.1 ∨ it.1 < 0 then flyOut start endV startD (max s e)
    else some ⟨inPiece start startD s k, (outPiece endV endD e k).shiftRight it.2, it.1, it.2⟩

/-- `CalculateQuadraticEaseInEaseOut` (curve_util.cpp:287-363). Both second derivatives infinite, which
`typicalSecond` never produces, is `none`. -/
def calculate (start startD : ℝ) (s : WithTop ℝ) (endV endD : ℝ) (e : WithTop ℝ) (typDelta typX : ℝ) :
    Option EaseCurve :=
  if ¬ (0 < s ∧ 0 < e ∧ 0 < typDelta ∧ 0 < typX) then none
  else if |endV - start| ≤ epsScale * typDelta ∧ |endD - startD| ≤ epsScale * (typDelta / typX) then
    some (EaseCurve.single (Quad.initOrigin start startD 0) 0)
  else
    match s, e with
    | none, none => none
    | none, some e => flyIn start endV endD e
    | some s, none => flyOut start endV startD s
    | some s, some e => twoPiece start startD s endV endD e (curvature start startD endV typDelta) typX

end Ease

end

end Motive.Curve
