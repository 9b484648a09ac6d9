import Verif.Math.Range

/-!
# Model of `QuadraticCurve` and `CubicCurve` (include/motive/math/curve.h, src/motive/math/curve.cpp)

Idealisation: exact arithmetic in a linearly ordered field.  Root finding is in `Verif.Curve.Roots`.
-/

namespace Motive.Curve

variable {K : Type} [Field K] [LinearOrder K]

/-- `QuadraticCurve`: `c2 * x^2 + c1 * x + c0` (curve.h:91-102, 317). -/
structure Quad (K : Type) where
  c2 : K
  c1 : K
  c0 : K
deriving DecidableEq

namespace Quad

/-- `Evaluate` (curve.h:151-153). -/
def eval (q : Quad K) (x : K) : K := (q.c2 * x + q.c1) * x + q.c0
/-- `Derivative` (curve.h:157). -/
def deriv (q : Quad K) (x : K) : K := 2 * q.c2 * x + q.c1
/-- `SecondDerivative` (curve.h:161, 166). -/
def second (q : Quad K) : K := 2 * q.c2

/-- `Init(QuadraticInitWithStartDerivative)` (curve.cpp:31-40). -/
def initStartDerivative (startY startDerivative endY : K) : Quad K :=
  ⟨endY - startY - startDerivative, startDerivative, startY⟩
/-- `Init(QuadraticInitWithOrigin)` (curve.cpp:42-50). -/
def initOrigin (y derivative second : K) : Quad K := ⟨1 / 2 * second, derivative, y⟩
/-- `Init(QuadraticInitWithPoint)` (curve.cpp:52-64). -/
def initPoint (x yAtX derivativeAtX second : K) : Quad K :=
  let c2 := 1 / 2 * second
  let c1 := derivativeAtX - second * x
  ⟨c2, c1, yAtX - x * (c2 * x + c1)⟩

/-- `ShiftLeft` (curve.cpp:66-83). -/
def shiftLeft (q : Quad K) (s : K) : Quad K :=
  if s = 0 then q else ⟨q.c2, q.deriv s, q.eval s⟩
/-- `ShiftRight` (curve.h:137). -/
def shiftRight (q : Quad K) (s : K) : Quad K := q.shiftLeft (-s)
/-- `ShiftUp` (curve.h:140). -/
def shiftUp (q : Quad K) (y : K) : Quad K := ⟨q.c2, q.c1, q.c0 + y⟩
/-- `ScaleUp`, `ScaleInY` and the scaling constructor (curve.h:143-147, 291-293, 104-108). -/
def scaleUp (q : Quad K) (s : K) : Quad K := ⟨q.c2 * s, q.c1 * s, q.c0 * s⟩
/-- `ScaleInXByReciprocal` (curve.h:285-288). -/
def scaleInXByReciprocal (q : Quad K) (r : K) : Quad K := ⟨q.c2 * r * r, q.c1 * r, q.c0⟩
/-- `ScaleInX` (curve.h:278-280). -/
def scaleInX (q : Quad K) (s : K) : Quad K := q.scaleInXByReciprocal (1 / s)
/-- `operator+`, `operator+=` (curve.h:117-122, 320-324). -/
def add (a b : Quad K) : Quad K := ⟨a.c2 + b.c2, a.c1 + b.c1, a.c0 + b.c0⟩
/-- `operator-`, `operator-=` (curve.h:125-130, 326-330). -/
def sub (a b : Quad K) : Quad K := ⟨a.c2 - b.c2, a.c1 - b.c1, a.c0 - b.c0⟩
/-- `MaxCoeff` with `AbsCoeff` (curve.h:201-205, 297-300). -/
def maxCoeff (q : Quad K) : K := max (max |q.c2| |q.c1|) |q.c0|
/-- `Discriminant` (curve.h:209). -/
def discriminant (q : Quad K) : K := q.c1 * q.c1 - 4 * q.c2 * q.c0

end Quad

/-- `kEpsilonScale` = 2^-22 (curve.h:38-40). -/
def epsScale : K := 1 / 4194304

/-- `ClampNearZero` (float.h:111-114). -/
def clampNearZero (x eps : K) : K := if |x| ≤ eps then 0 else x

/-- `CubicInit` (curve.h:336-351). -/
structure CubicInit (K : Type) where
  startY : K
  startDerivative : K
  endY : K
  endDerivative : K
  widthX : K
deriving DecidableEq

/-- `CubicCurve`: `c3 * x^3 + c2 * x^2 + c1 * x + c0` (curve.h:356-365, 449). -/
structure Cubic (K : Type) where
  c3 : K
  c2 : K
  c1 : K
  c0 : K
deriving DecidableEq

namespace Cubic

/-- `Evaluate` (curve.h:389-392). -/
def eval (c : Cubic K) (x : K) : K := ((c.c3 * x + c.c2) * x + c.c1) * x + c.c0
/-- `Derivative` (curve.h:396-398). -/
def deriv (c : Cubic K) (x : K) : K := (3 * c.c3 * x + 2 * c.c2) * x + c.c1
/-- `SecondDerivative` (curve.h:402-404). -/
def second (c : Cubic K) (x : K) : K := 6 * c.c3 * x + 2 * c.c2
/-- `ThirdDerivative` (curve.h:410-413). -/
def third (c : Cubic K) : K := 6 * c.c3

/-- `Init(CubicInit)` (curve.cpp:285-317), including the special case for a width that is not positive. -/
def init (i : CubicInit K) : Cubic K :=
  let oneOverW := if 0 < i.widthX then 1 / i.widthX else 1
  let oneOverWSq := oneOverW * oneOverW
  let oneOverWCubed := oneOverWSq * oneOverW
  { c0 := i.startY
    c1 := if 0 < i.widthX then i.startDerivative else 0
    c2 := 3 * oneOverWSq * (i.endY - i.startY) - oneOverW * (i.endDerivative + 2 * i.startDerivative)
    c3 := 2 * oneOverWCubed * (i.startY - i.endY) + oneOverWSq * (i.endDerivative + i.startDerivative) }

/-- `ShiftLeft` (curve.cpp:319-338). -/
def shiftLeft (c : Cubic K) (s : K) : Cubic K :=
  if s = 0 then c else ⟨c.c3, c.second s * (1 / 2), c.deriv s, c.eval s⟩
/-- `ShiftRight` (curve.h:375). -/
def shiftRight (c : Cubic K) (s : K) : Cubic K := c.shiftLeft (-s)
/-- `ShiftUp` (curve.h:378). -/
def shiftUp (c : Cubic K) (y : K) : Cubic K := ⟨c.c3, c.c2, c.c1, c.c0 + y⟩
/-- `ScaleUp` (curve.h:381-385). -/
def scaleUp (c : Cubic K) (s : K) : Cubic K := ⟨c.c3 * s, c.c2 * s, c.c1 * s, c.c0 * s⟩

/-- `Epsilon` (curve.h:424-430). -/
def epsilon (c : Cubic K) : K := max (max (max |c.c3| |c.c2|) |c.c1|) |c.c0| * epsScale

/-- `UniformCurvature` (curve.cpp:340-350). -/
def uniformCurvature (c : Cubic K) (r : Math.Range K) : Bool :=
  0 ≤ clampNearZero (c.second r.start) c.epsilon * clampNearZero (c.second r.stop) c.epsilon

end Cubic
end Motive.Curve
