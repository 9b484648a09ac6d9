import Mathlib.Algebra.Order.Floor.Ring
import Mathlib.Algebra.Order.Field.Basic
import Mathlib.Analysis.SpecialFunctions.Complex.Arg

/-!
# Model of `Angle` (include/motive/math/angle.h, src/motive/math/angle.cpp)

Idealisation: exact arithmetic.  The arithmetic part is over any linearly ordered field with a floor, and
the constant `kPi` is a parameter `pi` (the theorems ask only `0 < pi`, so they hold for the real number π
and also for any rational approximation of it).  `kMinUniqueAngle` is the smallest float above `-pi`
(angle.h:60-75), so `kMinUniqueAngle <= a` is modelled as `-pi < a` and `a < kMinUniqueAngle` as `a ≤ -pi`.
The vector and matrix part is over the real numbers.  Failed assertions are `none`.
-/

namespace Motive.Math.Angle

section Arithmetic
variable {K : Type} [Field K] [LinearOrder K] (pi : K)

/-- `IsAngleInRange` / `IsValid` (angle.h:404-406, 313). -/
def Valid (a : K) : Prop := -pi < a ∧ a ≤ pi
instance (a : K) : Decidable (Valid pi a) := inferInstanceAs (Decidable (_ ∧ _))

/-- `Angle(float)` (angle.h:106) with its assertion. -/
def mk (a : K) : Option K := if Valid pi a then some a else none

/-- `ModWithinThreePi` (angle.h:432-440) with its two assertions. -/
def modWithinThreePi (angle : K) : Option K :=
  if -(3 * pi) < angle ∧ angle < 3 * pi then
    let above := if angle ≤ -pi then angle + 2 * pi else angle
    let below := if pi < above then above - 2 * pi else above
    if Valid pi below then some below else none
  else none

/-- `ModIfNegativePi` (angle.h:442-445). -/
def modIfNegativePi (angle : K) : K := if angle ≤ -pi then pi else angle

/-- `WrapAngle` (angle.h:322-328). -/
def wrapAngle [FloorRing K] (angle : K) : K :=
  let angle := angle - ((⌊angle / (2 * pi)⌋ : K) + 1) * (2 * pi)
  if angle ≤ -pi then angle + 2 * pi else angle

/-- `Abs` (angle.h:109). -/
def abs (a : K) : Option K := mk pi |a|
/-- `operator+=`, `operator+` (angle.h:117-120, 450-453). -/
def add (a b : K) : Option K := modWithinThreePi pi (a + b)
/-- `operator-=`, `operator-` (angle.h:123-126, 455-458). -/
def sub (a b : K) : Option K := modWithinThreePi pi (a - b)
/-- `operator*=`, `operator*` (angle.h:129-132, 460-463).  The result is stored without going through the checked constructor. -/
def mul [FloorRing K] (a r : K) : K := wrapAngle pi (a * r)
/-- `operator/=`, `operator/` (angle.h:135-138, 465-468). -/
def div [FloorRing K] (a r : K) : Option K := if r = 0 then none else some (wrapAngle pi (a / r))
/-- unary `operator-` (angle.h:141). -/
def neg (a : K) : Option K := mk pi (modIfNegativePi pi (-a))
/-- `FromWithinThreePi` (angle.h:336-338). -/
def fromWithinThreePi (a : K) : Option K := (modWithinThreePi pi a).bind (mk pi)
/-- `FromRadians` (angle.h:341-343). -/
def fromRadians [FloorRing K] (a : K) : Option K := mk pi (wrapAngle pi a)
/-- `FromDegrees` (angle.h:346-348), `kDegreesToRadians = pi/180`. -/
def fromDegrees [FloorRing K] (d : K) : Option K := fromRadians pi (d * (pi / 180))
/-- `ToDegrees` (angle.h:147). -/
def toDegrees (a : K) : K := 180 / pi * a

/-- `Clamp` (angle.h:494-508) with its assertion; `mathfu::Clamp(x, lo, hi) = max(lo, min(x, hi))`. -/
def clamp (a center maxDiff : K) : Option K :=
  if 0 ≤ maxDiff ∧ maxDiff ≤ pi then do
    let diff ← sub pi a center
    let diffClamped ← mk pi (max (-maxDiff) (min diff maxDiff))
    add pi center diffClamped
  else none

end Arithmetic

section Vectors

/-- `mathfu::vec3`. -/
structure Vec3 where
  x : ℝ
  y : ℝ
  z : ℝ

/-- Scalar multiple and sum of `mathfu::vec3`. -/
def Vec3.smul (s : ℝ) (v : Vec3) : Vec3 := ⟨s * v.x, s * v.y, s * v.z⟩
def Vec3.add (v w : Vec3) : Vec3 := ⟨v.x + w.x, v.y + w.y, v.z + w.z⟩
def Vec3.dot (v w : Vec3) : ℝ := v.x * w.x + v.y * w.y + v.z * w.z

/-- `mathfu::mat3`, stored by columns. -/
structure Mat3 where
  c0 : Vec3
  c1 : Vec3
  c2 : Vec3

/-- `mathfu::mat3` times `vec3`: the combination of the columns. -/
def Mat3.apply (m : Mat3) (v : Vec3) : Vec3 :=
  ((m.c0.smul v.x).add (m.c1.smul v.y)).add (m.c2.smul v.z)

/-- `AngleToVectorSystem` (angle.h:43-51). -/
inductive System where
  | XY | XZ | YZ | YX | ZX | ZY

/-- `ToVectorSystem` with `ToXYVector` … `ToZYVector` and `ToVector` (angle.h:151-258, 424-428). -/
noncomputable def toVector (s : System) (a : ℝ) : Vec3 :=
  match s with
  | .XY => ⟨Real.cos a, Real.sin a, 0⟩
  | .XZ => ⟨Real.cos a, 0, Real.sin a⟩
  | .YZ => ⟨0, Real.cos a, Real.sin a⟩
  | .YX => ⟨Real.sin a, Real.cos a, 0⟩
  | .ZX => ⟨Real.sin a, 0, Real.cos a⟩
  | .ZY => ⟨0, Real.sin a, Real.cos a⟩

/-- `atan2f(y, x)`: the argument of `x + iy`, in `(-π, π]` (idealised; negative zeros, for which `atan2f` can
return `-π`, do not exist here). -/
noncomputable def atan2 (y x : ℝ) : ℝ := Complex.arg ⟨x, y⟩

/-- `FromVectorSystem` with `FromXYVector` … `FromZYVector` (angle.h:352-400). -/
noncomputable def fromVector (s : System) (v : Vec3) : Option ℝ :=
  mk Real.pi (modIfNegativePi Real.pi (match s with
    | .XY => atan2 v.y v.x
    | .XZ => atan2 v.z v.x
    | .YZ => atan2 v.z v.y
    | .YX => atan2 v.x v.y
    | .ZX => atan2 v.x v.z
    | .ZY => atan2 v.y v.z))

/-- `ToXYRotationMatrix` (angle.h:276-280). -/
noncomputable def rotXY (a : ℝ) : Mat3 :=
  ⟨⟨Real.cos a, Real.sin a, 0⟩, ⟨-Real.sin a, Real.cos a, 0⟩, ⟨0, 0, 1⟩⟩
/-- `ToXZRotationMatrix` (angle.h:283-287). -/
noncomputable def rotXZ (a : ℝ) : Mat3 :=
  ⟨⟨Real.cos a, 0, Real.sin a⟩, ⟨0, 1, 0⟩, ⟨-Real.sin a, 0, Real.cos a⟩⟩
/-- `ToYZRotationMatrix` (angle.h:290-294). -/
noncomputable def rotYZ (a : ℝ) : Mat3 :=
  ⟨⟨1, 0, 0⟩, ⟨0, Real.cos a, Real.sin a⟩, ⟨0, -Real.sin a, Real.cos a⟩⟩

/-- `ToRotationMatrix` (angle.h:262-273, 297-309). -/
noncomputable def rotation (s : System) (a : ℝ) : Option Mat3 :=
  match s with
  | .XY => some (rotXY a)
  | .XZ => some (rotXZ a)
  | .YZ => some (rotYZ a)
  | .YX => (neg Real.pi a).map rotXY
  | .ZX => (neg Real.pi a).map rotXZ
  | .ZY => (neg Real.pi a).map rotYZ

/-- `VectorSystemUp` with `kUpVectors` (angle.cpp:20-35). -/
def up : System → Vec3
  | .XY => ⟨0, 0, 1⟩
  | .XZ => ⟨0, 1, 0⟩
  | .YZ => ⟨1, 0, 0⟩
  | .YX => ⟨0, 0, -1⟩
  | .ZX => ⟨0, -1, 0⟩
  | .ZY => ⟨-1, 0, 0⟩

/-- `LatitudeAndLongitudeToUnitSphere` (angle.cpp:37-53). -/
noncomputable def latLong (s : System) (lat long : ℝ) : Vec3 :=
  ((toVector s long).smul |(toVector .XY lat).x|).add ((up s).smul (toVector .XY lat).y)

end Vectors
end Motive.Math.Angle
