import Verif.Curve.DualCubic
import Mathlib.Analysis.SpecialFunctions.Trigonometric.Arctan

/-!
# Model of `CompactSplineNode` and `CompactSpline`
(include/motive/math/compact_spline_node.h, include/motive/math/compact_spline.h,
src/motive/math/compact_spline.cpp)

Idealisation: `float` is `ℝ` and `tan`, `atan` are the real functions.  The quantised integers are exact.  A failed
assertion, an access outside the node array, a division by zero and a conversion of a real that does not fit the
integer type are `none`.
-/

namespace Motive.Splines
open Motive.Math Motive.Curve

noncomputable section

/-- C++ conversion from a floating point value to an integer: round toward zero. -/
def trunc (r : ℝ) : ℤ := if 0 ≤ r then ⌊r⌋ else ⌈r⌉

/-- `static_cast<int>(r)`, undefined when the result does not fit 32 bits. -/
def toInt (r : ℝ) : Option ℤ :=
  if -2147483648 ≤ trunc r ∧ trunc r ≤ 2147483647 then some (trunc r) else none

/-- `CompactSplineNode`: two unsigned and one signed 16-bit integers (compact_spline_node.h:55-64, 153-164). -/
structure Node where
  x : ℕ
  y : ℕ
  angle : ℤ
deriving DecidableEq

/-- `kAngleScale` (compact_spline.cpp:37-38): `-π / -32768`. -/
def angleScale : ℝ := Real.pi / 32768

/-- `X` (compact_spline_node.h:87-89). -/
def Node.X (n : Node) (g : ℝ) : ℝ := (n.x : ℝ) * g
/-- `Y` with `YPercent` (compact_spline_node.h:90, 150) and `kYScale` (compact_spline.cpp:36). -/
def Node.Y (n : Node) (r : Range ℝ) : ℝ := r.lerp ((n.y : ℝ) * (1 / 65535))
/-- `Derivative` with `Angle` (compact_spline_node.h:91, 151). -/
def Node.D (n : Node) : ℝ := Real.tan ((n.angle : ℝ) * angleScale)

/-- `QuantizeX` (compact_spline_node.h:109-111). -/
def quantizeX (x g : ℝ) : Option ℤ := if g = 0 then none else toInt (x / g + 1 / 2)

/-- `CompactX` (compact_spline_node.h:113-118) with its assertion. -/
def compactX (x g : ℝ) : Option ℕ :=
  (quantizeX x g).bind fun q => if 0 ≤ q ∧ q ≤ 65535 then some q.toNat else none

/-- `CompactY` (compact_spline_node.h:120-132) with its assertion. -/
def compactY (y : ℝ) (r : Range ℝ) : Option ℕ :=
  if r.start ≤ y ∧ y ≤ r.stop then
    if r.length = 0 then some 0
    else (r.percentClamped y).map fun p => (trunc (65535 * p)).toNat
  else none

/-- `CompactDerivative` (compact_spline_node.h:134-139).  The result always fits 16 bits
(`compactDerivative_range`). -/
def compactDerivative (d : ℝ) : ℤ := trunc (Real.arctan d / angleScale)

/-- The constructor of `CompactSplineNode` from real-world values (compact_spline_node.h:67-72). -/
def Node.make (x y d g : ℝ) (r : Range ℝ) : Option Node :=
  (compactX x g).bind fun qx => (compactY y r).map fun qy => ⟨qx, qy, compactDerivative d⟩

/-- `CompactSpline` (compact_spline.h:568-588).  `nodes` holds the first `num_nodes_` entries of `nodes_`; the
entries after that are never read. -/
structure Spline where
  yRange : Range ℝ
  g : ℝ
  nodes : List Node
  maxNodes : ℕ

/-- Special indices (compact_spline.h:29-36). -/
def kInvalid : ℕ := 65535
def kBefore : ℕ := 65534
def kAfter : ℕ := 65533

/-- `OutsideSpline` (compact_spline.h:39-41). -/
def outside (i : ℕ) : Bool := kAfter ≤ i

/-- `CompactSplineAddMethod` (compact_spline.h:43-47). -/
inductive AddMethod where
  | withoutModification | ensureWellBehaved
deriving DecidableEq

/-- `UncompressedNode` (compact_spline.h:55-59). -/
structure Uncompressed where
  x : ℝ
  y : ℝ
  derivative : ℝ

namespace Spline

/-- `Init` (compact_spline.h:114-118). -/
def init (s : Spline) (r : Range ℝ) (g : ℝ) : Spline := { s with yRange := r, g := g, nodes := [] }
/-- `CreateInPlace` (compact_spline.h:330-335) with the default constructor (81-82).  The y range of a default
constructed spline is the default `Range` (range.h:52, invalid). -/
def create (maxNodes : ℕ) : Spline := ⟨⟨1, 0⟩, 0, [], maxNodes⟩
/-- `Clear` (compact_spline.h:201). -/
def clear (s : Spline) : Spline := { s with nodes := [] }
/-- `Finalize` (compact_spline.h:196-198). -/
def finalize (s : Spline) : Spline := { s with maxNodes := s.nodes.length }
/-- `operator=` (compact_spline.h:87-94) with its assertion: `max_nodes_` stays that of the destination. -/
def assign (dst src : Spline) : Option Spline :=
  if src.nodes.length ≤ dst.maxNodes then some { src with maxNodes := dst.maxNodes } else none

/-- `WidthX` (compact_spline.h:548-551). -/
def widthX (s : Spline) (a b : Node) : ℝ := ((b.x : ℝ) - a.x) * s.g

/-- `CreateCubicInit(s, e)` (compact_spline.cpp:392-396). -/
def cubicInit (s : Spline) (a b : Node) : CubicInit ℝ :=
  ⟨a.Y s.yRange, a.D, b.Y s.yRange, b.D, s.widthX a b⟩

/-- `AddNodeVerbatim` (compact_spline.h:533-537) with its assertion. -/
def addVerbatim (s : Spline) (n : Node) : Option Spline :=
  if s.nodes.length < s.maxNodes then some { s with nodes := s.nodes ++ [n] } else none

/-- The removal of the middle one of three nodes at the same x in `AddNode` (compact_spline.cpp:136-144). -/
def dropMiddle (s : Spline) (n : Node) : Spline :=
  match s.nodes.reverse with
  | b :: a :: _ => if b.x = n.x ∧ b.x = a.x then { s with nodes := s.nodes.dropLast } else s
  | _ => s

/-- The insertion of the dual-cubic mid node in `AddNode` (compact_spline.cpp:150-172). -/
def addMiddle (s : Spline) (last n : Node) : Option Spline :=
  if (Cubic.init (s.cubicInit last n)).uniformCurvature ⟨0, s.widthX last n⟩ then some s
  else
    (Dual.dualCubicMidNode (s.cubicInit last n)).bind fun m =>
      (Node.make (last.X s.g + m.1) m.2.1 m.2.2 s.g s.yRange).bind fun mid =>
        if mid.x ≠ last.x ∧ mid.x ≠ n.x then s.addVerbatim mid else some s

/-- `AddNode` (compact_spline.cpp:122-177). -/
def addNode (s : Spline) (x y d : ℝ) (m : AddMethod) : Option Spline :=
  (Node.make x y d s.g s.yRange).bind fun n =>
    match s.nodes.getLast? with
    | none => s.addVerbatim n
    | some last =>
      if n.x < last.x then none
      else if last = n then some s
      else if last.x = n.x then (s.dropMiddle n).addVerbatim n
      else if m = .ensureWellBehaved then (s.addMiddle last n).bind fun s' => s'.addVerbatim n
      else s.addVerbatim n

/-- `AddUncompressedNodes` (compact_spline.cpp:179-185). -/
def addUncompressed (s : Spline) (ns : List Uncompressed) : Option Spline :=
  ns.foldlM (fun s n => s.addNode n.x n.y n.derivative .withoutModification) s

/-- `RecommendXGranularity` (compact_spline.cpp:399-401). -/
def recommendG (maxX : ℝ) : ℝ := if maxX ≤ 0 then 1 else maxX / 65535

/-- `InitFromNodes` (compact_spline.cpp:99-109).  Reading `nodes[num_nodes - 1]` of an empty array is `none`. -/
def initFromNodes (s : Spline) (ns : List Uncompressed) : Option Spline :=
  ns.getLast?.bind fun e =>
    (Range.covers (ns.map (·.y))).bind fun r => (s.init r (recommendG e.x)).addUncompressed ns

/-- `StartX`, `EndX`, `StartY`, `EndY` (compact_spline.h:252-257). -/
def startX (s : Spline) : Option ℝ := s.nodes.head?.map (·.X s.g)
def endX (s : Spline) : Option ℝ := s.nodes.getLast?.map (·.X s.g)
def startY (s : Spline) : Option ℝ := s.nodes.head?.map (·.Y s.yRange)
def endY (s : Spline) : Option ℝ := s.nodes.getLast?.map (·.Y s.yRange)
/-- `EndDerivative` (compact_spline.h:258). -/
def endD (s : Spline) : Option ℝ := s.nodes.getLast?.map (·.D)

/-- `NodeX` (compact_spline.cpp:187-196). -/
def nodeX (s : Spline) (i : ℕ) : Option ℝ :=
  if i = kAfter then s.endX else if i = kBefore then some 0 else (s.nodes[i]?).map (·.X s.g)
/-- `NodeY` (compact_spline.cpp:198-203). -/
def nodeY (s : Spline) (i : ℕ) : Option ℝ :=
  if i = kAfter then s.endY else if i = kBefore then s.startY else (s.nodes[i]?).map (·.Y s.yRange)

/-- `IndexContainsX` (compact_spline.cpp:342-346).  The spline is not empty where it is called. -/
def containsX (s : Spline) (q i : ℕ) : Bool :=
  match s.nodes[i]?, s.nodes[i + 1]? with
  | some a, some b => a.x ≤ q && q ≤ b.x
  | _, _ => false

/-- `std::upper_bound` with `CompareSplineNodeX` (compact_spline.cpp:348-351, 370-371): bisection of
`[first, first + len)`. -/
def upperBound (l : List Node) (q : ℕ) (first len : ℕ) : Option ℕ :=
  if len = 0 then some first
  else
    match l[first + len / 2]? with
    | none => none
    | some n =>
      if q < n.x then upperBound l q first (len / 2)
      else upperBound l q (first + len / 2 + 1) (len - len / 2 - 1)
termination_by len
decreasing_by all_goals omega

/-- `BinarySearchIndexForX` (compact_spline.cpp:353-377) with its assertion. -/
def binarySearch (s : Spline) (q : ℕ) : Option ℕ :=
  (upperBound s.nodes q 0 s.nodes.length).bind fun u =>
    if 1 ≤ u ∧ u - 1 < s.nodes.length - 1 then some (u - 1) else none

/-- The test of the guess in `IndexForX` (compact_spline.cpp:297-299). -/
def guessOk (s : Spline) (q i : ℕ) : Bool :=
  s.containsX q i &&
    match s.nodes[i]?, s.nodes[i + 1]? with
    | some a, some b => decide (0 < s.widthX a b)
    | _, _ => false

/-- The last part of `IndexForX` (compact_spline.cpp:293-307) with its assertion. -/
def searchIndex (s : Spline) (q guess : ℕ) : Option ℕ :=
  if s.guessOk q guess then some guess
  else (s.binarySearch q).bind fun i => if s.containsX q i then some i else none

/-- `IndexForX` (compact_spline.cpp:275-308). -/
def indexForX (s : Spline) (x : ℝ) (guess : ℕ) : Option ℕ :=
  (quantizeX x s.g).bind fun q =>
    s.nodes.head?.bind fun f =>
      s.nodes.getLast?.bind fun b =>
        if q < f.x then some kBefore
        else if q = b.x ∧ 2 ≤ s.nodes.length then some (s.nodes.length - 2)
        else if (b.x : ℤ) ≤ q then some kAfter
        else s.searchIndex q.toNat guess

/-- `IndexForXAllowingRepeat` (compact_spline.cpp:310-326): index and `final_x`. -/
def indexForXRepeat (s : Spline) (x : ℝ) (guess : ℕ) (rep : Bool) : Option (ℕ × ℝ) :=
  (s.indexForX x guess).bind fun i =>
    if ¬ rep ∨ i ≠ kAfter then some (i, x)
    else
      s.endX.bind fun e =>
        (Range.normalizeClose ⟨0, e⟩ x).bind fun rx => (s.indexForX rx 0).map fun ri => (ri, rx)

/-- `ClampIndex` (compact_spline.cpp:328-340): index and new value of `x`. -/
def clampIndex (s : Spline) (i : ℕ) (x : ℝ) : Option (ℕ × ℝ) :=
  if i = kBefore then s.startX.map fun x0 => (0, x0)
  else if i = kAfter then s.endX.map fun x1 => (s.nodes.length - 1, x1)
  else if i < s.nodes.length then some (i, x) else none

/-- `CreateCubicInit(index)` (compact_spline.cpp:379-390). -/
def cubicInitAt (s : Spline) (i : ℕ) : Option (CubicInit ℝ) :=
  if outside i then
    (if i = kBefore then s.nodes.head? else s.nodes.getLast?).map fun n =>
      ⟨n.Y s.yRange, 0, n.Y s.yRange, 0, 1⟩
  else
    (s.nodes[i]?).bind fun a => (s.nodes[i + 1]?).map fun b => s.cubicInit a b

/-- `RangeX(index)` (compact_spline.cpp:261-273): start and length of the range, the length of the last one being
infinite. -/
def rangeX (s : Spline) (i : ℕ) : Option (ℝ × WithTop ℝ) :=
  if i = kBefore then s.startX.map fun x0 => (0, ((x0 - 0 : ℝ) : WithTop ℝ))
  else if i = kAfter then s.endX.map fun x1 => (x1, ⊤)
  else (s.nodes[i]?).bind fun a => (s.nodes[i + 1]?).map fun b =>
    (a.X s.g, ((b.X s.g - a.X s.g : ℝ) : WithTop ℝ))

/-- `CurveValueType` (curve.h:26-31). -/
inductive ValueType where
  | value | derivative | second | third
deriving DecidableEq

/-- `CurveValue` (curve.h:460-476). -/
def curveValue (c : Cubic ℝ) (x : ℝ) : ValueType → ℝ
  | .value => c.eval x
  | .derivative => c.deriv x
  | .second => c.second x
  | .third => c.third

/-- `CalculatedSlowly` (compact_spline.cpp:205-221). -/
def calculate (s : Spline) (x : ℝ) (t : ValueType) : Option ℝ :=
  (s.indexForX x 0).bind fun i =>
    if i = kBefore then (if t = .value then s.startY else some 0)
    else if i = kAfter then (if t = .value then s.endY else some 0)
    else (s.cubicInitAt i).bind fun c => (s.nodeX i).map fun x0 => curveValue (Cubic.init c) (x - x0) t

end Spline
end
end Motive.Splines
