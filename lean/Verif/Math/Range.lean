import Mathlib.Algebra.Order.Floor.Ring
import Mathlib.Algebra.Order.Field.Basic
import Mathlib.Algebra.Order.Group.Unbundled.Abs
import Mathlib.Algebra.Order.Group.MinMax

/-!
# Model of `RangeT` (include/motive/math/range.h)

Idealisation: the element type is a linearly ordered field with a floor function (`ℚ` and `ℝ` are
instances), so arithmetic is exact; rounding, overflow, infinities and NaN of `float` are not modelled.
Failed assertions and divisions by a zero length are `none`.
-/

namespace Motive.Math

/-- `RangeT` (range.h:36-54, members `start_`, `end_`). -/
structure Range (K : Type) where
  start : K
  stop : K
deriving DecidableEq

/-- `ModularDirection` (range.h:26-32). -/
inductive Direction where
  | closest | farthest | positive | negative | direct
deriving DecidableEq

variable {K : Type} [Field K] [LinearOrder K]

namespace Range

/-- `Valid` (range.h:57). -/
def valid (r : Range K) : Prop := r.start ≤ r.stop
instance (r : Range K) : Decidable r.valid := inferInstanceAs (Decidable (_ ≤ _))

/-- `Middle` (range.h:61). -/
def middle (r : Range K) : K := (r.start + r.stop) / 2

/-- `Length` (range.h:65). -/
def length (r : Range K) : K := r.stop - r.start

/-- `Clamp` (range.h:70) via `mathfu::Clamp(x, lo, hi) = max(lo, min(x, hi))`. -/
def clamp (r : Range K) (x : K) : K := max r.start (min x r.stop)

/-- `DistanceFrom` (range.h:82). -/
def distanceFrom (r : Range K) (x : K) : K := |x - r.clamp x|

/-- `Lerp` (range.h:87-89), `mathfu::Lerp(a, b, p) = (1-p)*a + p*b`. -/
def lerp (r : Range K) (p : K) : K := (1 - p) * r.start + p * r.stop

/-- `Percent` (range.h:93). -/
def percent (r : Range K) (x : K) : Option K :=
  if r.length = 0 then none else some ((x - r.start) / r.length)

/-- `PercentClamped` (range.h:97-99). -/
def percentClamped (r : Range K) (x : K) : Option K := (r.percent x).map fun p => max 0 (min p 1)

/-- `Contains` (range.h:229). -/
def contains (r : Range K) (x : K) : Prop := r.start ≤ x ∧ x ≤ r.stop

/-- `ContainsExcludingStart` (range.h:233-235). -/
def containsExclStart (r : Range K) (x : K) : Prop := r.start < x ∧ x ≤ r.stop
instance (r : Range K) (x : K) : Decidable (r.containsExclStart x) :=
  inferInstanceAs (Decidable (_ ∧ _))

/-- `ModularAdjustment` (range.h:175-179). -/
def modularAdjustment (r : Range K) (x : K) : K :=
  if x ≤ r.start then r.length else if r.stop < x then -r.length else 0

/-- `Normalize` (range.h:107-111) with its assertion. -/
def normalize (r : Range K) (x : K) : Option K :=
  let y := x + r.modularAdjustment x
  if r.containsExclStart y then some y else none

/-- `NormalizeWildValue` (range.h:155-169) with its assertion. -/
def normalizeWild [FloorRing K] (r : Range K) (x : K) : Option K :=
  if r.length = 0 then none
  else
    let close := x - (⌊(x - r.start) / r.length⌋ : K) * r.length
    let y := close + r.modularAdjustment close
    if r.containsExclStart y then some y else none

/-- The `do` loop of `NormalizeCloseValue` for values below (range.h:138-141); `num` is
`num_adjustments`, `kMaxAdjustments` is 4. -/
def closeBelow [FloorRing K] (r : Range K) (num : Nat) (x : K) : Option K :=
  if 4 < num then r.normalizeWild (x + r.length)
  else if x + r.length ≤ r.start then r.closeBelow (num + 1) (x + r.length)
  else some (x + r.length)
termination_by 5 - num

/-- The `do` loop of `NormalizeCloseValue` for values above (range.h:144-147). -/
def closeAbove [FloorRing K] (r : Range K) (num : Nat) (x : K) : Option K :=
  if 4 < num then r.normalizeWild (x - r.length)
  else if r.stop < x - r.length then r.closeAbove (num + 1) (x - r.length)
  else some (x - r.length)
termination_by 5 - num

/-- `NormalizeCloseValue` (range.h:123-150). -/
def normalizeClose [FloorRing K] (r : Range K) (x : K) : Option K :=
  if ¬ x ≤ r.start ∧ ¬ r.stop < x then some x
  else if x ≤ r.start then r.closeBelow 0 x
  else r.closeAbove 0 x

/-- `ModDiffClose` (range.h:184). -/
def modDiffClose (r : Range K) (a b : K) : Option K := r.normalize (b - a)

/-- `ModDiffFar` (range.h:187-191). -/
def modDiffFar (r : Range K) (a b : K) : Option K :=
  (r.modDiffClose a b).map fun close => if 0 ≤ close then close - r.length else close + r.length

/-- `ModDiffPositive` (range.h:195-199). -/
def modDiffPositive (r : Range K) (a b : K) : Option K :=
  (r.modDiffClose a b).map fun close => if 0 ≤ close then close else close + r.length

/-- `ModDiffNegative` (range.h:203-207). -/
def modDiffNegative (r : Range K) (a b : K) : Option K :=
  (r.modDiffClose a b).map fun close => if 0 ≤ close then close - r.length else close

/-- `ModDiff` (range.h:211-226). -/
def modDiff (r : Range K) (a b : K) : Direction → Option K
  | .closest => r.modDiffClose a b
  | .farthest => r.modDiffFar a b
  | .positive => r.modDiffPositive a b
  | .negative => r.modDiffNegative a b
  | .direct => some (b - a)

/-- `Invert` (range.h:254). -/
def invert (r : Range K) : Range K := ⟨r.stop, r.start⟩

/-- `Lengthen` (range.h:258-261). -/
def lengthen (r : Range K) (percent : K) : Range K :=
  ⟨r.start - r.length * percent * (1 / 2), r.stop + r.length * percent * (1 / 2)⟩

/-- `Include` (range.h:265-267). -/
def incl (r : Range K) (x : K) : Range K := ⟨min r.start x, max r.stop x⟩

/-- `Intersect` (range.h:288-306). -/
def intersect (a b : Range K) : Range K := ⟨max a.start b.start, min a.stop b.stop⟩

/-- `Union` (range.h:309-326). -/
def union (a b : Range K) : Range K := ⟨min a.start b.start, max a.stop b.stop⟩

/-- The loop of `ValuesInRange` (range.h:339-348): `vals` is the array, `i` the loop variable, `n` is
`num_returned`.  The array is updated in place, as in the code. -/
def valuesLoop (r : Range K) (eps : K) (vals : List K) (i n : Nat) : List K × Nat :=
  if h : i < vals.length then
    if |vals[i] - r.clamp vals[i]| ≤ eps then
      valuesLoop r eps (vals.set n (r.clamp vals[i])) (i + 1) (n + 1)
    else valuesLoop r eps vals (i + 1) n
  else (vals, n)
termination_by vals.length - i
decreasing_by
  · rw [List.length_set]; omega
  · omega

/-- `ValuesInRange` (range.h:336-350): the first `num_returned` elements of the array. -/
def valuesInRange (r : Range K) (eps : K) (vals : List K) : List K :=
  let p := valuesLoop r eps vals 0 0
  p.1.take p.2

/-- `IntersectRanges` (range.h:361-387): the lists of intersections and of gaps.  The two nested loops
append to output arrays. -/
def intersectRanges (as bs : List (Range K)) : List (Range K) × List (Range K) :=
  as.foldl (fun acc a => bs.foldl (fun acc b =>
    let i := a.intersect b
    if i.valid then (acc.1 ++ [i], acc.2) else (acc.1, acc.2 ++ [i.invert])) acc) ([], [])

/-- `IndexOfLongest` (range.h:401-412): loop with `longest_length`, `longest_index`. -/
def indexOfLongest (rs : List (Range K)) : Nat :=
  ((rs.zipIdx).foldl (fun (best : K × Nat) (x : Range K × Nat) =>
    if best.1 < x.1.length then (x.1.length, x.2) else best) (-1, 0)).2

/-- Loop body of `IndexOfShortest` (range.h:423-429); `none` is the initial infinity. -/
def shortestStep (best : Option K × Nat) (x : Range K × Nat) : Option K × Nat :=
  match best.1 with
  | none => (some x.1.length, x.2)
  | some l => if x.1.length < l then (some x.1.length, x.2) else best

/-- `IndexOfShortest` (range.h:420-431). -/
def indexOfShortest (rs : List (Range K)) : Nat := ((rs.zipIdx).foldl shortestStep (none, 0)).2

/-- Loop body of `ClampToClosest` (range.h:442-449); `none` is the initial infinity. -/
def closestStep (x : K) (best : Option K × K) (r : Range K) : Option K × K :=
  match best.1 with
  | none => (some |x - r.clamp x|, r.clamp x)
  | some d => if |x - r.clamp x| < d then (some |x - r.clamp x|, r.clamp x) else best

/-- `ClampToClosest` (range.h:439-451). -/
def clampToClosest (x : K) (rs : List (Range K)) : K := (rs.foldl (closestStep x) (none, x)).2

/-- `CoversLambda`/`Covers` (range.h:465-476) for a non-empty array.  The initial `Empty()` range is
`(+inf, -inf)`, whose `Include(x)` is `[x, x]`. -/
def covers : List K → Option (Range K)
  | [] => none
  | x :: xs => some (xs.foldl (fun r y => r.incl y) ⟨x, x⟩)

end Range
end Motive.Math
