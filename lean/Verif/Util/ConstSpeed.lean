import Mathlib.Analysis.Normed.Module.Basic
import Mathlib.Tactic.Linarith
import Mathlib.Tactic.FieldSimp
import Mathlib.Tactic.Ring
/-!
# Model of include/motive/math/spline_util.h

Positions are vectors of any normed space over the reals; arithmetic is exact. Division by zero, an index out of range and non-termination
are `none`.
-/

namespace Motive.Util

noncomputable section

variable {E : Type} [NormedAddCommGroup E] [NormedSpace ℝ E]

/-- `NormalizeIdx` (spline_util.h:24-27). -/
def normalizeIdx (idx max : ℤ) (wraps : Bool) : ℤ :=
  if wraps then (if idx < 0 then idx + max else if idx ≥ max then idx - max else idx)
  else (if idx < 0 then 0 else if idx ≥ max then max - 1 else idx)

/-- `positions[i]`. -/
def at? (ps : List E) (i : ℤ) : Option E := if 0 ≤ i then ps[i.toNat]? else none

open Classical in
/-- The loop of `FindFartherIdx` (spline_util.h:39-44). -/
def findLoop (ps : List E) (wraps : Bool) (start : E) (delta : ℤ) (minDist : ℝ) (stop i : ℤ) : Option ℤ :=
  if i = stop then some stop
  else match at? ps i with
    | none => none
    | some p =>
      if ‖p - start‖ ≥ minDist then some i
      else findLoop ps wraps start delta minDist stop (normalizeIdx (i + delta) ps.length wraps)
partial_fixpoint

/-- `FindFartherIdx` (spline_util.h:29-46). -/
def findFartherIdx (ps : List E) (wraps : Bool) (startIdx delta : ℤ) (minDist : ℝ) : Option ℤ :=
  match at? ps startIdx with
  | none => none
  | some start =>
    findLoop ps wraps start delta minDist (normalizeIdx (startIdx + delta * ((ps.length : ℤ) / 2 - 1)) ps.length wraps)
      (normalizeIdx (startIdx + delta) ps.length wraps)

/-- The loop that adds up the distances (spline_util.h:97-100): `d` is `dist[i - 1]` and `p` is `positions[i - 1]`. -/
def dists (p : E) (d : ℝ) : List E → List ℝ
  | [] => []
  | q :: qs => (d + ‖q - p‖) :: dists q (d + ‖q - p‖) qs

open Classical in
/-- The body of the loop for the derivatives (spline_util.h:119-124). `Normalized` divides by the length; the inner `none` is a division by
zero, which gives a vector of NaNs. -/
def derivative (ps : List E) (wraps : Bool) (speed minDist : ℝ) (i : ℕ) : Option (Option E) :=
  match findFartherIdx ps wraps i (-1) minDist, findFartherIdx ps wraps i 1 minDist with
  | some prev, some next => match at? ps prev, at? ps next with
    | some a, some b => some (if ‖b - a‖ = 0 then none else some (speed • (‖b - a‖⁻¹ • (b - a))))
    | _, _ => none
  | _, _ => none

/-- The times and the derivatives; a derivative without a value is a vector of NaNs. -/
structure Curve (E : Type) where
  times : List ℝ
  derivatives : List (Option E)

/-- The loop for the derivatives (spline_util.h:118-125), from `i` on. -/
def collect {α : Type} (f : ℕ → Option α) : ℕ → ℕ → Option (List α)
  | 0, _ => some []
  | n + 1, i => match f i, collect f n (i + 1) with
    | some d, some ds => some (d :: ds)
    | _, _ => none

/-- The sum of the distances, `dist[num_positions - 1]` (spline_util.h:103). -/
def totalDist : List E → ℝ
  | [] => 0
  | p :: ps => (dists p 0 ps).getLastD 0

open Classical in
/-- `wraps` (spline_util.h:112-114). -/
def wrapsAround (ps : List E) (minDist : ℝ) : Bool :=
  match ps.head?, ps.getLast? with
  | some a, some b => decide (‖a - b‖ < minDist)
  | _, _ => false

open Classical in
/-- `CalculateConstSpeedCurveFromPositions` (spline_util.h:71-124). It fails if it divides by zero for the times or does not terminate. -/
def constSpeedCurve (ps : List E) (totalTime minDist : ℝ) : Option (Curve E) :=
  match ps with
  | [] => some ⟨[], []⟩
  | [_] => some ⟨[0], [some 0]⟩
  | p :: q :: qs =>
    if totalDist (p :: q :: qs) = 0 ∨ totalTime = 0 then none
    else match collect (derivative (p :: q :: qs) (wrapsAround (p :: q :: qs) minDist) (totalDist (p :: q :: qs) / totalTime) minDist)
        (p :: q :: qs).length 0 with
      | none => none
      | some ds => some ⟨(0 :: dists p 0 (q :: qs)).map fun d => totalTime / totalDist (p :: q :: qs) * d, ds⟩

end

end Motive.Util
