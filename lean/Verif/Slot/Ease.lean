import Verif.Curve.Ease
/-!
# One slot of the ease-in-ease-out processor (ease_in_ease_out_processor.cpp, ease_in_ease_out_data.h)

`data_[i]` and `values_[i]` of one dimension. How slots are laid out, moved and cleared is modelled in `Verif.Proc`.
Arithmetic is exact. `none` is a failed assert or undefined behaviour.
-/

namespace Motive.Slot

open Motive.Curve

noncomputable section

/-- `d.q`: a two-piece curve, or the flat line of infinite length it is replaced with on arrival
(ease_in_ease_out_processor.cpp:100-102). -/
inductive EaseQ where
  | curve (c : EaseCurve)
  | flat (v : ℝ)

namespace EaseQ

/-- `Evaluate`. -/
def eval : EaseQ → ℝ → ℝ
  | curve c, x => c.eval x
  | flat v, _ => v

/-- `Derivative`. -/
def deriv : EaseQ → ℝ → ℝ
  | curve c, x => c.deriv x
  | flat _, _ => 0

end EaseQ

/-- `EaseInEaseOutData` (ease_in_ease_out_data.h:24-54) with the slot's entry of `values_`. The shape is its three
numbers. -/
structure EaseSlot where
  /-- `q` -/
  q : EaseQ
  /-- `shape.typical_delta_value` -/
  typDelta : ℝ
  /-- `shape.typical_total_time` -/
  typTime : ℝ
  /-- `shape.bias` -/
  bias : ℝ
  /-- `q_start_time` -/
  qStart : ℝ
  /-- `target_time` -/
  targetTime : ℝ
  /-- `elapsed_time` -/
  elapsed : ℝ
  /-- `values_[i]` -/
  value : ℝ

namespace EaseSlot

/-- `EaseInEaseOutData(init, i)` (ease_in_ease_out_data.h:28-37): a straight line of length zero. -/
def fresh (start startD : ℝ) : EaseSlot :=
  ⟨.curve (EaseCurve.single (Quad.initOrigin start startD 0) 0), 0, 0, 0, 0, 0, 0, start⟩

/-- `SimpleVelocity` (ease_in_ease_out_processor.cpp:26-29). It is the derivative at the time since the target was set,
not at the time since the current curve began. -/
def velocity (s : EaseSlot) : ℝ := s.q.deriv s.elapsed

/-- `SimpleTargetValue` (ease_in_ease_out_processor.cpp:31-45). -/
def targetValue (s : EaseSlot) : ℝ := s.q.eval (max 0 (s.targetTime - s.qStart))

/-- `SimpleTargetVelocity` (ease_in_ease_out_processor.cpp:47-50). -/
def targetVelocity (s : EaseSlot) : ℝ := s.q.deriv (max 0 (s.targetTime - s.qStart))

/-- `SimpleDifference` (ease_in_ease_out_processor.cpp:52-54). -/
def difference (s : EaseSlot) : ℝ := s.targetValue - s.value

/-- A curve between two states, from the typical shape (ease_in_ease_out_processor.cpp:88-98, 120-130). -/
def between (start startD endV endD typDelta typTime bias : ℝ) : Option EaseCurve :=
  (Ease.typicalSecond typDelta typTime bias).bind fun se =>
    Ease.calculate start startD se.1 endV endD se.2 typDelta typTime

/-- What the slot's curve becomes when it has been used up (ease_in_ease_out_processor.cpp:80-104). -/
def nextQ (s : EaseSlot) (c : EaseCurve) : Option EaseQ :=
  if 1 / 1000000 < |c.deriv c.total| then
    (between (c.eval c.total) (c.deriv c.total) (c.eval c.total) 0 s.typDelta s.typTime s.bias).map EaseQ.curve
  else some (.flat (c.eval c.total))

/-- The body of the loop in `AdvanceFrame` (ease_in_ease_out_processor.cpp:69-106). -/
def advance (s : EaseSlot) (dt : ℝ) : Option EaseSlot :=
  let elapsed := s.elapsed + dt
  match s.q with
  | .flat v => some { s with elapsed := elapsed, value := v }
  | .curve c =>
    if c.total ≤ elapsed - s.qStart then
      (s.nextQ c).map fun q =>
        { s with q := q, qStart := s.qStart + c.total, elapsed := elapsed,
                 value := q.eval (elapsed - (s.qStart + c.total)) }
    else some { s with elapsed := elapsed, value := c.eval (elapsed - s.qStart) }

/-- The body of the loop in `SetTargetWithShape` (ease_in_ease_out_processor.cpp:116-135). -/
def setTarget (s : EaseSlot) (target targetD typDelta typTime bias : ℝ) : Option EaseSlot :=
  (between s.value s.velocity target targetD typDelta typTime bias).map fun c =>
    { s with q := .curve c, typDelta := typDelta, typTime := typTime, bias := bias, qStart := 0,
             targetTime := c.total, elapsed := 0 }

/-- Any number of frames. -/
def frames (s : EaseSlot) (dts : List ℝ) : Option EaseSlot := dts.foldlM advance s

end EaseSlot

end

end Motive.Slot
