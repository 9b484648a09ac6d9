import Verif.Curve.Spring
/-!
# One slot of the spring processor (src/motive/processor/spring_processor.cpp, spring_data.h)

`data_[i]` and `values_[i]` of one dimension. How slots are laid out, moved and cleared is modelled in `Verif.Proc`.
Arithmetic is exact. `none` is a failed assert or undefined behaviour.
-/

namespace Motive.Slot

open Motive.Curve

noncomputable section

/-- `SpringData` (spring_data.h:28-48) with the slot's entry of `values_`. `target_time` is in `targetTime`. -/
structure SpringSlot where
  /-- `q` -/
  q : Spring
  /-- `c` -/
  c : SpringCtx
  /-- `elapsed_time` -/
  elapsed : ℝ
  /-- `target_time` -/
  targetTime : ℝ
  /-- `values_[i]` -/
  value : ℝ

namespace SpringSlot

/-- `SpringData(init, i)` (spring_data.h:31-34) and `values_[i] = start_values[i]` (simple_processor_template.h:84-89).
`IterationX(4)` of the constant curve is `0 * (1 - pow(0, 4)) - 0`. -/
def fresh (start : ℝ) : SpringSlot := ⟨Spring.const start, Spring.noCtx, 0, (Spring.const start).iterationX 4, start⟩

/-- `SimpleVelocity` (spring_processor.cpp:23-25). -/
def velocity (s : SpringSlot) : Option ℝ := s.q.derivWith s.c s.elapsed

/-- `SimpleTargetValue` (spring_processor.cpp:27-29). -/
def targetValue (s : SpringSlot) : ℝ := s.q.target

/-- `SimpleDifference` (spring_processor.cpp:36-38). -/
def difference (s : SpringSlot) : ℝ := s.targetValue - s.value

/-- The body of the loop in `AdvanceFrame` (spring_processor.cpp:54-61). -/
def advance (s : SpringSlot) (dt : ℝ) : Option SpringSlot :=
  let elapsed := s.elapsed + dt
  (s.q.increment s.c elapsed).bind fun c =>
    (s.q.evalWith c elapsed).bind fun v => some { s with c := c, elapsed := elapsed, value := v }

/-- The body of the loop in `SetTargetWithShape` (spring_processor.cpp:71-81). -/
def setTarget (s : SpringSlot) (target typDelta typTime bias : ℝ) : Option SpringSlot :=
  s.velocity.bind fun v =>
    (Spring.make s.value v target typDelta typTime bias).bind fun q =>
      (q.context 0).bind fun c => some { s with q := q, c := c, elapsed := 0 }

/-- Any number of frames. -/
def frames (s : SpringSlot) (dts : List ℝ) : Option SpringSlot := dts.foldlM advance s

end SpringSlot

end

end Motive.Slot
