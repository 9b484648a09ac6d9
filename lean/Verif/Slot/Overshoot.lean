import Verif.Math.Range
/-!
# One slot of the overshoot processor (overshoot_processor.cpp, overshoot_data.h, overshoot_init.h)

`data_[i]` and `values_[i]` of one dimension. How slots are laid out, moved and cleared is modelled in `Verif.Proc`.
Arithmetic is exact, in any ordered field; times are integers. `none` is a failed assert, undefined behaviour or a loop
that does not end.
-/

namespace Motive.Slot

open Motive.Math

variable {K : Type} [Field K] [LinearOrder K]

/-- `OvershootInit` (overshoot_init.h:26-125). -/
structure OvershootInit (K : Type) where
  /-- `range_` -/
  range : Range K
  /-- `modular_` -/
  modular : Bool
  /-- `max_velocity_` -/
  maxVelocity : K
  /-- `max_delta_` -/
  maxDelta : K
  /-- `at_target_.max_difference` -/
  atDifference : K
  /-- `at_target_.max_velocity` -/
  atVelocity : K
  /-- `accel_per_difference_` -/
  accel : K
  /-- `wrong_direction_multiplier_` -/
  wrongMultiplier : K
  /-- `max_delta_time_` -/
  maxDt : ℤ
deriving DecidableEq

/-- `OvershootData` (overshoot_data.h:23-38) with the slot's entry of `values_`. -/
structure OvershootSlot (K : Type) where
  /-- `init` -/
  init : OvershootInit K
  /-- `velocity` -/
  velocity : K
  /-- `target_value` -/
  target : K
  /-- `values_[i]` -/
  value : K
deriving DecidableEq

/-- `mathfu::Clamp(x, lo, hi) = max(lo, min(x, hi))`. -/
def clampTo (x lo hi : K) : K := max lo (min x hi)

namespace OvershootInit

/-- `ClampVelocity` (overshoot_init.h:42-44). -/
def clampVelocity (i : OvershootInit K) (v : K) : K := clampTo v (-i.maxVelocity) i.maxVelocity

/-- `ClampDelta` (overshoot_init.h:49-51). -/
def clampDelta (i : OvershootInit K) (d : K) : K := clampTo d (-i.maxDelta) i.maxDelta

/-- `AtTarget` (overshoot_init.h:56-58) with `Settled1f::Settled` (util.h:65-67). -/
def atTarget (i : OvershootInit K) (dist v : K) : Prop := |dist| ≤ i.atDifference ∧ |v| ≤ i.atVelocity
instance (i : OvershootInit K) (dist v : K) : Decidable (i.atTarget dist v) := inferInstanceAs (Decidable (_ ∧ _))

/-- `Normalize` (overshoot_processor.cpp:188-190). -/
def normalize (i : OvershootInit K) (x : K) : Option K := if i.modular then i.range.normalize x else some x

end OvershootInit

namespace OvershootSlot

/-- `InitializeIndices` for one index (overshoot_processor.cpp:113-120, overshoot_data.h:24-28). -/
def fresh (i : OvershootInit K) : OvershootSlot K := ⟨i, 0, 0, 0⟩

/-- Acceleration in `CalculateVelocity` (overshoot_processor.cpp:160-164). -/
def acceleration (s : OvershootSlot K) (diff : K) : K :=
  diff * s.init.accel * (if s.velocity * diff < 0 then s.init.wrongMultiplier else 1)

/-- The end of `CalculateVelocity` (overshoot_processor.cpp:165-174), for a given difference to the target. -/
def velocityFor (s : OvershootSlot K) (dt : ℤ) (diff : K) : K :=
  let v := s.init.clampVelocity (s.velocity + dt * s.acceleration diff)
  if s.init.atTarget diff v then 0 else v

/-- `CalculateVelocity` (overshoot_processor.cpp:151-175). -/
def newVelocity (s : OvershootSlot K) (dt : ℤ) : Option K :=
  (s.init.normalize (s.target - s.value)).map (s.velocityFor dt)

/-- `CalculateValue` (overshoot_processor.cpp:177-186), after `velocity` has been updated. -/
def newValue (s : OvershootSlot K) (dt : ℤ) : Option K :=
  if s.velocity = 0 then some s.target
  else (s.init.normalize (s.value + s.init.clampDelta (dt * s.velocity))).map s.init.range.clamp

/-- The two assignments in the inner loop of `AdvanceFrame` (overshoot_processor.cpp:37-38). -/
def substep (s : OvershootSlot K) (dt : ℤ) : Option (OvershootSlot K) :=
  (s.newVelocity dt).bind fun v =>
    let s' := { s with velocity := v }
    (s'.newValue dt).map fun x => { s' with value := x }

/-- The inner loop of `AdvanceFrame` (overshoot_processor.cpp:34-41). `MotiveTime` is a 32 bit `int`. -/
def loop (timeRemaining : ℤ) (s : OvershootSlot K) : Option (OvershootSlot K) :=
  if 0 < timeRemaining then
    match s.substep (min timeRemaining s.init.maxDt) with
    | none => none
    | some s' =>
      if 2147483647 < timeRemaining - min timeRemaining s.init.maxDt then none
      else loop (timeRemaining - min timeRemaining s.init.maxDt) s'
  else some s
partial_fixpoint

/-- `AdvanceFrame(delta_time)` for one slot. -/
def advance (s : OvershootSlot K) (dt : ℤ) : Option (OvershootSlot K) := s.loop dt

/-- `MotiveNode1f` (target.h:59-80) as far as this processor uses it. -/
structure Node (K : Type) where
  value : K
  velocity : K
  time : ℤ

/-- One iteration of `SetTargets` (overshoot_processor.cpp:93-108); the target's nodes as a list. `Node(0)` asserts that
there is one. -/
def setTarget (s : OvershootSlot K) (nodes : List (Node K)) : Option (OvershootSlot K) :=
  match nodes with
  | [] => none
  | n0 :: rest =>
    if n0.time = 0 then
      let s' := { s with value := n0.value, velocity := n0.velocity }
      match rest with
      | [] => some s'
      | n1 :: _ => some { s' with target := n1.value }
    else some { s with target := n0.value }

/-- What one motivator's dimension goes through. -/
inductive Op (K : Type) where
  | frame (dt : ℤ)
  | setTarget (nodes : List (Node K))

/-- One call. -/
def apply (s : OvershootSlot K) : Op K → Option (OvershootSlot K)
  | .frame dt => s.advance dt
  | .setTarget nodes => s.setTarget nodes

/-- Any number of calls. -/
def run (s : OvershootSlot K) (ops : List (Op K)) : Option (OvershootSlot K) := ops.foldlM apply s

end OvershootSlot

/-- `Differences` (overshoot_processor.cpp:74-80) for one `i`: `data_[index + i]` but `values_[i]`. `data` is the
processor's whole array of slots. -/
def overshootDifference (data : List (OvershootSlot K)) (index i : ℕ) : Option K :=
  (data[index + i]?).bind fun d => (data[i]?).bind fun e => d.init.normalize (d.target - e.value)

end Motive.Slot
