import Verif.SplineProc.Target
import Mathlib.Tactic.Linarith
import Mathlib.Tactic.FieldSimp
import Mathlib.Tactic.Ring
import Mathlib.Tactic.NormNum

/-!
# The linear processor of the programmer's guide (C128)

Source: src/samples/linear_processor/linear_processor.cpp, described in docs/src/programmers_guide/processors.md.

One index of the processor.  Idealisation: values are elements of an ordered field; `target_time`, a `float` that only ever holds whole numbers, is an
integer.  How indices are handed out and moved is the base class (`Verif.Proc`), as for the other processors.
-/

namespace Motive.Slot.Linear

open Motive.Targets

set_option linter.unusedSectionVars false
variable {K : Type} [Field K] [LinearOrder K]

/-- `values_[i]` and `data_[i]` (linear_processor.cpp:156-165, 225-226). -/
structure LinearSlot (K : Type) where
  value : K
  target : K
  time : ℤ
deriving DecidableEq

/-- `InitializeIndices` and `RemoveIndices` (linear_processor.cpp:169-187), `Reset` (161-164). -/
def reset : LinearSlot K := ⟨0, 0, 0⟩

/-- The body of `AdvanceFrame` (linear_processor.cpp:58-75), `mathfu::Lerp(a, b, p) = (1-p)*a + p*b`. -/
def advance (d : LinearSlot K) (dt : ℤ) : LinearSlot K :=
  let value := if 0 < d.time then (1 - (dt : K) / (d.time : K)) * d.value + (dt : K) / (d.time : K) * d.target else d.target
  ⟨value, d.target, d.time - dt⟩

/-- A number of calls of `AdvanceFrame`. -/
def frames (d : LinearSlot K) (dts : List ℤ) : LinearSlot K := dts.foldl advance d

/-- `Velocities` (linear_processor.cpp:84-92). -/
def velocity (d : LinearSlot K) : K := if d.time ≤ 0 then 0 else (d.target - d.value) / (d.time : K)

/-- `Differences` (linear_processor.cpp:106-113). -/
def difference (d : LinearSlot K) : K := d.target - d.value

/-- `TargetTime` (linear_processor.cpp:114-122) of a motivator with these indices: the loop looks at the first index each time. -/
def targetTime (l : List (LinearSlot K)) : ℤ := l.foldl (fun greatest _ => max greatest (l.headD reset).time) (-2147483648)

/-- `SetTargets` (linear_processor.cpp:127-153) of one index; `Node(0)` asserts that there is one. -/
def setTarget (d : LinearSlot K) (t : Target K) : Option (LinearSlot K) :=
  match t.nodes with
  | [] => none
  | n0 :: rest =>
    if n0.time = 0 then
      match rest with
      | [] => some { d with value := n0.value }
      | n1 :: _ => some ⟨n0.value, n1.value, n1.time⟩
    else some { d with target := n0.value, time := n0.time }

variable [IsStrictOrderedRing K]

/-! ### Specification -/

/-- The point at time `t` of the straight line that leaves `v` at time 0 and arrives at `v1` at time `T`. -/
def onLine (v v1 : K) (T t : ℤ) : K := v + (v1 - v) * ((t : K) / (T : K))

theorem step {v v1 : K} {T s : ℤ} (hT : 0 < T) (hs : s < T) (dt : ℤ) :
    advance (⟨onLine v v1 T s, v1, T - s⟩ : LinearSlot K) dt = ⟨onLine v v1 T (s + dt), v1, T - (s + dt)⟩ := by
  have h1 : (T : K) ≠ 0 := by exact_mod_cast hT.ne'
  have h2 : ((T - s : ℤ) : K) ≠ 0 := by exact_mod_cast (show T - s ≠ 0 by omega)
  have h3 : (T : K) - s ≠ 0 := by simpa using h2
  simp only [advance, if_pos (show 0 < T - s by omega), onLine, LinearSlot.mk.injEq, true_and]
  refine ⟨?_, by omega⟩
  push_cast
  field_simp
  ring

theorem run {v v1 : K} {T : ℤ} (hT : 0 < T) : ∀ (dts : List ℤ) (s : ℤ), (∀ t ∈ dts, 0 ≤ t) → s + dts.sum ≤ T →
    frames (⟨onLine v v1 T s, v1, T - s⟩ : LinearSlot K) dts = ⟨onLine v v1 T (s + dts.sum), v1, T - (s + dts.sum)⟩
  | [], s, _, _ => by simp [frames]
  | dt :: dts, s, h0, hs => by
    have h1 : 0 ≤ dt := h0 dt (by simp)
    have h2 : 0 ≤ dts.sum := List.sum_nonneg fun t ht => h0 t (by simp [ht])
    have e : dt + dts.sum = (dt :: dts).sum := by simp
    have h3 := run (v := v) (v1 := v1) hT dts (s + dt) (fun t ht => h0 t (by simp [ht])) (by omega)
    rw [← e] at hs ⊢
    have hadv : advance (⟨onLine v v1 T s, v1, T - s⟩ : LinearSlot K) dt = ⟨onLine v v1 T (s + dt), v1, T - (s + dt)⟩ := by
      rcases lt_or_ge s T with h | h
      · exact step hT h dt
      · have hd : dt = 0 := by omega
        have hsT : s = T := by omega
        subst hd hsT
        have hK : (s : K) ≠ 0 := by exact_mod_cast hT.ne'
        simp only [advance, sub_self, lt_irrefl, if_false, LinearSlot.mk.injEq, add_zero, and_true]
        simp [onLine, hK]
    show dts.foldl advance (advance _ dt) = _
    rw [hadv]
    simpa [frames, add_assoc] using h3

theorem onLine_zero (v v1 : K) (T : ℤ) : onLine v v1 T 0 = v := by simp [onLine]

theorem onLine_end (v v1 : K) {T : ℤ} (hT : 0 < T) : onLine v v1 T T = v1 := by
  have hK : (T : K) ≠ 0 := by exact_mod_cast hT.ne'
  simp [onLine, hK]

/-- C128: whatever the motivator did before, after `CurrentToTarget1f(v, _, v1, _, T)` it moves on the straight line from `v` to `v1`: this is where it is
after any frames that together are no longer than `T`.  It says so too: its velocity is the slope of the line until it arrives, its target time is what is
left of `T`, its difference is what is left of the way.  If the frames are together as long as `T`, it has arrived.  The velocities in the targets are
ignored. -/
theorem C128_linear_partial (d : LinearSlot K) (v w v1 w1 : K) (T : ℤ) (dir : Motive.Math.Direction) (dts : List ℤ) (h0 : ∀ t ∈ dts, 0 ≤ t)
    (hT : 0 < T) (hs : dts.sum ≤ T) :
    ∃ t d', Target.currentToTarget v w v1 w1 T dir = some t ∧ setTarget d t = some d' ∧
      (frames d' dts).value = onLine v v1 T dts.sum ∧ (dts.sum = T → (frames d' dts).value = v1) ∧
      (dts.sum < T → velocity (frames d' dts) = (v1 - v) / (T : K)) ∧ (dts.sum = T → velocity (frames d' dts) = 0) ∧
      targetTime [frames d' dts] = T - dts.sum ∧
      difference (frames d' dts) = v1 - (frames d' dts).value := by
  have hsum : 0 ≤ dts.sum := List.sum_nonneg h0
  refine ⟨⟨[⟨v, w, 0, .closest⟩, ⟨v1, w1, T, dir⟩]⟩, ⟨v, v1, T⟩, ?_, ?_, ?_⟩
  · simp [Target.currentToTarget, Target.two, hT]
  · simp [setTarget]
  · have h := run (v := v) (v1 := v1) hT dts 0 h0 (by omega)
    rw [onLine_zero, sub_zero, zero_add] at h
    rw [h]
    have hK : (T : K) ≠ 0 := by exact_mod_cast hT.ne'
    refine ⟨rfl, fun e => by rw [e]; exact onLine_end _ _ hT, fun e => ?_, fun e => ?_, ?_, rfl⟩
    · have h2 : (T : K) - (dts.sum : ℤ) ≠ 0 := by
        have : ((T - dts.sum : ℤ) : K) ≠ 0 := by exact_mod_cast (show T - dts.sum ≠ 0 by omega)
        simpa using this
      simp only [velocity, if_neg (show ¬ T - dts.sum ≤ 0 by omega), onLine, Int.cast_sub]
      generalize ((dts.sum : ℤ) : K) = x at h2
      field_simp
      ring
    · simp [velocity, e]
    · simp only [targetTime, List.headD_cons, List.foldl_cons, List.foldl_nil]
      omega

/-- C128: the same with `Target1f(v1, _, T)`, which keeps the current value: the line starts at the current value. -/
theorem C128_linear_from_current_partial (d : LinearSlot K) (v1 w1 : K) (T : ℤ) (dir : Motive.Math.Direction) (dts : List ℤ) (h0 : ∀ t ∈ dts, 0 ≤ t)
    (hT : 0 < T) (hs : dts.sum ≤ T) :
    ∃ t d', Target.target v1 w1 T dir = some t ∧ setTarget d t = some d' ∧ d'.value = d.value ∧
      (frames d' dts).value = onLine d.value v1 T dts.sum ∧ (dts.sum = T → (frames d' dts).value = v1) := by
  refine ⟨⟨[⟨v1, w1, T, dir⟩]⟩, ⟨d.value, v1, T⟩, ?_, ?_, rfl, ?_⟩
  · simp [Target.target, Target.one, hT.le]
  · simp [setTarget, hT.ne']
  · have h := run (v := d.value) (v1 := v1) hT dts 0 h0 (by omega)
    rw [onLine_zero, sub_zero, zero_add] at h
    rw [h]
    exact ⟨rfl, fun e => by rw [e]; exact onLine_end _ _ hT⟩

/-- C128: once the target time is over, every frame leaves the motivator on its target. -/
theorem C128_rests (d : LinearSlot K) (h : d.time ≤ 0) (dt : ℤ) (dts : List ℤ) (h0 : ∀ t ∈ dt :: dts, 0 ≤ t) :
    (frames d (dt :: dts)).value = d.target := by
  induction dts generalizing d dt with
  | nil => simp [frames, advance, not_lt.2 h]
  | cons x xs ih =>
    have h1 : 0 ≤ dt := h0 dt (by simp)
    have := ih (advance d dt) (by simp only [advance]; omega) x (fun t ht => h0 t (by simp at ht ⊢; right; exact ht))
    simpa [frames, advance] using this

/-- C128 is false if the frames do not hit the target time: the frame in which the time runs out leaves the motivator beyond its target, further from the
start than the target is. -/
theorem C128_overshoots (v v1 : K) (hne : v ≠ v1) (T dt : ℤ) (hT : 0 < T) (dts : List ℤ) (h0 : ∀ t ∈ dts, 0 ≤ t) (hs : dts.sum < T)
    (hd : T < dts.sum + dt) :
    |(frames (⟨v, v1, T⟩ : LinearSlot K) (dts ++ [dt])).value - v| > |v1 - v| ∧
    0 < ((frames (⟨v, v1, T⟩ : LinearSlot K) (dts ++ [dt])).value - v1) * (v1 - v) := by
  have h := run (v := v) (v1 := v1) hT dts 0 h0 (by omega)
  rw [onLine_zero, sub_zero, zero_add] at h
  have e : (frames (⟨v, v1, T⟩ : LinearSlot K) (dts ++ [dt])).value = onLine v v1 T (dts.sum + dt) := by
    show ((dts ++ [dt]).foldl advance _).value = _
    rw [List.foldl_append]
    show (advance (frames _ dts) dt).value = _
    rw [h, step hT hs]
  have hTK : (0 : K) < T := by exact_mod_cast hT
  have hr : (1 : K) < ((dts.sum + dt : ℤ) : K) / (T : K) := by
    rw [lt_div_iff₀ hTK, one_mul]; exact_mod_cast hd
  have hpos : 0 < |v1 - v| := abs_pos.2 (sub_ne_zero.2 (Ne.symm hne))
  rw [e, onLine]
  generalize ((dts.sum + dt : ℤ) : K) / (T : K) = r at hr
  constructor
  · rw [add_sub_cancel_left, abs_mul, abs_of_pos (lt_trans one_pos hr)]
    exact lt_mul_of_one_lt_right hpos hr
  · have e2 : (v + (v1 - v) * r - v1) * (v1 - v) = (r - 1) * ((v1 - v) * (v1 - v)) := by ring
    rw [e2]
    exact mul_pos (by linarith) (by rw [← abs_mul_abs_self]; exact mul_pos hpos hpos)

/-- C128 is false of `Current1f`, which is documented to reset the target values to the new current values (target.h:232-233): the target stays what it
was, so a motivator that had arrived jumps back in the next frame, and one that was just initialised jumps to 0. -/
theorem C128_current_jumps_back (d : LinearSlot K) (h : d.time ≤ 0) (v w : K) (dt : ℤ) :
    ∃ d', setTarget d (Target.current v w) = some d' ∧ d'.value = v ∧ (advance d' dt).value = d.target ∧
      ∃ d0, setTarget (reset : LinearSlot K) (Target.current v w) = some d0 ∧ (advance d0 dt).value = 0 := by
  refine ⟨{ d with value := v }, by simp [setTarget, Target.current, Target.one], rfl, by simp [advance, not_lt.2 h],
    { (reset : LinearSlot K) with value := v }, by simp [setTarget, Target.current, Target.one], by simp [advance, reset]⟩

/-- C128 is false of the time left of several dimensions, documented as the time until the target is reached: it is the time left of the first
dimension, whatever the others are. -/
theorem C128_target_time_of_first (d : LinearSlot K) (l : List (LinearSlot K)) (h : -2147483648 ≤ d.time) : targetTime (d :: l) = d.time := by
  have aux : ∀ (l : List (LinearSlot K)) (g : ℤ), g ≤ d.time → l.foldl (fun greatest _ => max greatest d.time) g = if l = [] then g else d.time := by
    intro l
    induction l with
    | nil => intro g _; simp
    | cons x xs ih =>
      intro g hg
      simp only [List.foldl_cons, max_eq_right hg]
      rw [ih _ (le_refl _)]
      simp
  simp only [targetTime, List.headD_cons]
  rw [aux _ _ h]
  simp

/-- The example of the guide: from 10 to -5 in 100, one at a time; after 40 frames it is at 4.  With frames of 32 it is at -9.2 before it is at -5. -/
example : (frames (⟨10, -5, 100⟩ : LinearSlot ℚ) (List.replicate 40 1)).value = 4 ∧ (frames (⟨10, -5, 100⟩ : LinearSlot ℚ) (List.replicate 100 1)).value = -5 ∧
    (frames (⟨10, -5, 100⟩ : LinearSlot ℚ) [32, 32, 32, 32]).value = -46 / 5 ∧ (frames (⟨10, -5, 100⟩ : LinearSlot ℚ) [32, 32, 32, 32, 32]).value = -5 := by
  decide +kernel

end Motive.Slot.Linear
