import Verif.Slot.OvershootRound
import Verif.Slot.Twitch
import Verif.SplineProc.Twitch
/-!
# Configurations read from files (src/motive/io/flatbuffers.cpp:49-73, schemas/motive.fbs)

A table of a FlatBuffer is a structure; a table inside a table may be absent, and the accessor is then a null pointer; numbers that are absent have the
default of the schema, so they are fields here.
-/

namespace Motive.Slot
open Motive.Math Motive.Splines Motive.Targets

/-- `Settled1fParameters` (motive.fbs:18-26). -/
structure SettledParams (K : Type) where
  maxDifference : K
  maxVelocity : K

/-- `ModularParameters` (motive.fbs:28-41). -/
structure ModularParams (K : Type) where
  modular : Bool
  min : K
  max : K

/-- `OvershootParameters` (motive.fbs:50-82); `max_delta_time` is a `short`. -/
structure OvershootParams (K : Type) where
  base : Option (ModularParams K)
  maxVelocity : K
  maxDelta : K
  atTarget : Option (SettledParams K)
  accel : K
  wrongMultiplier : K
  maxDt : ℤ

/-- `SplineParameters` (motive.fbs:84-87). -/
structure SplineParams (K : Type) where
  base : Option (ModularParams K)

/-- `Settled1fFromFlatBuffers` (flatbuffers.cpp:69-73), on a `Settled1f` that holds anything. -/
def settledFrom {K : Type} (p : SettledParams K) (st : Settled1f K) : Settled1f K :=
  let st := { st with maxVelocity := p.maxVelocity }
  { st with maxDifference := p.maxDifference }

/-- `OvershootInitFromFlatBuffers` (flatbuffers.cpp:49-60), on an `OvershootInit` that holds anything. Following a null pointer is `none`. -/
def overshootFrom {K : Type} (p : OvershootParams K) (i : OvershootInit K) : Option (OvershootInit K) := do
  let b ← p.base
  let i := { i with modular := b.modular }
  let i := { i with range := ⟨b.min, b.max⟩ }
  let i := { i with maxVelocity := p.maxVelocity }
  let i := { i with maxDelta := p.maxDelta }
  let a ← p.atTarget
  let st := settledFrom a ⟨i.atDifference, i.atVelocity⟩
  let i := { i with atDifference := st.maxDifference, atVelocity := st.maxVelocity }
  let i := { i with accel := p.accel }
  let i := { i with wrongMultiplier := p.wrongMultiplier }
  let i := { i with maxDt := p.maxDt }
  pure i

/-- `SplineInitFromFlatBuffers` (flatbuffers.cpp:62-67): the range of the `SplineInit`. The default `Range` is invalid (range.h:52). -/
def splineRangeFrom (p : SplineParams ℝ) : Option (Range ℝ) := p.base.map fun b => if b.modular then ⟨b.min, b.max⟩ else ⟨1, 0⟩

/-! ### Specification -/

section overshoot
variable {K : Type} [Field K] [LinearOrder K] [IsStrictOrderedRing K]

/-- The table says what a motivator needs, without wrap-around, as the comments of the schema ask for. -/
structure OvershootParams.Clamps (p : OvershootParams K) (min max : K) : Prop where
  base : p.base = some ⟨false, min, max⟩
  ordered : min ≤ max
  atTarget : p.atTarget ≠ none
  maxVelocity : 0 ≤ p.maxVelocity
  maxDelta : 0 ≤ p.maxDelta
  maxDt : 0 < p.maxDt

/-- The same with wrap-around. -/
structure OvershootParams.Wraps (p : OvershootParams K) (max : K) : Prop where
  base : p.base = some ⟨true, -max, max⟩
  pos : 0 < max
  atTarget : p.atTarget ≠ none
  maxVelocity : 0 ≤ p.maxVelocity
  maxDelta : 0 ≤ p.maxDelta
  fits : p.maxDelta ≤ 2 * max
  maxDt : 0 < p.maxDt

/-! ### C116, overshoot motivators -/

omit [Field K] [LinearOrder K] [IsStrictOrderedRing K] in
/-- The result does not depend on what was in the `OvershootInit` before. -/
theorem overshootFrom_some {p : OvershootParams K} {b : ModularParams K} {a : SettledParams K} (hb : p.base = some b) (ha : p.atTarget = some a)
    (i : OvershootInit K) : overshootFrom p i =
      some ⟨⟨b.min, b.max⟩, b.modular, p.maxVelocity, p.maxDelta, a.maxDifference, a.maxVelocity, p.accel, p.wrongMultiplier, p.maxDt⟩ := by
  simp [overshootFrom, settledFrom, hb, ha]

/-- **C116**. A motivator that was initialised from a table with limits keeps them, whatever was in the `OvershootInit` before, and whatever targets inside
of the limits are set between frames: its value stays between `min` and `max`, and its speed below `max_velocity`. -/
theorem C116_overshoot_keeps_limits {p : OvershootParams K} {min max : K} (h : p.Clamps min max) (i : OvershootInit K) :
    ∃ i', overshootFrom p i = some i' ∧ ∀ s : OvershootSlot K, s.init = i' → min ≤ s.value → s.value ≤ max → min ≤ s.target → s.target ≤ max →
      |s.velocity| ≤ p.maxVelocity → ∀ ops : List (OvershootSlot.Op K), (∀ o ∈ ops, match o with
        | .frame dt => dt ≤ 2147483647
        | .setTarget nodes => nodes ≠ [] ∧ ∀ n ∈ nodes, (min ≤ n.value ∧ n.value ≤ max) ∧ |n.velocity| ≤ p.maxVelocity) →
      ∃ s', s.run ops = some s' ∧ min ≤ s'.value ∧ s'.value ≤ max ∧ |s'.velocity| ≤ p.maxVelocity := by
  obtain ⟨a, ha⟩ := Option.ne_none_iff_exists'.mp h.atTarget
  refine ⟨_, overshootFrom_some h.base ha i, ?_⟩
  intro s hs v1 v2 t1 t2 hv ops hops
  obtain ⟨s', e1, -, ⟨e2, e3⟩, -, e4⟩ := OvershootSlot.C33_respects_limits (s := s) (by
      rw [hs]; exact ⟨h.maxDt, h.maxVelocity, h.maxDelta, h.ordered, by simp⟩) (by rw [hs]; exact ⟨by simpa using v1, v2⟩)
    (by rw [hs]; exact ⟨by simpa using t1, t2⟩) (by rw [hs]; exact hv) ops (by
      intro o ho
      have := hops o ho
      cases o with
      | frame dt => exact this
      | setTarget nodes =>
        refine ⟨this.1, fun n hn => ?_⟩
        rw [hs]
        exact ⟨⟨by simpa using (this.2 n hn).1.1, (this.2 n hn).1.2⟩, (this.2 n hn).2⟩)
  rw [hs] at e2 e3 e4
  exact ⟨s', e1, by simpa using e2, e3, e4⟩

/-- **C116**. The same for a table with wrap-around from `max` to `-max`. -/
theorem C116_overshoot_wraps {p : OvershootParams K} {max : K} (h : p.Wraps max) (i : OvershootInit K) :
    ∃ i', overshootFrom p i = some i' ∧ ∀ s : OvershootSlot K, s.init = i' → -max < s.value → s.value ≤ max → -max < s.target → s.target ≤ max →
      |s.velocity| ≤ p.maxVelocity → ∀ ops : List (OvershootSlot.Op K), (∀ o ∈ ops, match o with
        | .frame dt => dt ≤ 2147483647
        | .setTarget nodes => nodes ≠ [] ∧ ∀ n ∈ nodes, (-max < n.value ∧ n.value ≤ max) ∧ |n.velocity| ≤ p.maxVelocity) →
      ∃ s', s.run ops = some s' ∧ -max < s'.value ∧ s'.value ≤ max ∧ |s'.velocity| ≤ p.maxVelocity := by
  obtain ⟨a, ha⟩ := Option.ne_none_iff_exists'.mp h.atTarget
  have hp := h.pos
  have hf := h.fits
  refine ⟨_, overshootFrom_some h.base ha i, ?_⟩
  intro s hs v1 v2 t1 t2 hv ops hops
  obtain ⟨s', e1, -, ⟨e2, e3⟩, -, e4⟩ := OvershootSlot.C33_respects_limits (s := s) (by
      rw [hs]
      exact ⟨h.maxDt, h.maxVelocity, h.maxDelta, by show -max ≤ max; linarith,
        fun _ => ⟨by show -max < max; linarith, by show -max ≤ 0; linarith, by show 0 ≤ max; linarith, by show p.maxDelta ≤ max - -max; linarith⟩⟩)
    (by rw [hs]; exact ⟨by simpa using v1, v2⟩)
    (by rw [hs]; exact ⟨by simpa using t1, t2⟩) (by rw [hs]; exact hv) ops (by
      intro o ho
      have := hops o ho
      cases o with
      | frame dt => exact this
      | setTarget nodes =>
        refine ⟨this.1, fun n hn => ?_⟩
        rw [hs]
        exact ⟨⟨by simpa using (this.2 n hn).1.1, (this.2 n hn).1.2⟩, (this.2 n hn).2⟩)
  rw [hs] at e2 e3 e4
  exact ⟨s', e1, by simpa using e2, e3, e4⟩

/-- **C116**. The numbers of the table are the numbers of the motivator: if they are well tuned, in the sense of C103, it settles, and `max_difference`,
`max_velocity` of `at_target`, the acceleration and its multiplier are used for what they are called. -/
theorem C116_overshoot_settles [Archimedean K] {p : OvershootParams K} {min max T : K} (h : p.Clamps min max) {a : SettledParams K} (ha : p.atTarget = some a)
    (hT1 : min < T) (hT2 : T < max) (h1 : 0 < p.maxVelocity) (h2 : p.maxVelocity * p.maxDt ≤ p.maxDelta) (h3 : 0 < a.maxDifference) (h4 : 0 < a.maxVelocity)
    (h5 : 0 < p.accel) (h6 : 2 ≤ p.wrongMultiplier) (h7 : 31 * (p.accel * p.maxDt ^ 2) ≤ 1) (h8 : 7 * (p.accel * p.wrongMultiplier * p.maxDt ^ 2) ≤ 1)
    (i : OvershootInit K) :
    ∃ i', overshootFrom p i = some i' ∧ ∃ N : ℕ, ∀ s : OvershootSlot K, s.init = i' → s.target = T → ∀ ts : List ℤ, (∀ t ∈ ts, t ≤ 2147483647) →
      N ≤ (ts.filter (fun t => decide (0 < t))).length → s.run (ts.map OvershootSlot.Op.frame) = some { s with value := T, velocity := 0 } := by
  refine ⟨_, overshootFrom_some h.base ha i, ?_⟩
  exact OvershootSlot.C103_settles ⟨⟨h.maxDt, h1, h2, h3, h4, h5, h6, h7, h8⟩, rfl, hT1, hT2⟩

/-- **C116**. What each number of a table without wrap-around does in a frame of at most `max_delta_time`: the motivator accelerates by
`acceleration_per_difference` times the distance, and `wrong_direction_acceleration_multiplier` times that if it moves away from its target; the velocity is
limited by `max_velocity`; within the thresholds of `at_target` it stops at its target; otherwise it moves, by at most `max_delta`, and not beyond the limits. -/
theorem C116_overshoot_frame {p : OvershootParams K} {min max : K} (h : p.Clamps min max) {a : SettledParams K} (ha : p.atTarget = some a) (i : OvershootInit K) :
    ∃ i', overshootFrom p i = some i' ∧ ∀ s : OvershootSlot K, s.init = i' → ∀ dt : ℤ, 0 < dt → dt ≤ p.maxDt → dt ≤ 2147483647 →
      ∃ diff v, diff = s.target - s.value ∧
        v = Max.max (-p.maxVelocity) (Min.min (s.velocity + dt * (diff * p.accel * if s.velocity * diff < 0 then p.wrongMultiplier else 1)) p.maxVelocity) ∧
        (((|diff| ≤ a.maxDifference ∧ |v| ≤ a.maxVelocity) ∨ v = 0) → s.advance dt = some { s with value := s.target, velocity := 0 }) ∧
        (¬ ((|diff| ≤ a.maxDifference ∧ |v| ≤ a.maxVelocity) ∨ v = 0) → s.advance dt =
          some { s with value := Max.max min (Min.min (s.value + Max.max (-p.maxDelta) (Min.min (dt * v) p.maxDelta)) max), velocity := v }) := by
  refine ⟨_, overshootFrom_some h.base ha i, fun s hs dt h1 h2 h3 => ⟨_, _, rfl, rfl, ?_⟩⟩
  have hadv : s.advance dt = s.substep dt := by
    rw [OvershootSlot.C34_steps (by rw [hs]; exact h.maxDt) h1.le h3, OvershootSlot.stepsOf_small h1 (by rw [hs]; exact h2), List.foldlM_cons]
    cases s.substep dt <;> rfl
  have hd : s.init.normalize (s.target - s.value) = some (s.target - s.value) := by simp [OvershootInit.normalize, hs]
  have hvf : s.velocityFor dt (s.target - s.value) = if |s.target - s.value| ≤ a.maxDifference ∧ |Max.max (-p.maxVelocity) (Min.min (s.velocity + dt *
      ((s.target - s.value) * p.accel * if s.velocity * (s.target - s.value) < 0 then p.wrongMultiplier else 1)) p.maxVelocity)| ≤ a.maxVelocity then 0 else
      Max.max (-p.maxVelocity) (Min.min (s.velocity + dt * ((s.target - s.value) * p.accel * if s.velocity * (s.target - s.value) < 0 then p.wrongMultiplier
        else 1)) p.maxVelocity) := by
    simp only [OvershootSlot.velocityFor, OvershootSlot.acceleration, OvershootInit.clampVelocity, OvershootInit.atTarget, clampTo, hs]
  generalize Max.max (-p.maxVelocity) (Min.min (s.velocity + dt * ((s.target - s.value) * p.accel * if s.velocity * (s.target - s.value) < 0 then
    p.wrongMultiplier else 1)) p.maxVelocity) = v at hvf ⊢
  constructor
  · intro hc
    have hz : s.velocityFor dt (s.target - s.value) = 0 := by
      rw [hvf]
      split_ifs with hq
      · rfl
      · exact hc.resolve_left hq
    rw [hadv, OvershootSlot.substep_of (x := s.target) hd (by unfold OvershootSlot.newValue; rw [if_pos hz]), hz]
  · intro hc
    push Not at hc
    have hz : s.velocityFor dt (s.target - s.value) = v := by
      rw [hvf, if_neg (fun hq => absurd hq.2 (not_le.mpr (hc.1 hq.1)))]
    rw [hadv, OvershootSlot.substep_of hd (by
      unfold OvershootSlot.newValue
      rw [if_neg (by rw [hz]; exact hc.2)]
      simp only [OvershootInit.normalize, hs, Bool.false_eq_true, if_false, Option.map_some, hz]
      rfl), hz]
    rfl

omit [IsStrictOrderedRing K] in
/-- **C116**. `Settled1fFromFlatBuffers`, for `Twitch`: see C104. -/
theorem C116_settled (p : SettledParams K) (st : Settled1f K) (dist velocity : K) :
    (settledFrom p st).settled dist velocity ↔ |dist| ≤ p.maxDifference ∧ |velocity| ≤ p.maxVelocity := by
  simp [settledFrom, Settled1f.settled]

omit [Field K] [LinearOrder K] [IsStrictOrderedRing K] in
/-- **C116** fails for tables that leave out a table: a null pointer is followed. All fields of a table are optional (motive.fbs). -/
theorem C116_missing_table_fails {p : OvershootParams K} (h : p.base = none ∨ p.atTarget = none) (i : OvershootInit K) : overshootFrom p i = none := by
  rcases h with h | h
  · simp [overshootFrom, h]
  · cases hb : p.base <;> simp [overshootFrom, h, hb]

/-- **C116** fails for a `max_delta_time` that is not positive: nothing rejects it, and the first frame does not return. -/
theorem C116_hangs {p : OvershootParams K} (hb : p.base ≠ none) (ha : p.atTarget ≠ none) (hd : p.maxDt ≤ 0) (i : OvershootInit K) :
    ∃ i', overshootFrom p i = some i' ∧ ∀ s : OvershootSlot K, s.init = i' → ∀ t : ℤ, 0 < t → s.advance t = none := by
  obtain ⟨b, hb⟩ := Option.ne_none_iff_exists'.mp hb
  obtain ⟨a, ha⟩ := Option.ne_none_iff_exists'.mp ha
  refine ⟨_, overshootFrom_some hb ha i, fun s hs t ht => ?_⟩
  exact (OvershootSlot.C34_hangs_without_max_delta_time (by rw [hs]; exact hd) ht).1

end overshoot

/-! ### C116, spline motivators -/

noncomputable section

/-- **C116**. A spline motivator that was initialised from a table without wrap-around goes exactly where it is told (`Follows`, C41). So does one
whose table asks for wrap-around with `max` below `min`. -/
theorem C116_spline_goes_straight {p : SplineParams ℝ} {b : ModularParams ℝ} (hb : p.base = some b) (hm : b.modular = false ∨ b.max < b.min) :
    ∃ r, splineRangeFrom p = some r ∧ ∀ {h : Heap} {id : ℕ} {c : Splines.Slot} {loc : Spline} {t : Target ℝ} {e : ℤ} {ns : List (MNode ℝ)} {v0 d0 : ℝ},
      c.modRange = r → h id = some loc → t.numNodes + 1 ≤ loc.maxNodes → t.WF → Spaced t → t.endTime = some e → Ahead c t ns → Initial c t v0 d0 →
      ∃ h' c' q, setTarget h c id t = some (h', c') ∧ Follows h' c' e q v0 d0 ns (ns.map (·.value)) := by
  refine ⟨_, by rw [splineRangeFrom, hb]; rfl, ?_⟩
  intro h id c loc t e ns v0 d0 hc hloc hcap hwf hsp he hns hi
  obtain ⟨h', c', q, f1, f2, -⟩ := C41_plain hloc hcap (by
    rw [hc]
    unfold Range.valid
    dsimp only
    rcases hm with hm | hm
    · simp [hm]
    · split_ifs
      · simpa using hm
      · norm_num) hwf hsp he hns hi
  exact ⟨h', c', q, f1, f2⟩

/-- **C116**. With wrap-around from `max` to `-max`: values are met up to whole turns, in the directions asked for (C41). -/
theorem C116_spline_wraps {p : SplineParams ℝ} {max : ℝ} (hb : p.base = some ⟨true, -max, max⟩) (h0 : 0 < max) :
    ∃ r, splineRangeFrom p = some r ∧ ∀ {h : Heap} {id : ℕ} {c : Splines.Slot} {loc : Spline} {t : Target ℝ} {e : ℤ} {ns : List (MNode ℝ)} {v0 d0 : ℝ},
      c.modRange = r → h id = some loc → t.numNodes + 1 ≤ loc.maxNodes → t.WF → Spaced t → t.endTime = some e → Ahead c t ns → Initial c t v0 d0 →
      (ns.length ≤ 2 ∧ (∀ n ∈ ns, n.dir = .closest ∨ n.dir = .direct) ∨ ns.length = 1 ∧ t.numNodes = 2) →
      ∃ h' c' q y0 ys, setTarget h c id t = some (h', c') ∧ Follows h' c' e q y0 d0 ns ys ∧ (-max < y0 ∧ y0 ≤ max ∧ ∃ k : ℤ, y0 = v0 + k * (2 * max)) ∧
        Steps ⟨-max, max⟩ y0 ns ys := by
  refine ⟨⟨-max, max⟩, by rw [splineRangeFrom, hb]; rfl, ?_⟩
  intro h id c loc t e ns v0 d0 hc hloc hcap hwf hsp he hns hi hd
  obtain ⟨h', c', q, y0, ys, f1, f2, ⟨f3, f4, k, f5⟩, f6, -⟩ := C41_modular hloc hcap (by rw [hc]; exact h0) (by rw [hc]) hwf hsp he hns hi hd
  rw [hc] at f3 f4 f5 f6
  exact ⟨h', c', q, y0, ys, f1, f2, ⟨f3, f4, k, by rw [f5]; ring⟩, f6⟩

/-- **C116** fails for spline motivators: `min` and `max` are documented as limits "Clamped or wrapped-around when we reach this boundary"
(motive.fbs:34-40), but without wrap-around they have no effect. -/
theorem C116_spline_limits_ignored_fails {p : SplineParams ℝ} {b : ModularParams ℝ} (hb : p.base = some b) (hm : b.modular = false) (v : ℝ) (hv : b.max < v) :
    ∃ r, splineRangeFrom p = some r ∧ ∀ {h : Heap} {id : ℕ} {c : Splines.Slot} {loc : Spline}, c.modRange = r → h id = some loc → 1 ≤ loc.maxNodes →
      ∃ h' c', setTarget h c id (Target.current v 0) = some (h', c') ∧ b.max < c'.y := by
  refine ⟨⟨1, 0⟩, by simp [splineRangeFrom, hb, hm], ?_⟩
  intro h id c loc hc hloc hcap
  obtain ⟨h', c', e1, e2, -⟩ := setTarget_current_plain (d := 0) (v := v) hloc hcap (by rw [hc]; norm_num [Range.valid])
  exact ⟨h', c', e1, by rw [e2.y]; exact hv⟩

/-- **C116** fails for spline parameters without their table, too. -/
theorem C116_spline_missing_table_fails {p : SplineParams ℝ} (h : p.base = none) : splineRangeFrom p = none := by simp [splineRangeFrom, h]

/-! ### Examples -/

/-- A face angle. -/
def faceParams : OvershootParams ℚ := ⟨some ⟨true, -180, 180⟩, 1, 20, some ⟨1, 1 / 10⟩, 1 / 10000, 4, 10⟩

example : faceParams.Wraps 180 := ⟨rfl, by norm_num, by simp [faceParams], by norm_num [faceParams], by norm_num [faceParams], by norm_num [faceParams], by norm_num [faceParams]⟩

/-- A slider, well tuned. -/
def sliderParams : OvershootParams ℚ := ⟨some ⟨false, 0, 10⟩, 1, 20, some ⟨1 / 100, 1 / 100⟩, 1 / 10000, 4, 10⟩

example : sliderParams.Clamps 0 10 ∧ 31 * (sliderParams.accel * sliderParams.maxDt ^ 2) ≤ 1 ∧
    7 * (sliderParams.accel * sliderParams.wrongMultiplier * sliderParams.maxDt ^ 2) ≤ 1 :=
  ⟨⟨rfl, by norm_num, by simp [sliderParams], by norm_num [sliderParams], by norm_num [sliderParams], by norm_num [sliderParams]⟩, by norm_num [sliderParams],
    by norm_num [sliderParams]⟩

example (i : OvershootInit ℚ) : ∃ i', overshootFrom sliderParams i = some i' ∧ ∃ N : ℕ, ∀ s : OvershootSlot ℚ, s.init = i' → s.target = 7 →
    s.run ((List.replicate N 16).map OvershootSlot.Op.frame) = some { s with value := 7, velocity := 0 } := by
  obtain ⟨i', e1, N, e2⟩ := C116_overshoot_settles (p := sliderParams) (min := 0) (max := 10) (T := 7) ⟨rfl, by norm_num, by simp [sliderParams],
    by norm_num [sliderParams], by norm_num [sliderParams], by norm_num [sliderParams]⟩ rfl (by norm_num) (by norm_num) (by norm_num [sliderParams])
    (by norm_num [sliderParams]) (by norm_num) (by norm_num) (by norm_num [sliderParams]) (by norm_num [sliderParams]) (by norm_num [sliderParams])
    (by norm_num [sliderParams]) i
  refine ⟨i', e1, N, fun s h1 h2 => e2 s h1 h2 _ ?_ ?_⟩
  · intro t ht; rw [List.eq_of_mem_replicate ht]; norm_num
  · rw [List.filter_eq_self.mpr]
    · simp
    · intro t ht; rw [List.eq_of_mem_replicate ht]; norm_num

end
end Motive.Slot
