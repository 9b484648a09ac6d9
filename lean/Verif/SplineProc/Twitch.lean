import Verif.SplineProc.Ahead
import Verif.SplineProc.SetTargetProps
import Verif.Slot.Twitch
/-!
# `Twitch` of spline motivators (include/motive/util.h:103-110, src/motive/processor/spline_processor.cpp:144-203)

`Twitch` works on any one-dimensional motivator: it calls `SetTarget(Current1f(…))`.  A spline motivator answers with a spline that has a single
node, and such a spline is a constant.
-/

namespace Motive.Targets
open Motive.Math Motive.Curve Motive.Splines Motive.Slot

noncomputable section
open Classical

/-- `Twitch` (util.h:103-110) with `Settled1f::Settled` (util.h:65-80), of a spline motivator with one dimension, whose record is `c` and whose local
spline is `id`. -/
def splineTwitch (dir : TwitchDirection) (velocity : ℝ) (st : Settled1f ℝ) (h : Heap) (c : Slot) (id : ℕ) : Option (Heap × Slot) :=
  if dir = .none then some (h, c)
  else (SplineProc.difference h c).bind fun diff =>
    if st.settled diff c.derivative then
      setTarget h c id (Target.current c.y (if dir = .positive then velocity else -velocity))
    else some (h, c)

/-! ### A spline with a single node is a constant -/

/-- The record plays the constant `v`. -/
structure Constant (c : Slot) (v : ℝ) : Prop where
  y : c.y = v
  cubic : c.cubic = ⟨0, 0, 0, v⟩
  stop : c.cubicXEnd = ⊤

theorem Constant.derivative {c : Slot} {v : ℝ} (h : Constant c v) : c.derivative = 0 := by
  unfold Slot.derivative; rw [h.cubic]; simp [Cubic.deriv]

theorem Constant.frames {h : Heap} (dxs : List ℝ) : ∀ {c : Slot} {v : ℝ}, Constant c v → ∃ c', frames h c dxs = some c' ∧ Constant c' v := by
  induction dxs with
  | nil => intro c v hc; exact ⟨c, rfl, hc⟩
  | cons dx dxs ih =>
    intro c v hc
    have h1 : Constant ({ c with cubicX := c.cubicX + dx * c.rate } : Slot).evaluate v := by
      refine ⟨?_, hc.cubic, hc.stop⟩
      show c.cubic.eval _ = v
      rw [hc.cubic]; simp [Cubic.eval]
    have h2 : c.advance h dx = some ({ c with cubicX := c.cubicX + dx * c.rate } : Slot).evaluate := by
      unfold Slot.advance
      simp [hc.stop]
    obtain ⟨c', h3, h4⟩ := ih h1
    refine ⟨c', ?_, h4⟩
    unfold Targets.frames at h3 ⊢
    rw [List.foldlM_cons, h2]
    exact h3

theorem jump_constant {h : Heap} {c : Slot} {id : ℕ} {s : Spline} {n : Node} (hs : h id = some s) (hg : 0 < s.g) (hn : s.nodes = [n]) (h0 : n.x = 0) :
    ∃ c', c.setSpline h id {} = some c' ∧ Constant c' (n.Y s.yRange) ∧ c'.modRange = c.modRange ∧ c'.spline = some id := by
  have hq : quantizeX 0 s.g = some 0 := by
    unfold quantizeX toInt trunc
    rw [if_neg hg.ne', zero_div, zero_add, if_pos (by norm_num : (0 : ℝ) ≤ 1 / 2), show ⌊(1 / 2 : ℝ)⌋ = 0 by norm_num [Int.floor_eq_iff]]
    norm_num
  have hi : ∀ guess : ℕ, s.indexForX 0 guess = some kAfter := by
    intro guess
    unfold Spline.indexForX
    simp [hq, hn, h0]
  have hj : ¬ (c.spline.isSome = true ∧ (0 : ℝ) < 0) := by simp
  unfold Slot.setSpline
  rw [if_neg (by simp)]
  unfold Slot.jumpTo Slot.initCubic
  simp only [hs, Option.bind_some, Spline.indexForXRepeat, hi]
  simp [Spline.rangeX, Spline.cubicInitAt, kAfter, kBefore, outside, hn, Spline.endX, Slot.evaluate]
  constructor
  · simp [Cubic.init, Cubic.scaleUp, Cubic.shiftUp, Cubic.eval]
  · simp [Cubic.init, Cubic.scaleUp, Cubic.shiftUp]
  · rfl

/-- `SetTarget(Current1f(v, d))`: the start value is `y0`, up to a rung of the range `r`, and the record plays that constant. -/
theorem setTarget_current {h : Heap} {c : Slot} {id : ℕ} {loc : Spline} {v d y0 : ℝ} {r : Range ℝ} (hloc : h id = some loc) (hcap : 1 ≤ loc.maxNodes)
    (hy0 : wanted c v = some y0) (hr : yRange c (Target.current v d) y0 = some r) (hin : r.start ≤ y0 ∧ y0 ≤ r.stop) :
    ∃ h' c' v', setTarget h c id (Target.current v d) = some (h', c') ∧ Constant c' v' ∧ v' ≤ y0 ∧ y0 - v' ≤ r.length / 65535 ∧
      (∀ j, j ≠ id → h' j = h j) := by
  have ho : overrides c ⟨v, d, 0, .closest⟩ = true := by simp [overrides]
  obtain ⟨s, a, l, h1, h2, h3, h4, h5, h6, h7, h8, -, h10, -⟩ := targetSpline_spec (c := c) (loc := loc) (t := Target.current v d) (n0 := ⟨v, d, 0, .closest⟩)
    (y0 := y0) (e := 0) (r := r) (ys := []) rfl (by unfold startY; rw [if_pos ho]; exact hy0) rfl hr hin
    (by unfold rest; rw [if_pos ho]; rfl) (by simp) (by unfold rest; rw [if_pos ho]; trivial) (by unfold rest; rw [if_pos ho]; simp [Target.current, Target.one])
    (by unfold rest; rw [if_pos ho]; simpa [Target.current, Target.one] using hcap)
  have hl : l = [] := by
    apply List.eq_nil_of_length_eq_zero
    rw [h10]; unfold rest; rw [if_pos ho]; simp [Target.current, Target.one]
  rw [hl] at h4
  obtain ⟨c', k1, k2, -⟩ := jump_constant (h := fun j => if j = id then some s else h j) (c := c) (id := id) (s := s) (n := a) (by simp) h6.g_pos h4 h5
  refine ⟨fun j => if j = id then some s else h j, c', _, ?_, k2, h8.below, ?_, fun j hj => by simp [hj]⟩
  · unfold setTarget
    rw [hloc]
    simp only [Option.bind_some, h1]
    rw [k1]; rfl
  · rw [← h3]; exact h8.rung

/-- `SetTarget(Current1f(v, d))` without a modular range: the constant is `v`. -/
theorem setTarget_current_plain {h : Heap} {c : Slot} {id : ℕ} {loc : Spline} {v d : ℝ} (hloc : h id = some loc) (hcap : 1 ≤ loc.maxNodes)
    (hm : ¬ c.modRange.valid) : ∃ h' c', setTarget h c id (Target.current v d) = some (h', c') ∧ Constant c' v ∧ (∀ j, j ≠ id → h' j = h j) := by
  have hw : wanted c v = some v := by unfold wanted; rw [if_neg hm]
  obtain ⟨r0, hr0, ⟨a1, a2⟩, -, a3⟩ := Target.C54_value_range (t := Target.current v d) (by simp [Target.current, Target.one]) v
  obtain ⟨a4, a5⟩ := a3 ⟨v, v⟩ le_rfl le_rfl (by simp [Target.current, Target.one])
  have hlen : r0.length = 0 := by unfold Range.length; simp only at a4 a5; linarith
  have hstart : r0.start = v := le_antisymm a1 a4
  have hstop : r0.stop = v := le_antisymm a5 a2
  have hr : yRange c (Target.current v d) v = some (r0.lengthen kYRangeBufferPercent) := by
    unfold yRange; rw [if_neg hm, hr0]; rfl
  have hr1 : (r0.lengthen kYRangeBufferPercent).start = v := by simp [Range.lengthen, hlen, hstart]
  have hr2 : (r0.lengthen kYRangeBufferPercent).stop = v := by simp [Range.lengthen, hlen, hstop]
  obtain ⟨h', c', v', k1, k2, k3, k4, k5⟩ := setTarget_current hloc hcap hw hr ⟨hr1.le, hr2.ge⟩
  have hv : v' = v := by
    have : (r0.lengthen kYRangeBufferPercent).length = 0 := by unfold Range.length; rw [hr1, hr2]; ring
    rw [this] at k4
    linarith
  rw [hv] at k2
  exact ⟨h', c', k1, k2, k5⟩

/-! ### C104 -/

/-- **C104** fails for spline motivators: `Twitch` gives one that is settled no boost, whatever the direction and the boost asked for.  It replaces
what the motivator was playing by the value that it has, and it is at rest, at once and after any frames. -/
theorem C104_spline_stops {h : Heap} {c : Slot} {id : ℕ} {loc : Spline} {diff : ℝ} {dir : TwitchDirection} {velocity : ℝ} {st : Settled1f ℝ}
    (hloc : h id = some loc) (hcap : 1 ≤ loc.maxNodes) (hm : ¬ c.modRange.valid) (hdir : dir ≠ .none) (hd : SplineProc.difference h c = some diff)
    (h1 : |diff| ≤ st.maxDifference) (h2 : |c.derivative| ≤ st.maxVelocity) :
    ∃ h' c', splineTwitch dir velocity st h c id = some (h', c') ∧ c'.y = c.y ∧ c'.derivative = 0 ∧
      ∀ dxs : List ℝ, ∃ c'', frames h' c' dxs = some c'' ∧ c''.y = c.y ∧ c''.derivative = 0 := by
  obtain ⟨h', c', k1, k2, -⟩ := setTarget_current_plain (d := if dir = .positive then velocity else -velocity) (v := c.y) hloc hcap hm
  refine ⟨h', c', ?_, k2.y, k2.derivative, fun dxs => ?_⟩
  · unfold splineTwitch
    rw [if_neg hdir, hd, Option.bind_some, if_pos ⟨h1, h2⟩]
    exact k1
  · obtain ⟨c'', e1, e2⟩ := k2.frames dxs
    exact ⟨c'', e1, e2.y, e2.derivative⟩

/-- **C104** fails for spline motivators with a modular range: no boost either.  The value that it stays at is the one that it has, in the range, up to
a rung. -/
theorem C104_modular_spline_stops {h : Heap} {c : Slot} {id : ℕ} {loc : Spline} {diff : ℝ} {dir : TwitchDirection} {velocity : ℝ} {st : Settled1f ℝ}
    (hloc : h id = some loc) (hcap : 1 ≤ loc.maxNodes) (hm : c.modRange.start < c.modRange.stop) (hdir : dir ≠ .none)
    (hd : SplineProc.difference h c = some diff) (h1 : |diff| ≤ st.maxDifference) (h2 : |c.derivative| ≤ st.maxVelocity) :
    ∃ h' c' y, splineTwitch dir velocity st h c id = some (h', c') ∧
      (c.modRange.start < y ∧ y ≤ c.modRange.stop ∧ ∃ k : ℤ, y = c.y + k * (c.modRange.stop - c.modRange.start)) ∧
      c'.y ≤ y ∧ y - c'.y ≤ 2 * (c.modRange.stop - c.modRange.start) / 65535 ∧ c'.derivative = 0 ∧
      ∀ dxs : List ℝ, ∃ c'', frames h' c' dxs = some c'' ∧ c''.y = c'.y ∧ c''.derivative = 0 := by
  set d := if dir = .positive then velocity else -velocity with hdd
  obtain ⟨y, b1, -, -, ⟨b2, b3, b4⟩, -⟩ := Range.C16_normalise c.modRange hm c.y
  have hval : c.modRange.valid := hm.le
  have hw : wanted c c.y = some y := by unfold wanted; rw [if_pos hval]; exact b1
  have hr : yRange c (Target.current c.y d) y = some (c.modRange.lengthen 1) := by
    unfold yRange; rw [if_pos hval]; simp [Target.numNodes, Target.current, Target.one]
  have hs1 : (c.modRange.lengthen 1).start = c.modRange.start - (c.modRange.stop - c.modRange.start) / 2 := by
    simp [Range.lengthen, Range.length]; ring
  have hs2 : (c.modRange.lengthen 1).stop = c.modRange.stop + (c.modRange.stop - c.modRange.start) / 2 := by
    simp [Range.lengthen, Range.length]; ring
  obtain ⟨h', c', v', k1, k2, k3, k4, -⟩ := setTarget_current hloc hcap hw hr ⟨by rw [hs1]; linarith, by rw [hs2]; linarith⟩
  refine ⟨h', c', y, ?_, ⟨b2, b3, b4⟩, by rw [k2.y]; exact k3, ?_, k2.derivative, fun dxs => ?_⟩
  · unfold splineTwitch
    rw [if_neg hdir, hd, Option.bind_some, if_pos ⟨h1, h2⟩]
    exact k1
  · rw [k2.y]
    refine k4.trans (le_of_eq ?_)
    unfold Range.length; rw [hs1, hs2]; ring
  · obtain ⟨c'', e1, e2⟩ := k2.frames dxs
    exact ⟨c'', e1, e2.y.trans k2.y.symm, e2.derivative⟩

/-- **C104**. A spline motivator that is not within both thresholds, and any for which no direction is given, is left alone. -/
theorem C104_spline_left_alone {h : Heap} {c : Slot} {diff : ℝ} (id : ℕ) {dir : TwitchDirection} (velocity : ℝ) {st : Settled1f ℝ}
    (hd : SplineProc.difference h c = some diff) (hn : dir = .none ∨ st.maxDifference < |diff| ∨ st.maxVelocity < |c.derivative|) :
    splineTwitch dir velocity st h c id = some (h, c) := by
  unfold splineTwitch
  by_cases h0 : dir = .none
  · rw [if_pos h0]
  · rw [if_neg h0, hd, Option.bind_some, if_neg]
    rintro ⟨h1, h2⟩
    rcases hn with hn | hn | hn
    · exact h0 hn
    · linarith
    · linarith

/-! ### Example: a hop that is repeated for ever -/

/-- Up from 0 to 1 and down again. -/
def hop : Spline := ⟨⟨0, 1⟩, 1, [⟨0, 0, 0⟩, ⟨1, 65535, 0⟩, ⟨2, 0, 0⟩], 3⟩

/-- The caller's `hop`, and a local spline. -/
def hopHeap : Heap := fun j => if j = 0 then some hop else some (Spline.create 7)

/-- The record that plays it. -/
def hopping : Slot := { spline := some 0, xIndex := 0, rep := true, cubicXEnd := ((1 : ℝ) : WithTop ℝ), cubic := ⟨-2, 3, 0, 0⟩ }

theorem hopping_starts : ({} : Slot).setSpline hopHeap 0 { rep := true } = some hopping := by
  have hq : quantizeX 0 (1 : ℝ) = some 0 := by
    unfold quantizeX toInt trunc
    rw [if_neg one_ne_zero, zero_div, zero_add, if_pos (by norm_num : (0 : ℝ) ≤ 1 / 2), show ⌊(1 / 2 : ℝ)⌋ = 0 by norm_num [Int.floor_eq_iff]]
    norm_num
  have hs : hopHeap 0 = some hop := rfl
  have hi : hop.indexForX 0 ((kInvalid + 1) % 65536) = some 0 := by
    unfold Spline.indexForX
    norm_num [hop, hq, Spline.searchIndex, Spline.guessOk, Spline.containsX, kInvalid, Spline.widthX]
  unfold Slot.setSpline
  rw [if_neg (by simp)]
  unfold Slot.jumpTo Slot.initCubic
  simp only [hs, Option.bind_some, Spline.indexForXRepeat, hi]
  simp [kAfter]
  norm_num [Spline.rangeX, Spline.cubicInitAt, kAfter, kBefore, outside, hop, Slot.evaluate, hopping, Spline.cubicInit, Spline.widthX, Cubic.init,
    Cubic.scaleUp, Cubic.shiftUp, Cubic.eval, Node.X, Node.Y, Node.D, Range.lerp]

/-- **C104** fails badly for animations that repeat: if the start of one has the value of its end, `Twitch` stops it there. -/
theorem C104_stops_repeating_animation_fails (velocity : ℝ) :
    ({} : Slot).setSpline hopHeap 0 { rep := true } = some hopping ∧ (∃ c, frames hopHeap hopping [1] = some c ∧ c.y = 1) ∧
      ∃ h' c', splineTwitch .positive velocity ⟨1 / 100, 1 / 100⟩ hopHeap hopping 1 = some (h', c') ∧
        ∀ dxs : List ℝ, ∃ c'', frames h' c' dxs = some c'' ∧ c''.y = 0 := by
  have hd : SplineProc.difference hopHeap hopping = some 0 := by
    norm_num [SplineProc.difference, SplineProc.targetValue, hopping, hopHeap, hop, Spline.endY, Node.Y, Range.lerp, Slot.normalizeY, Range.valid]
  refine ⟨hopping_starts, ?_, ?_⟩
  · refine ⟨({ hopping with cubicX := 1 } : Slot).evaluate, ?_, ?_⟩
    · unfold frames Slot.advance
      norm_num [hopping]
    · norm_num [Slot.evaluate, hopping, Cubic.eval]
  · obtain ⟨h', c', e1, -, -, e2⟩ := C104_spline_stops (h := hopHeap) (c := hopping) (id := 1) (loc := Spline.create 7) (diff := 0) (dir := .positive)
      (velocity := velocity) (st := ⟨1 / 100, 1 / 100⟩) rfl (by norm_num [Spline.create]) (by norm_num [Range.valid, hopping]) (by decide) hd (by norm_num)
      (by norm_num [Slot.derivative, hopping, Cubic.deriv])
    refine ⟨h', c', e1, fun dxs => ?_⟩
    obtain ⟨c'', e3, e4, -⟩ := e2 dxs
    exact ⟨c'', e3, e4⟩

/-- For example: the same hop with a modular range. -/
example : ∃ h' c' y, splineTwitch .negative 5 ⟨1 / 100, 1 / 100⟩ hopHeap { hopping with modRange := ⟨-2, 2⟩ } 1 = some (h', c') ∧ c'.y ≤ y ∧
    y - c'.y ≤ 2 * ((2 : ℝ) - -2) / 65535 ∧ c'.derivative = 0 := by
  have hn : Range.normalizeClose (⟨-2, 2⟩ : Range ℝ) 0 = some 0 := by
    obtain ⟨y, -, e, -, -, -, h⟩ := Range.C16_normalise (⟨-2, 2⟩ : Range ℝ) (by norm_num) 0
    rw [e, h (by norm_num) (by norm_num)]
  have hd : SplineProc.difference hopHeap { hopping with modRange := ⟨-2, 2⟩ } = some 0 := by
    have hv : (⟨-2, 2⟩ : Range ℝ).valid := by norm_num [Range.valid]
    have he : SplineProc.targetValue hopHeap { hopping with modRange := ⟨-2, 2⟩ } = some 0 := by
      norm_num [SplineProc.targetValue, hopping, hopHeap, hop, Spline.endY, Node.Y, Range.lerp]
    unfold SplineProc.difference
    rw [he, Option.bind_some]
    unfold Slot.normalizeY
    rw [if_pos hv]
    norm_num [hopping, hn]
  obtain ⟨h', c', y, e1, -, e2, e3, e4, -⟩ := C104_modular_spline_stops (h := hopHeap) (c := { hopping with modRange := ⟨-2, 2⟩ }) (id := 1)
    (loc := Spline.create 7) (diff := 0) (dir := .negative) (velocity := 5) (st := ⟨1 / 100, 1 / 100⟩) rfl (by norm_num [Spline.create]) (by norm_num)
    (by decide) hd (by norm_num) (by norm_num [Slot.derivative, hopping, Cubic.deriv])
  exact ⟨h', c', y, e1, e2, e3, e4⟩

end
end Motive.Targets
