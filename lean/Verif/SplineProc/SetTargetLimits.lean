import Verif.SplineProc.SetTargetProps
/-!
# Where `SetTarget` does not do what C41 says
-/

namespace Motive.Targets
open Motive.Math Motive.Curve Motive.Splines

noncomputable section

theorem addNode_out {s : Spline} {x y d : ℝ} {m : AddMethod} (h : ¬ (s.yRange.start ≤ y ∧ y ≤ s.yRange.stop)) : s.addNode x y d m = none := by
  have : Node.make x y d s.g s.yRange = none := by
    unfold Node.make compactY
    rw [if_neg h]
    cases compactX x s.g <;> rfl
  unfold Spline.addNode
  rw [this]; rfl

theorem addNode_frame {s s' : Spline} (hs : s.WF) {x y d : ℝ} {m : AddMethod} (h : s.addNode x y d m = some s') :
    s'.WF ∧ s'.yRange = s.yRange := by
  have := Spline.addNode_spec hs h
  exact ⟨this.1, this.2.1.2.1⟩

/-- `SetTarget` fails if the loop fails from every spline of the same y-range. -/
theorem setTarget_none {h : Heap} {id : ℕ} {c : Slot} {t : Target ℝ} {n0 : MNode ℝ} {y0 : ℝ} {r : Range ℝ} (hn0 : t.nodes.head? = some n0)
    (hy0 : startY c n0 = some y0) (hr : yRange c t y0 = some r)
    (hl : ∀ s : Spline, s.WF → s.yRange = r → nodeLoop c s y0 (rest c t n0) = none) : setTarget h c id t = none := by
  unfold setTarget
  cases h id with
  | none => rfl
  | some loc =>
    have : targetSpline c loc t = none := by
      unfold targetSpline
      rw [hn0]
      simp only [Option.bind_some, hy0]
      cases t.endTime with
      | none => rfl
      | some e =>
        simp only [Option.bind_some, hr]
        refine Option.bind_eq_none_iff.mpr fun s hs => ?_
        obtain ⟨h1, h2⟩ := addNode_frame (Spline.wf_init loc r (recommendG_pos _)) hs
        exact hl s h1 h2
    simp [this]

/-- At 170 degrees, and told to go to 160 degrees by turning up: the value would be 520, but the spline is only made for values between -360
and 360 (`C41_modular` asks for a replaced first waypoint here). The assertion in `CompactY` fails. -/
theorem C41_positive_direction_fails (h : Heap) (id j : ℕ) :
    setTarget h { spline := some j, y := 170, modRange := ⟨-180, 180⟩ } id (Target.one ⟨160, 0, 100, .positive⟩) = none := by
  refine setTarget_none (n0 := ⟨160, 0, 100, .positive⟩) (y0 := 170) (r := ⟨-360, 360⟩) rfl ?_ ?_ ?_
  · norm_num [startY, overrides, Slot.normalizeY, Range.valid, Range.normalizeClose]
  · norm_num [yRange, Range.valid, Range.lengthen, Range.length, Target.numNodes, Target.one]
  · intro s hs hr
    have hw : wanted ({ spline := some j, y := 170, modRange := ⟨-180, 180⟩ } : Slot) 160 = some 160 := by
      obtain ⟨y, h1, -, -, -, -, h2⟩ := Range.C16_normalise (⟨-180, 180⟩ : Range ℝ) (by norm_num) 160
      rw [h2 (by norm_num) (by norm_num)] at h1
      unfold wanted
      rw [if_pos (by norm_num [Range.valid])]; exact h1
    have hn : ({ spline := some j, y := 170, modRange := ⟨-180, 180⟩ } : Slot).nextY 170 160 .positive = some 520 := by
      norm_num [Slot.nextY, Range.valid, Range.modDiff, Range.modDiffPositive, Range.modDiffClose, Range.normalize, Range.modularAdjustment,
        Range.containsExclStart, Range.length]
    simp only [rest, overrides, Target.one]
    simp only [show ((100 : ℤ) = 0) = False by norm_num, decide_false, Option.isNone_some, Bool.or_false, Bool.false_eq_true, if_false]
    simp only [nodeLoop, hw, hn, Option.bind_some]
    rw [addNode_out (by rw [hr]; norm_num)]; rfl

theorem wanted_self {c : Slot} (h0 : c.modRange.start < c.modRange.stop) {v : ℝ} (h1 : c.modRange.start < v) (h2 : v ≤ c.modRange.stop) :
    wanted c v = some v := by
  obtain ⟨y, h3, -, -, -, -, h4⟩ := Range.C16_normalise c.modRange h0 v
  rw [h4 h1 h2] at h3
  unfold wanted
  rw [if_pos (show c.modRange.valid from h0.le)]; exact h3

/-- At 170 degrees, and told to go to -20, 140 and -50 degrees, each by the closest way: the values are 340, 500 and then -50 is more than one
and a half turns away, so that the assertion in `Normalize` fails. `C41_modular` allows two waypoints ahead. -/
theorem C41_three_targets_fail (h : Heap) (id j : ℕ) :
    setTarget h { spline := some j, y := 170, modRange := ⟨-180, 180⟩ } id
      ⟨[⟨-20, 0, 100, .closest⟩, ⟨140, 0, 200, .closest⟩, ⟨-50, 0, 300, .closest⟩]⟩ = none := by
  refine setTarget_none (n0 := ⟨-20, 0, 100, .closest⟩) (y0 := 170) (r := ⟨-720, 720⟩) rfl ?_ ?_ ?_
  · norm_num [startY, overrides, Slot.normalizeY, Range.valid, Range.normalizeClose]
  · norm_num [yRange, Range.valid, Range.lengthen, Range.length, Target.numNodes]
  · intro s hs hr
    set c : Slot := { spline := some j, y := 170, modRange := ⟨-180, 180⟩ } with hc
    have hm : c.modRange = ⟨-180, 180⟩ := rfl
    have w1 : wanted c (-20) = some (-20) := wanted_self (by rw [hm]; norm_num) (by rw [hm]; norm_num) (by rw [hm]; norm_num)
    have w2 : wanted c 140 = some 140 := wanted_self (by rw [hm]; norm_num) (by rw [hm]; norm_num) (by rw [hm]; norm_num)
    have w3 : wanted c (-50) = some (-50) := wanted_self (by rw [hm]; norm_num) (by rw [hm]; norm_num) (by rw [hm]; norm_num)
    have n1 : c.nextY 170 (-20) .closest = some 340 := by
      norm_num [Slot.nextY, hm, Range.valid, Range.modDiff, Range.modDiffClose, Range.normalize, Range.modularAdjustment,
        Range.containsExclStart, Range.length]
    have n2 : c.nextY 340 140 .closest = some 500 := by
      norm_num [Slot.nextY, hm, Range.valid, Range.modDiff, Range.modDiffClose, Range.normalize, Range.modularAdjustment,
        Range.containsExclStart, Range.length]
    have n3 : c.nextY 500 (-50) .closest = none := by
      norm_num [Slot.nextY, hm, Range.valid, Range.modDiff, Range.modDiffClose, Range.normalize, Range.modularAdjustment,
        Range.containsExclStart, Range.length]
    have hrest : rest c ⟨[⟨-20, 0, 100, .closest⟩, ⟨140, 0, 200, .closest⟩, ⟨-50, 0, 300, .closest⟩]⟩ ⟨-20, 0, 100, .closest⟩ =
        [⟨-20, 0, 100, .closest⟩, ⟨140, 0, 200, .closest⟩, ⟨-50, 0, 300, .closest⟩] := by simp [rest, overrides, hc]
    rw [hrest]
    simp only [nodeLoop, w1, n1, Option.bind_some]
    refine Option.bind_eq_none_iff.mpr fun s1 _ => ?_
    simp only [w2, n2, Option.bind_some]
    refine Option.bind_eq_none_iff.mpr fun s2 _ => ?_
    simp only [w3, n3, Option.bind_some, Option.bind_none]

/-- A waypoint with a negative time, which the constructor with one waypoint accepts, makes `SetTarget` fail. -/
theorem C41_negative_time_fails (h : Heap) (c : Slot) (id : ℕ) (v d : ℝ) {time : ℤ} {dir : Direction} (hc : c.spline ≠ none) (ht : time ≤ -2) :
    setTarget h c id (Target.one ⟨v, d, time, dir⟩) = none := by
  unfold setTarget
  cases h id with
  | none => rfl
  | some loc =>
    have : targetSpline c loc (Target.one ⟨v, d, time, dir⟩) = none := by
      unfold targetSpline
      simp only [Target.one, List.head?_cons, Option.bind_some, Target.endTime, List.getLast?_singleton, Option.map_some]
      refine Option.bind_eq_none_iff.mpr fun y0 _ => ?_
      refine Option.bind_eq_none_iff.mpr fun r _ => ?_
      refine Option.bind_eq_none_iff.mpr fun s hs => ?_
      have hg : s.g = 1 := by
        have := (Spline.addNode_spec (Spline.wf_init loc r (recommendG_pos _)) hs).2.1.1
        rw [this]
        show Spline.recommendG (time : ℝ) = 1
        unfold Spline.recommendG
        have : (time : ℝ) ≤ -2 := by exact_mod_cast ht
        rw [if_pos (by linarith)]
      have hrest : rest c ⟨[⟨v, d, time, dir⟩]⟩ ⟨v, d, time, dir⟩ = [⟨v, d, time, dir⟩] := by
        have h1 : ¬ time = 0 := by omega
        cases hcs : c.spline with
        | none => exact absurd hcs hc
        | some j => simp [rest, overrides, hcs, h1]
      rw [hrest]
      simp only [nodeLoop]
      refine Option.bind_eq_none_iff.mpr fun w _ => ?_
      refine Option.bind_eq_none_iff.mpr fun y _ => ?_
      have hx : compactX (time : ℝ) s.g = none := by
        unfold compactX
        refine Option.bind_eq_none_iff.mpr fun q hq => ?_
        have : (time : ℝ) ≤ -2 := by exact_mod_cast ht
        rw [hg] at hq
        unfold quantizeX toInt at hq
        rw [if_neg one_ne_zero, div_one] at hq
        have hq' : trunc ((time : ℝ) + 1 / 2) = q := by
          split at hq
          · simpa using hq
          · simp at hq
        rw [if_neg]
        rw [← hq', trunc_of_neg (by linarith)]
        have : ⌈(time : ℝ) + 1 / 2⌉ ≤ -1 := by rw [Int.ceil_le]; push_cast; linarith
        omega
      have : s.addNode (time : ℝ) y d .withoutModification = none := by
        unfold Spline.addNode Node.make
        rw [hx]; rfl
      rw [this]; rfl
    simp [this]

/-- If the first waypoint is less than half a grain (`EndTime / 131070`) away then the value jumps there at once, in place of starting at the
current value: both nodes are at the same x, and the second one is the start of the first segment that is played. -/
theorem C41_short_step_jumps {h : Heap} {id : ℕ} {c : Slot} {loc : Spline} {n1 n2 : MNode ℝ}
    (hloc : h id = some loc) (hcap : 3 ≤ loc.maxNodes) (hm : ¬ c.modRange.valid) (hc : c.spline ≠ none) (ht : 0 < n1.time)
    (hshort : 131070 * n1.time < n2.time) :
    ∃ h' c', setTarget h c id ⟨[n1, n2]⟩ = some (h', c') ∧
      |c'.y - n1.value| ≤ 22 / 10 * (max (max c.y n1.value) n2.value - min (min c.y n1.value) n2.value) / 65535 := by
  have hn1 : ¬ n1.time = 0 := by omega
  have hov : overrides c n1 = false := by
    cases hcs : c.spline with
    | none => exact absurd hcs hc
    | some j => simp [overrides, hcs, hn1]
  have hy0 : startY c n1 = some c.y := by simp [startY, hov, Slot.normalizeY, hm]
  set t : Target ℝ := ⟨[n1, n2]⟩ with ht'
  have he : t.endTime = some n2.time := rfl
  set lo := min (min c.y n1.value) n2.value with hlo
  set hi := max (max c.y n1.value) n2.value with hhi
  have b1 : lo ≤ c.y ∧ c.y ≤ hi := ⟨(min_le_left _ _).trans (min_le_left _ _), (le_max_left _ _).trans (le_max_left _ _)⟩
  have b2 : lo ≤ n1.value ∧ n1.value ≤ hi := ⟨(min_le_left _ _).trans (min_le_right _ _), (le_max_right _ _).trans (le_max_left _ _)⟩
  have b3 : lo ≤ n2.value ∧ n2.value ≤ hi := ⟨min_le_right _ _, le_max_right _ _⟩
  have hlohi : lo ≤ hi := b1.1.trans b1.2
  set r : Range ℝ := (⟨lo, hi⟩ : Range ℝ).lengthen kYRangeBufferPercent with hr'
  have hrl : r.start = lo - 6 / 10 * (hi - lo) ∧ r.stop = hi + 6 / 10 * (hi - lo) := by
    simp only [hr', Range.lengthen, Range.length, kYRangeBufferPercent]
    constructor <;> ring
  have hr : yRange c t c.y = some r := by
    have : t.valueRange c.y = some ⟨lo, hi⟩ := by
      simp only [Target.valueRange, ht', Target.rangeLoop, hlo, hhi, List.length_cons]
      rw [if_pos (by simp)]
      congr 2
      · rw [min_comm n2.value, min_comm n1.value]
      · rw [max_comm n2.value, max_comm n1.value]
    unfold yRange; rw [if_neg hm, this]; rfl
  have c1 : r.start ≤ c.y ∧ c.y ≤ r.stop := by rw [hrl.1, hrl.2]; constructor <;> linarith [b1.1, b1.2]
  have c2 : r.start ≤ n1.value ∧ n1.value ≤ r.stop := by rw [hrl.1, hrl.2]; constructor <;> linarith [b2.1, b2.2]
  have c3 : r.start ≤ n2.value ∧ n2.value ≤ r.stop := by rw [hrl.1, hrl.2]; constructor <;> linarith [b3.1, b3.2]
  have ht2 : (0 : ℝ) < n2.time := by exact_mod_cast (show 0 < n2.time by omega)
  have ht1 : (0 : ℝ) < n1.time := by exact_mod_cast ht
  have hsh : 131070 * (n1.time : ℝ) < n2.time := by exact_mod_cast hshort
  have hg := recommendG_pos (n2.time : ℝ)
  have hgv : Spline.recommendG (n2.time : ℝ) = n2.time / 65535 := by unfold Spline.recommendG; rw [if_neg (by linarith)]
  set s0 := loc.init r (Spline.recommendG (n2.time : ℝ)) with hs0
  have hs0g : s0.g = n2.time / 65535 := hgv
  have hs0p : 0 < s0.g := hg
  have hs0r : s0.yRange = r := rfl
  obtain ⟨a, ha, hsta⟩ := make_stored (s := s0) (x := 0) (y := c.y) (d := startD c n1) hs0p le_rfl (by linarith) c1
  obtain ⟨m, hmk, hstm⟩ := make_stored (s := s0) (x := n1.time) (y := n1.value) (d := n1.velocity) hs0p ht1.le
    (by rw [hs0g]; linarith) c2
  obtain ⟨z, hz, hstz⟩ := make_stored (s := s0) (x := n2.time) (y := n2.value) (d := n2.velocity) hs0p ht2.le
    (by rw [hs0g]; linarith) c3
  have hax : a.x = 0 := by
    have := hsta.grid
    rw [zero_div, zero_add, show ⌊(1 / 2 : ℝ)⌋ = 0 by norm_num [Int.floor_eq_iff]] at this
    exact_mod_cast this
  have hmx : m.x = 0 := by
    have := hstm.grid
    have h1 : (n1.time : ℝ) / s0.g < 1 / 2 := by rw [div_lt_iff₀ hs0p, hs0g]; linarith
    have h2 : 0 ≤ (n1.time : ℝ) / s0.g := by positivity
    rw [show ⌊(n1.time : ℝ) / s0.g + 1 / 2⌋ = 0 by rw [Int.floor_eq_iff]; push_cast; constructor <;> linarith] at this
    exact_mod_cast this
  have hzx : z.x = 65535 := by
    have := hstz.grid
    rw [show (n2.time : ℝ) / s0.g + 1 / 2 = 65535 + 1 / 2 by rw [hs0g]; field_simp,
      show ⌊(65535 + 1 / 2 : ℝ)⌋ = 65535 by norm_num [Int.floor_eq_iff]] at this
    exact_mod_cast this
  have hmax0 : s0.maxNodes = loc.maxNodes := rfl
  have hadd1 : s0.addNode 0 c.y (startD c n1) .ensureWellBehaved = some { s0 with nodes := [a] } := by
    unfold Spline.addNode
    rw [ha]
    simp only [Option.bind_some, hs0, Spline.init, List.getLast?_nil, Spline.addVerbatim, List.length_nil, List.nil_append]
    rw [if_pos (by omega)]
  -- the second node replaces or doubles the first one
  obtain ⟨pre, hpre, hadd2⟩ : ∃ pre : List Node, pre.length ≤ 1 ∧
      ({ s0 with nodes := [a] } : Spline).addNode (n1.time : ℝ) n1.value n1.velocity .withoutModification = some { s0 with nodes := pre ++ [m] } := by
    by_cases ham : a = m
    · refine ⟨[], by simp, ?_⟩
      unfold Spline.addNode
      show (Node.make _ _ _ s0.g s0.yRange).bind _ = _
      rw [hmk]
      simp [ham]
    · refine ⟨[a], by simp, ?_⟩
      unfold Spline.addNode
      show (Node.make _ _ _ s0.g s0.yRange).bind _ = _
      rw [hmk]
      simp only [Option.bind_some, List.getLast?_singleton]
      rw [if_neg (by omega), if_neg ham, if_pos (by rw [hax, hmx])]
      simp only [Spline.dropMiddle, List.reverse_singleton, Spline.addVerbatim, List.length_singleton]
      rw [if_pos (by omega)]
  have hadd3 : ({ s0 with nodes := pre ++ [m] } : Spline).addNode (n2.time : ℝ) n2.value n2.velocity .withoutModification =
      some { s0 with nodes := pre ++ [m] ++ [z] } := by
    unfold Spline.addNode
    show (Node.make _ _ _ s0.g s0.yRange).bind _ = _
    rw [hz]
    simp only [Option.bind_some, List.getLast?_append, List.getLast?_singleton, Option.some_or]
    have hne : ¬ m = z := by intro h0; rw [h0, hzx] at hmx; omega
    rw [if_neg (by omega), if_neg hne, if_neg (by omega), if_neg (by simp)]
    simp only [Spline.addVerbatim, List.length_append, List.length_singleton]
    rw [if_pos (by omega)]
  set s : Spline := { s0 with nodes := pre ++ [m] ++ [z] } with hs
  have hwf : s.WF := by
    have w0 : s0.WF := Spline.wf_init loc r hg
    have w1 := (Spline.addNode_spec w0 hadd1).1
    have w2 := (Spline.addNode_spec w1 hadd2).1
    exact (Spline.addNode_spec w2 hadd3).1
  have hts : targetSpline c loc t = some s := by
    have hrest : rest c t n1 = [n1, n2] := by simp [rest, hov, ht']
    have hw : ∀ v, wanted c v = some v := fun v => by simp [wanted, hm]
    have hny : ∀ p v dir, c.nextY p v dir = some v := fun p v dir => by simp [Slot.nextY, hm]
    unfold targetSpline
    simp only [show t.nodes.head? = some n1 from rfl, Option.bind_some, hy0, he, hr]
    rw [← hs0, hadd1]
    simp only [Option.bind_some, hrest, nodeLoop, hw, hny, hadd2, hadd3]
  set h' : Heap := fun j => if j = id then some s else h j with hh'
  have hidx : s.Indexable := by
    refine ⟨?_, ?_⟩ <;> simp only [hs, List.length_append, List.length_singleton] <;> omega
  obtain ⟨c', g1, g2, -⟩ := setSpline_start hwf hidx (hp := h') (id := id) (by simp [hh']) c (k := pre.length) (a := m) (b := z)
    (by simp [hs]) (by simp [hs]) hmx (by omega)
  refine ⟨h', c', ?_, ?_⟩
  · unfold setTarget
    rw [hloc]
    simp only [Option.bind_some, hts]
    rw [← hh', g1]; rfl
  · have h1 := hstm.below
    have h2 := hstm.rung
    have h3 : r.length = 22 / 10 * (hi - lo) := by rw [Range.length, hrl.1, hrl.2]; ring
    rw [hs0r] at h1 h2
    rw [h3] at h2
    have h4 : c'.y = m.Y r := g2
    rw [h4, abs_le]
    have h5 : 0 ≤ 22 / 10 * (hi - lo) / 65535 := by
      have : 0 ≤ hi - lo := by linarith
      positivity
    constructor <;> linarith

/-- At 0 and told to be at 10 after one tick and at 0 again after 400 seconds: the value jumps to about 10. -/
example (h : Heap) (loc : Spline) (hloc : h 0 = some loc) (hcap : 3 ≤ loc.maxNodes) :
    ∃ h' c', setTarget h { spline := some 0 } 0 ⟨[⟨10, 0, 1, .closest⟩, ⟨0, 0, 400000, .closest⟩]⟩ = some (h', c') ∧ 9 < c'.y := by
  obtain ⟨h', c', h1, h2⟩ := C41_short_step_jumps (c := { spline := some 0 }) (n1 := ⟨10, 0, 1, .closest⟩) (n2 := ⟨0, 0, 400000, .closest⟩)
    hloc hcap (by norm_num [Range.valid]) (by simp) (by norm_num) (by norm_num)
  refine ⟨h', c', h1, ?_⟩
  have := (abs_le.mp h2).1
  norm_num at this
  linarith

end
end Motive.Targets
