import Verif.Slot.OvershootProps
import Mathlib.Algebra.Order.Archimedean.Basic
import Mathlib.Data.Rat.Lemmas
import Mathlib.Tactic.IntervalCases
import Mathlib.Tactic.Linarith
import Mathlib.Tactic.NormNum
import Mathlib.Tactic.Positivity
import Mathlib.Tactic.Ring
/-!
# Overshoot motivators settle from every start (C103)

C35 says what happens within the thresholds.  Here: with enough damping, the thresholds are reached, whatever the value and the
velocity are at the beginning, and however long the frames are.  The proof follows the energy of the motivator from each turning point to
the next.
-/

set_option linter.unusedSectionVars false

namespace Motive.Slot.OvershootSlot

open Motive.Math

variable {K : Type} [Field K] [LinearOrder K] [IsStrictOrderedRing K]

/-! ### Specification -/

/-- Thresholds and limits that are positive, a limit per step that does not bind, acceleration towards the target that is at least twice as
strong when moving away, and steps that are short compared with the oscillation. -/
structure Tuned (i : OvershootInit K) : Prop where
  maxDt : 0 < i.maxDt
  maxVelocity : 0 < i.maxVelocity
  maxDelta : i.maxVelocity * i.maxDt ≤ i.maxDelta
  atDifference : 0 < i.atDifference
  atVelocity : 0 < i.atVelocity
  accel : 0 < i.accel
  damping : 2 ≤ i.wrongMultiplier
  slow : 31 * (i.accel * i.maxDt ^ 2) ≤ 1
  slowBack : 7 * (i.accel * i.wrongMultiplier * i.maxDt ^ 2) ≤ 1

/-- A configuration without wrap-around, and a target inside of its range, with which a motivator settles. -/
structure Damped (i : OvershootInit K) (target : K) : Prop extends Tuned i where
  linear : i.modular = false
  above : i.range.start < target
  below : target < i.range.stop

/-- With frames of length `t`, the motivator is still moving after each of them, for ever. -/
def NeverRests (s : OvershootSlot K) (t : ℤ) : Prop :=
  ∀ n : ℕ, ∃ s', s.run (List.replicate (n + 1) (Op.frame t)) = some s' ∧ s'.velocity ≠ 0

/-! ### One step -/

/-- Within the limits, as a motivator is after its first step. -/
structure Sound (s : OvershootSlot K) : Prop where
  velocity : |s.velocity| ≤ s.init.maxVelocity
  above : s.init.range.start ≤ s.value
  below : s.value ≤ s.init.range.stop

/-- The difference to the target. -/
def away (s : OvershootSlot K) : K := s.target - s.value

/-- The distance between the target and the nearer end of the range. -/
def gap (i : OvershootInit K) (target : K) : K := min (target - i.range.start) (i.range.stop - target)

variable {i : OvershootInit K} {T : K}

theorem Damped.gap_pos (h : Damped i T) : 0 < gap i T := lt_min (by linarith [h.above]) (by linarith [h.below])

/-- A step within the limits, written out. -/
theorem step_sound {s : OvershootSlot K} (h : Damped s.init s.target) {dt : ℤ} (h1 : 1 ≤ dt) (h2 : dt ≤ s.init.maxDt) :
    ∃ s', s.substep dt = some s' ∧ s'.init = s.init ∧ s'.target = s.target ∧
      (s'.Settled ∨
        s'.velocity = s.init.clampVelocity (s.velocity + dt * s.acceleration s.away) ∧ s'.velocity ≠ 0 ∧
        (s.init.atDifference < |s.away| ∨ s.init.atVelocity < |s'.velocity|) ∧
        s'.value = s.init.range.clamp (s.value + dt * s'.velocity) ∧ s'.Sound) := by
  have hd : s.init.normalize (s.target - s.value) = some s.away := by
    unfold OvershootInit.normalize away
    rw [if_neg (by rw [h.linear]; decide)]
  by_cases hz : s.velocityFor dt s.away = 0
  · refine ⟨_, substep_of (dt := dt) (x := s.target) hd (by unfold newValue; rw [if_pos hz]), rfl, rfl, Or.inl ⟨rfl, hz⟩⟩
  · have hv : s.velocityFor dt s.away = s.init.clampVelocity (s.velocity + dt * s.acceleration s.away) ∧
        ¬ s.init.atTarget s.away (s.init.clampVelocity (s.velocity + dt * s.acceleration s.away)) := by
      unfold velocityFor at hz ⊢
      simp only at hz ⊢
      by_cases ha : s.init.atTarget s.away (s.init.clampVelocity (s.velocity + dt * s.acceleration s.away))
      · rw [if_pos ha] at hz; exact absurd rfl hz
      · rw [if_neg ha]; exact ⟨rfl, ha⟩
    obtain ⟨v, hvd⟩ : ∃ v, v = s.velocityFor dt s.away := ⟨_, rfl⟩
    have hva : |v| ≤ s.init.maxVelocity := by rw [hvd]; exact velocityFor_abs h.maxVelocity.le dt _
    have hdt0 : (0 : K) ≤ dt := by exact_mod_cast (by omega : (0 : ℤ) ≤ dt)
    have hdtm : (dt : K) ≤ s.init.maxDt := by exact_mod_cast h2
    have hdel : s.init.clampDelta (dt * v) = dt * v := by
      have : |dt * v| ≤ s.init.maxDelta := by
        rw [abs_mul, abs_of_nonneg hdt0, mul_comm]
        exact (mul_le_mul hva hdtm hdt0 h.maxVelocity.le).trans h.maxDelta
      obtain ⟨b1, b2⟩ := abs_le.mp this
      unfold OvershootInit.clampDelta clampTo
      rw [min_eq_left b2, max_eq_right b1]
    have hr : s.init.range.start ≤ s.init.range.stop := by linarith [h.above, h.below]
    have hc := range_clamp_inside hr (s.value + dt * v)
    rw [← hvd] at hv hz
    refine ⟨⟨s.init, v, s.target, s.init.range.clamp (s.value + dt * v)⟩, ?_, rfl, rfl, Or.inr ⟨hv.1, hz, ?_, rfl, ⟨hva, hc.1, hc.2⟩⟩⟩
    · have := substep_of (s := s) (dt := dt) (x := s.init.range.clamp (s.value + dt * v)) hd (by
        rw [← hvd]
        unfold newValue
        rw [if_neg hz]
        simp only [OvershootInit.normalize]
        rw [if_neg (by rw [h.linear]; decide), hdel]
        rfl)
      rw [← hvd] at this
      exact this
    · rw [hv.1]
      have h3 := hv.2
      unfold OvershootInit.atTarget at h3
      by_contra hcon
      push Not at hcon
      exact h3 hcon

/-- `c` is `z`, limited to `lo` and `hi`. -/
structure Limited (z lo hi c : K) : Prop where
  low : z ≤ lo → c = lo
  mid : lo ≤ z → z ≤ hi → c = z
  high : hi ≤ z → c = hi

theorem Limited.neg {z lo hi c : K} (h : Limited z lo hi c) : Limited (-z) (-hi) (-lo) (-c) :=
  ⟨fun h1 => by rw [h.high (by linarith)], fun h1 h2 => by rw [h.mid (by linarith) (by linarith)], fun h1 => by rw [h.low (by linarith)]⟩

theorem limited_clampTo {z lo hi : K} (h : lo ≤ hi) : Limited z lo hi (clampTo z lo hi) := by
  unfold clampTo
  refine ⟨fun h1 => ?_, fun h1 h2 => ?_, fun h1 => ?_⟩
  · rw [min_eq_left (h1.trans h), max_eq_left h1]
  · rw [min_eq_left h2, max_eq_right h1]
  · rw [min_eq_right h1, max_eq_right h]

theorem limited_clamp {r : Range K} (h : r.start ≤ r.stop) (T z : K) : Limited (T - z) (T - r.stop) (T - r.start) (T - r.clamp z) := by
  unfold Range.clamp
  refine ⟨fun h1 => ?_, fun h1 h2 => ?_, fun h1 => ?_⟩
  · rw [min_eq_right (by linarith), max_eq_right h]
  · rw [min_eq_left (by linarith), max_eq_right (by linarith)]
  · rw [min_eq_left (by linarith), max_eq_left (by linarith)]

/-- Towards a target that is above. -/
theorem right_up {a V t v d lo hi v' d' : K} (ha : 0 < a) (hV : v ≤ V) (ht : 1 ≤ t) (hv : 0 ≤ v) (hd : 0 ≤ d)
    (hlo : lo < 0) (hhi : d ≤ hi) (hv' : Limited (v + t * (d * a)) (-V) V v') (hd' : Limited (d - t * v') lo hi d') :
    v ≤ v' ∧ v' ≤ v + t * (d * a) ∧ (v' = v + t * (d * a) ∨ v' = V) ∧
      (0 ≤ d' ∧ d' = d - t * v' ∨ d' < 0 ∧ -d' ≤ t * v') := by
  have hx : 0 ≤ t * (d * a) := by positivity
  have e : v ≤ v' ∧ v' ≤ v + t * (d * a) ∧ (v' = v + t * (d * a) ∨ v' = V) := by
    rcases le_total (v + t * (d * a)) V with h | h
    · rw [hv'.mid (by linarith) h]; exact ⟨by linarith, le_rfl, Or.inl rfl⟩
    · rw [hv'.high h]; exact ⟨hV, h, Or.inr rfl⟩
  refine ⟨e.1, e.2.1, e.2.2, ?_⟩
  have hv0 : 0 ≤ v' := hv.trans e.1
  have hx' : 0 ≤ t * v' := by positivity
  rcases le_total (d - t * v') lo with h | h
  · rw [hd'.low h]; exact Or.inr ⟨hlo, by linarith⟩
  · rw [hd'.mid h (by linarith)]
    rcases le_or_gt 0 (d - t * v') with h3 | h3
    · exact Or.inl ⟨h3, rfl⟩
    · exact Or.inr ⟨h3, by linarith⟩

/-- Away from a target that is below. -/
theorem wrong_up {a w V t v d lo hi v' d' : K} (ha : 0 < a) (hw : 0 < w) (hV : v ≤ V) (ht : 1 ≤ t) (hsm : t * t * (a * w) ≤ 1)
    (hv : 0 < v) (hd : d < 0) (hlo : lo ≤ d) (hhi : 0 < hi) (hn : v' ≠ 0)
    (hv' : Limited (v + t * (d * a * w)) (-V) V v') (hd' : Limited (d - t * v') lo hi d') :
    (0 < v' ∧ d' < 0 ∧ v' = v - t * (-d * a * w) ∧ -d ≤ -d' ∧ -d' ≤ -d + t * v' ∧ (-d' = -d + t * v' ∨ -d' = -lo)) ∨
    (v' < 0 ∧ d' ≤ 0 ∧ -v' ≤ t * (-d * a * w) ∧ -d' ≤ -d) := by
  have hx : 0 < t * (-d * a * w) := mul_pos (by linarith) (mul_pos (mul_pos (by linarith) ha) hw)
  have hxe : t * (d * a * w) = -(t * (-d * a * w)) := by ring
  rw [hxe] at hv'
  have ht0 : 0 < t := by linarith
  rcases lt_or_ge 0 v' with h | h
  · left
    have e : v' = v - t * (-d * a * w) := by
      rcases le_total (v + -(t * (-d * a * w))) (-V) with h1 | h1
      · rw [hv'.low h1] at h; linarith
      · rw [hv'.mid h1 (by linarith)]; ring
    have hx' : 0 < t * v' := mul_pos ht0 h
    rcases le_total (d - t * v') lo with h1 | h1
    · have := hd'.low h1
      exact ⟨h, by linarith, e, by linarith, by linarith, Or.inr (by linarith)⟩
    · have := hd'.mid h1 (by linarith)
      exact ⟨h, by linarith, e, by linarith, by linarith, Or.inl (by linarith)⟩
  · right
    have h' : v' < 0 := lt_of_le_of_ne h hn
    have e : -v' ≤ t * (-d * a * w) := by
      rcases le_total (v + -(t * (-d * a * w))) (-V) with h1 | h1
      · rw [hv'.low h1]; linarith
      · rw [hv'.mid h1 (by linarith)]; linarith
    have hx' : t * -v' ≤ -d := by
      have h1 : t * -v' ≤ t * (t * (-d * a * w)) := mul_le_mul_of_nonneg_left e ht0.le
      have h2 : t * (t * (-d * a * w)) = t * t * (a * w) * -d := by ring
      have h3 : t * t * (a * w) * -d ≤ 1 * -d := mul_le_mul_of_nonneg_right hsm (by linarith)
      linarith
    have h0 : 0 < t * -v' := mul_pos ht0 (by linarith)
    have := hd'.mid (by linarith) (by linarith)
    exact ⟨h', by linarith, e, by linarith⟩

/-- A step towards the target. -/
theorem step_right {s : OvershootSlot K} (h : Damped s.init s.target) (hs : s.Sound) (hr : 0 ≤ s.velocity * s.away)
    {dt : ℤ} (h1 : 1 ≤ dt) (h2 : dt ≤ s.init.maxDt) :
    ∃ s', s.substep dt = some s' ∧ s'.init = s.init ∧ s'.target = s.target ∧
      (s'.Settled ∨ s'.Sound ∧ s'.velocity ≠ 0 ∧ (s.init.atDifference < |s.away| ∨ s.init.atVelocity < |s'.velocity|) ∧
        |s.velocity| ≤ |s'.velocity| ∧ |s'.velocity| ≤ |s.velocity| + dt * (|s.away| * s.init.accel) ∧
        (|s'.velocity| = |s.velocity| + dt * (|s.away| * s.init.accel) ∨ |s'.velocity| = s.init.maxVelocity) ∧
        (0 ≤ s'.velocity * s'.away ∧ |s'.away| = |s.away| - dt * |s'.velocity| ∨
         s'.velocity * s'.away < 0 ∧ |s'.away| ≤ dt * |s'.velocity|)) := by
  obtain ⟨s', e, e1, e2, hor⟩ := step_sound h h1 h2
  refine ⟨s', e, e1, e2, hor.imp id ?_⟩
  rintro ⟨hv, hv0, hsn, hx, hs'⟩
  refine ⟨hs', hv0, hsn, ?_⟩
  have hdt1 : (1 : K) ≤ dt := by exact_mod_cast h1
  have hV := h.maxVelocity
  have ha := h.accel
  have hacc : s.acceleration s.away = s.away * s.init.accel := by
    unfold acceleration
    rw [if_neg (not_lt.mpr hr), mul_one]
  have hlim : Limited (s.velocity + dt * (s.away * s.init.accel)) (-s.init.maxVelocity) s.init.maxVelocity s'.velocity := by
    rw [hv, hacc]; exact limited_clampTo (by linarith)
  have hlim' : Limited (s.away - dt * s'.velocity) (s.target - s.init.range.stop) (s.target - s.init.range.start) s'.away := by
    have := limited_clamp (r := s.init.range) (by linarith [h.above, h.below]) s.target (s.value + dt * s'.velocity)
    rw [← hx] at this
    have e3 : s'.away = s.target - s'.value := by unfold away; rw [e2]
    have e4 : s.away - dt * s'.velocity = s.target - (s.value + dt * s'.velocity) := by unfold away; ring
    rw [e3, e4]; exact this
  obtain ⟨va1, va2⟩ := abs_le.mp hs.velocity
  have hb1 := hs.above
  have hb2 := hs.below
  have haw : s.value = s.target - s.away := by unfold away; ring
  rw [haw] at hb1 hb2
  rcases mul_nonneg_iff.mp hr with ⟨p1, p2⟩ | ⟨p1, p2⟩
  · obtain ⟨q1, q2, q3, q4⟩ := right_up ha va2 hdt1 p1 p2 (by linarith [h.below]) (by linarith) hlim hlim'
    have hp : 0 ≤ s'.velocity := p1.trans q1
    have hp' : 0 < s'.velocity := lt_of_le_of_ne hp (Ne.symm hv0)
    rw [abs_of_nonneg p1, abs_of_nonneg p2, abs_of_nonneg hp]
    refine ⟨q1, q2, q3, ?_⟩
    rcases q4 with ⟨r1, r2⟩ | ⟨r1, r2⟩
    · exact Or.inl ⟨mul_nonneg hp r1, by rw [abs_of_nonneg r1, r2]⟩
    · exact Or.inr ⟨mul_neg_of_pos_of_neg hp' r1, by rw [abs_of_neg r1]; exact r2⟩
  · have l1 := hlim.neg
    have l2 := hlim'.neg
    rw [show -(s.velocity + dt * (s.away * s.init.accel)) = -s.velocity + dt * (-s.away * s.init.accel) by ring, neg_neg] at l1
    rw [show -(s.away - dt * s'.velocity) = -s.away - dt * -s'.velocity by ring] at l2
    obtain ⟨q1, q2, q3, q4⟩ := right_up ha (by linarith) hdt1 (neg_nonneg.mpr p1) (neg_nonneg.mpr p2) (by linarith [h.above]) (by linarith) l1 l2
    have hp : s'.velocity ≤ 0 := by linarith
    have hp' : s'.velocity < 0 := lt_of_le_of_ne hp hv0
    rw [abs_of_nonpos p1, abs_of_nonpos p2, abs_of_nonpos hp]
    refine ⟨q1, q2, q3, ?_⟩
    rcases q4 with ⟨r1, r2⟩ | ⟨r1, r2⟩
    · exact Or.inl ⟨mul_nonneg_of_nonpos_of_nonpos hp (by linarith), by rw [abs_of_nonpos (by linarith), r2]⟩
    · exact Or.inr ⟨mul_neg_of_neg_of_pos hp' (by linarith), by rw [abs_of_pos (by linarith)]; linarith⟩

/-- A step away from the target. -/
theorem step_wrong {s : OvershootSlot K} (h : Damped s.init s.target) (hs : s.Sound) (hr : s.velocity * s.away < 0)
    {dt : ℤ} (h1 : 1 ≤ dt) (h2 : dt ≤ s.init.maxDt) :
    ∃ s', s.substep dt = some s' ∧ s'.init = s.init ∧ s'.target = s.target ∧
      (s'.Settled ∨ s'.Sound ∧
        (s'.velocity * s'.away < 0 ∧ |s'.velocity| = |s.velocity| - dt * (|s.away| * s.init.accel * s.init.wrongMultiplier) ∧
          |s.away| ≤ |s'.away| ∧ |s'.away| ≤ |s.away| + dt * |s'.velocity| ∧
          (|s'.away| = |s.away| + dt * |s'.velocity| ∨ gap s.init s.target ≤ |s'.away|) ∨
         0 ≤ s'.velocity * s'.away ∧ |s'.velocity| ≤ dt * (|s.away| * s.init.accel * s.init.wrongMultiplier) ∧ |s'.away| ≤ |s.away|)) := by
  obtain ⟨s', e, e1, e2, hor⟩ := step_sound h h1 h2
  refine ⟨s', e, e1, e2, hor.imp id ?_⟩
  rintro ⟨hv, hv0, -, hx, hs'⟩
  refine ⟨hs', ?_⟩
  have hdt1 : (1 : K) ≤ dt := by exact_mod_cast h1
  have hdtm : (dt : K) ≤ s.init.maxDt := by exact_mod_cast h2
  have hV := h.maxVelocity
  have ha := h.accel
  have hw : 0 < s.init.wrongMultiplier := by linarith [h.damping]
  have hsm : (dt : K) * dt * (s.init.accel * s.init.wrongMultiplier) ≤ 1 := by
    have h3 : (dt : K) * dt ≤ s.init.maxDt * s.init.maxDt := mul_le_mul hdtm hdtm (by linarith) (by linarith)
    have h4 := mul_le_mul_of_nonneg_right h3 (mul_pos ha hw).le
    have h5 := h.slowBack
    have h6 : 7 * (s.init.accel * s.init.wrongMultiplier * (s.init.maxDt : K) ^ 2) =
      7 * ((s.init.maxDt : K) * s.init.maxDt * (s.init.accel * s.init.wrongMultiplier)) := by ring
    rw [h6] at h5
    linarith
  have hacc : s.acceleration s.away = s.away * s.init.accel * s.init.wrongMultiplier := by
    unfold acceleration
    rw [if_pos hr]
  have hlim : Limited (s.velocity + dt * (s.away * s.init.accel * s.init.wrongMultiplier)) (-s.init.maxVelocity) s.init.maxVelocity s'.velocity := by
    rw [hv, hacc]; exact limited_clampTo (by linarith)
  have hlim' : Limited (s.away - dt * s'.velocity) (s.target - s.init.range.stop) (s.target - s.init.range.start) s'.away := by
    have := limited_clamp (r := s.init.range) (by linarith [h.above, h.below]) s.target (s.value + dt * s'.velocity)
    rw [← hx] at this
    have e3 : s'.away = s.target - s'.value := by unfold away; rw [e2]
    have e4 : s.away - dt * s'.velocity = s.target - (s.value + dt * s'.velocity) := by unfold away; ring
    rw [e3, e4]; exact this
  obtain ⟨va1, va2⟩ := abs_le.mp hs.velocity
  have hb1 := hs.above
  have hb2 := hs.below
  have haw : s.value = s.target - s.away := by unfold away; ring
  rw [haw] at hb1 hb2
  have g1 : gap s.init s.target ≤ s.target - s.init.range.start := min_le_left _ _
  have g2 : gap s.init s.target ≤ s.init.range.stop - s.target := min_le_right _ _
  rcases mul_neg_iff.mp hr with ⟨p1, p2⟩ | ⟨p1, p2⟩
  · have := wrong_up ha hw va2 hdt1 hsm p1 p2 (by linarith) (by linarith [h.above]) hv0 hlim hlim'
    rw [abs_of_pos p1, abs_of_neg p2]
    rcases this with ⟨q1, q2, q3, q4, q5, q6⟩ | ⟨q1, q2, q3, q4⟩
    · rw [abs_of_pos q1, abs_of_neg q2]
      exact Or.inl ⟨mul_neg_of_pos_of_neg q1 q2, q3, q4, q5, q6.imp id (fun h => by rw [h]; linarith)⟩
    · rw [abs_of_neg q1, abs_of_nonpos q2]
      exact Or.inr ⟨mul_nonneg_of_nonpos_of_nonpos q1.le q2, q3, q4⟩
  · have l1 := hlim.neg
    have l2 := hlim'.neg
    rw [show -(s.velocity + dt * (s.away * s.init.accel * s.init.wrongMultiplier)) =
      -s.velocity + dt * (-s.away * s.init.accel * s.init.wrongMultiplier) by ring, neg_neg] at l1
    rw [show -(s.away - dt * s'.velocity) = -s.away - dt * -s'.velocity by ring] at l2
    have := wrong_up ha hw (by linarith) hdt1 hsm (neg_pos.mpr p1) (by linarith : -s.away < 0) (by linarith) (by linarith [h.below])
      (neg_ne_zero.mpr hv0) l1 l2
    simp only [neg_neg] at this
    rw [abs_of_neg p1, abs_of_pos p2]
    rcases this with ⟨q1, q2, q3, q4, q5, q6⟩ | ⟨q1, q2, q3, q4⟩
    · rw [abs_of_neg (by linarith : s'.velocity < 0), abs_of_pos (by linarith : 0 < s'.away)]
      exact Or.inl ⟨mul_neg_of_neg_of_pos (by linarith) (by linarith), q3, q4, q5, q6.imp id (fun h => by rw [h]; linarith)⟩
    · rw [abs_of_pos (by linarith : 0 < s'.velocity), abs_of_nonneg (by linarith : 0 ≤ s'.away)]
      exact Or.inr ⟨mul_nonneg (by linarith) (by linarith), q3, q4⟩

/-! ### Energy -/

/-- The energy of a motivator on its way to the target does not grow, up to a term that is paid for by the distance. -/
theorem right_energy {a m t p q p' q' E D : K} (ha : 0 ≤ a) (hp : 0 ≤ p) (hq : 0 ≤ q) (ht : 0 ≤ t) (htm : t ≤ m) (h1 : p ≤ p')
    (h2 : p' ≤ p + t * (q * a)) (h3 : q' = q - t * p') (hD : q ≤ D)
    (h : p ^ 2 + a * q ^ 2 ≤ E + a * m * (p * (D - q))) : p' ^ 2 + a * q' ^ 2 ≤ E + a * m * (p' * (D - q')) := by
  have hp' : 0 ≤ p' := hp.trans h1
  have e1 : (p' - p) * (p' + p) ≤ t * (q * a) * (p' + p) := mul_le_mul_of_nonneg_right (by linarith) (by linarith)
  have e2 : p' ^ 2 + a * q' ^ 2 - (p ^ 2 + a * q ^ 2) = (p' - p) * (p' + p) - a * (t * p') * (q + q') := by rw [h3]; ring
  have hqq : 0 ≤ q - q' := by rw [h3]; have := mul_nonneg ht hp'; linarith
  have e3 : t * (q * a) * (p' + p) - a * (t * p') * (q + q') = a * t * (q * p - p' * q') := by ring
  have e4 : a * t * (q * p - p' * q') ≤ a * t * (p' * (q - q')) := by
    refine mul_le_mul_of_nonneg_left ?_ (mul_nonneg ha ht)
    have := mul_le_mul_of_nonneg_left h1 hq
    linarith
  have e5 : a * t * (p' * (q - q')) ≤ a * m * (p' * (q - q')) :=
    mul_le_mul_of_nonneg_right (mul_le_mul_of_nonneg_left htm ha) (mul_nonneg hp' hqq)
  have e6 : a * m * (p * (D - q)) ≤ a * m * (p' * (D - q)) :=
    mul_le_mul_of_nonneg_left (mul_le_mul_of_nonneg_right h1 (by linarith)) (mul_nonneg ha (ht.trans htm))
  have e7 : a * m * (p' * (D - q)) + a * m * (p' * (q - q')) = a * m * (p' * (D - q')) := by ring
  linarith

/-- The speed at which the target is passed. -/
theorem cross_speed {a m t p q p' E D : K} (ha : 0 ≤ a) (hp : 0 ≤ p) (hq : 0 ≤ q) (hm : 0 ≤ m) (ht : 0 ≤ t) (htm : t ≤ m)
    (hsl : 31 * (a * m ^ 2) ≤ 1)
    (h1 : 0 ≤ p') (h2 : p' ≤ p + t * (q * a)) (hDE : a * D ^ 2 ≤ E) (h : p ^ 2 + a * q ^ 2 ≤ E + a * m * (p * (D - q))) :
    p' ^ 2 ≤ 12371 / 10000 * E := by
  have hE : 0 ≤ E := (mul_nonneg ha (sq_nonneg D)).trans hDE
  have e1 : p' ^ 2 ≤ (p + t * (q * a)) ^ 2 := pow_le_pow_left₀ h1 h2 2
  have e2 : (p + t * (q * a)) ^ 2 ≤ (p ^ 2 + a * q ^ 2) * (1 + a * t ^ 2) := by
    have : (p ^ 2 + a * q ^ 2) * (1 + a * t ^ 2) - (p + t * (q * a)) ^ 2 = a * (q - t * p) ^ 2 := by ring
    have := mul_nonneg ha (sq_nonneg (q - t * p))
    linarith
  have e3 : a * t ^ 2 ≤ 1 / 31 := by
    have := mul_le_mul_of_nonneg_left (pow_le_pow_left₀ ht htm 2) ha
    linarith
  have hEc : 0 ≤ p ^ 2 + a * q ^ 2 := add_nonneg (sq_nonneg _) (mul_nonneg ha (sq_nonneg _))
  have e4 : (p ^ 2 + a * q ^ 2) * (1 + a * t ^ 2) ≤ (p ^ 2 + a * q ^ 2) * (32 / 31) := mul_le_mul_of_nonneg_left (by linarith) hEc
  have e5 : a * m * (p * (D - q)) ≤ a * m * (p * D) :=
    mul_le_mul_of_nonneg_left (mul_le_mul_of_nonneg_left (by linarith) hp) (mul_nonneg ha hm)
  have e6 : a * m * (p * D) ≤ 3 / 32 * p ^ 2 + 8 / 3 * (a * m * D) ^ 2 := by
    have := sq_nonneg (3 / 16 * p - a * m * D)
    have e : 8 / 3 * (3 / 16 * p - a * m * D) ^ 2 = 3 / 32 * p ^ 2 + 8 / 3 * (a * m * D) ^ 2 - a * m * (p * D) := by ring
    linarith
  have e7 : (a * m * D) ^ 2 ≤ 1 / 31 * E := by
    have e : (a * m * D) ^ 2 = a * m ^ 2 * (a * D ^ 2) := by ring
    rw [e]
    exact mul_le_mul (by linarith) hDE (mul_nonneg ha (sq_nonneg _)) (by norm_num)
  have e8 : 0 ≤ a * q ^ 2 := mul_nonneg ha (sq_nonneg _)
  linarith

/-- The energy, with the stronger acceleration, of a motivator that moves away. -/
theorem wrong_energy {b m t p q p' q' F P : K} (hb : 0 ≤ b) (hq : 0 ≤ q) (ht : 0 ≤ t) (htm : t ≤ m) (h0 : 0 ≤ p')
    (h1 : p' = p - t * (q * b)) (h2 : q ≤ q') (h3 : q' ≤ q + t * p') (hP : p ≤ P)
    (h : p ^ 2 + b * q ^ 2 ≤ F + b * m * (P * q)) : p' ^ 2 + b * q' ^ 2 ≤ F + b * m * (P * q') := by
  have hx : 0 ≤ t * (q * b) := mul_nonneg ht (mul_nonneg hq hb)
  have e1 : b * ((q' - q) * (q' + q)) ≤ b * (t * p' * (q' + q)) :=
    mul_le_mul_of_nonneg_left (mul_le_mul_of_nonneg_right (by linarith) (by linarith)) hb
  have e2 : p' ^ 2 + b * q' ^ 2 - (p ^ 2 + b * q ^ 2) = -(t * (q * b)) * (p' + p) + b * ((q' - q) * (q' + q)) := by rw [h1]; ring
  have e3 : -(t * (q * b)) * (p' + p) + b * (t * p' * (q' + q)) = b * t * (p' * q' - p * q) := by ring
  have e4 : b * t * (p' * q' - p * q) ≤ b * t * (P * (q' - q)) := by
    refine mul_le_mul_of_nonneg_left ?_ (mul_nonneg hb ht)
    have i1 : p' * q' ≤ p * q' := mul_le_mul_of_nonneg_right (by linarith) (by linarith)
    have i2 : p * (q' - q) ≤ P * (q' - q) := mul_le_mul_of_nonneg_right hP (by linarith)
    linarith
  have e5 : b * t * (P * (q' - q)) ≤ b * m * (P * (q' - q)) :=
    mul_le_mul_of_nonneg_right (mul_le_mul_of_nonneg_left htm hb) (mul_nonneg (by linarith) (by linarith))
  have e6 : b * m * (P * q) + b * m * (P * (q' - q)) = b * m * (P * q') := by ring
  linarith

/-- The energy at the turning point. -/
theorem turn_energy {a w m t p q p' q' F P : K} (ha : 0 ≤ a) (hw : 0 ≤ w) (hq : 0 ≤ q) (htm : t ≤ m)
    (h0 : 0 ≤ p') (h1 : p' ≤ t * (q * a * w)) (h2 : 0 ≤ q') (h3 : q' ≤ q)
    (h : p ^ 2 + a * w * q ^ 2 ≤ F + a * w * m * (P * q)) :
    13 * (w * (p' ^ 2 + a * q' ^ 2)) ≤ 16 * ((F + 4 / 3 * (a * w * m ^ 2) * P ^ 2) * (1 + w * (a * w * m ^ 2))) := by
  have hb : 0 ≤ a * w := mul_nonneg ha hw
  have e1 : p' ^ 2 ≤ (m * (q * a * w)) ^ 2 :=
    pow_le_pow_left₀ h0 (h1.trans (mul_le_mul_of_nonneg_right htm (mul_nonneg (mul_nonneg hq ha) hw))) 2
  have e2 : a * q' ^ 2 ≤ a * q ^ 2 := mul_le_mul_of_nonneg_left (pow_le_pow_left₀ h2 h3 2) ha
  have e3 : w * ((m * (q * a * w)) ^ 2 + a * q ^ 2) = a * w * q ^ 2 * (1 + w * (a * w * m ^ 2)) := by ring
  have e4 : w * (p' ^ 2 + a * q' ^ 2) ≤ a * w * q ^ 2 * (1 + w * (a * w * m ^ 2)) := by
    rw [← e3]; exact mul_le_mul_of_nonneg_left (by linarith) hw
  have e5 : a * w * m * (P * q) ≤ 3 / 16 * (a * w * q ^ 2) + 4 / 3 * (a * w * m ^ 2) * P ^ 2 := by
    have := mul_nonneg hb (sq_nonneg (3 / 8 * q - m * P))
    have e : 4 / 3 * (a * w * (3 / 8 * q - m * P) ^ 2) =
      3 / 16 * (a * w * q ^ 2) + 4 / 3 * (a * w * m ^ 2) * P ^ 2 - a * w * m * (P * q) := by ring
    linarith
  have e6 : 13 * (a * w * q ^ 2) ≤ 16 * (F + 4 / 3 * (a * w * m ^ 2) * P ^ 2) := by
    have := sq_nonneg p
    linarith
  have h7 : 0 ≤ 1 + w * (a * w * m ^ 2) := by positivity
  have e8 := mul_le_mul_of_nonneg_right e6 h7
  linarith

/-- What is left after a swing. -/
theorem swing {w β : K} (hw : 2 ≤ w) (h1 : 7 * β ≤ 1) (h2 : 31 * β ≤ w) (h0 : 0 ≤ β) :
    16 * (12371 / 10000 * (1 + β + 4 / 3 * β) * (1 + w * β)) ≤ 13 * (99 / 100 * w) := by
  rcases le_total w 3 with h | h
  · have e1 : 1 + β + 4 / 3 * β ≤ 1 + 7 / 93 * w := by linarith
    have e2 : 1 + w * β ≤ 1 + w * (w / 31) := by
      have := mul_le_mul_of_nonneg_left (show β ≤ w / 31 by linarith) (show 0 ≤ w by linarith)
      linarith
    have e3 : (1 + β + 4 / 3 * β) * (1 + w * β) ≤ (1 + 7 / 93 * w) * (1 + w * (w / 31)) :=
      mul_le_mul e1 e2 (by positivity) (by positivity)
    have e4 : 16 * (12371 / 10000 * ((1 + 7 / 93 * w) * (1 + w * (w / 31)))) ≤ 13 * (99 / 100 * w) := by
      have k1 := mul_nonneg (sub_nonneg.mpr hw) (sub_nonneg.mpr h)
      nlinarith [mul_nonneg k1 (show 0 ≤ w by linarith)]
    linarith
  · have e1 : 1 + β + 4 / 3 * β ≤ 4 / 3 := by linarith
    have e2 : 1 + w * β ≤ 1 + w / 7 := by
      have := mul_le_mul_of_nonneg_left (show β ≤ 1 / 7 by linarith) (show 0 ≤ w by linarith)
      linarith
    have e3 : (1 + β + 4 / 3 * β) * (1 + w * β) ≤ 4 / 3 * (1 + w / 7) := mul_le_mul e1 e2 (by positivity) (by norm_num)
    linarith

/-! ### Phases -/

/-- Within `n` steps of any lengths from 1 to `m`, the motivator passes through a state in `S`. -/
def Within (S : OvershootSlot K → Prop) (m : ℤ) : ℕ → OvershootSlot K → Prop
  | 0, s => S s
  | n + 1, s => S s ∨ ∀ dt : ℤ, 1 ≤ dt → dt ≤ m → ∃ s', s.substep dt = some s' ∧ Within S m n s'

theorem Within.now {S : OvershootSlot K → Prop} {m : ℤ} {n : ℕ} {s : OvershootSlot K} (h : S s) : Within S m n s := by
  cases n with
  | zero => exact h
  | succ n => exact Or.inl h

theorem Within.later {S : OvershootSlot K → Prop} {m : ℤ} {n : ℕ} {s : OvershootSlot K}
    (h : ∀ dt : ℤ, 1 ≤ dt → dt ≤ m → ∃ s', s.substep dt = some s' ∧ Within S m n s') : Within S m (n + 1) s := Or.inr h

theorem Within.more {S : OvershootSlot K → Prop} {m : ℤ} {n : ℕ} {s : OvershootSlot K} (h : Within S m n s) (k : ℕ) : Within S m (n + k) s := by
  induction n generalizing s with
  | zero => exact .now h
  | succ n ih =>
    rw [Nat.add_right_comm]
    rcases h with h | h
    · exact .now h
    · refine .later fun dt h1 h2 => ?_
      obtain ⟨s', e, hw⟩ := h dt h1 h2
      exact ⟨s', e, ih hw⟩

theorem Within.bind {S S' : OvershootSlot K → Prop} {m : ℤ} {n k : ℕ} {s : OvershootSlot K} (h : Within S m n s)
    (hS : ∀ s, S s → Within S' m k s) : Within S' m (k + n) s := by
  induction n generalizing s with
  | zero => exact hS s h
  | succ n ih =>
    rcases h with h | h
    · exact (hS s h).more _
    · rw [← Nat.add_assoc]
      refine .later fun dt h1 h2 => ?_
      obtain ⟨s', e, hw⟩ := h dt h1 h2
      exact ⟨s', e, ih hw⟩

/-- The configuration and the target are as before. -/
def Kept (i : OvershootInit K) (T : K) (s : OvershootSlot K) : Prop := s.init = i ∧ s.target = T

/-- On the way to the target, with no more energy than `E`. -/
def Coming (A : OvershootSlot K → K) (S : OvershootSlot K → Prop) (i : OvershootInit K) (T E : K) (s : OvershootSlot K) : Prop :=
  Kept i T s ∧ S s ∧ 0 ≤ s.velocity * A s ∧ |s.velocity| ^ 2 + i.accel * |A s| ^ 2 ≤ E

/-- Just past the target. -/
def Passed (A : OvershootSlot K → K) (S : OvershootSlot K → Prop) (i : OvershootInit K) (T R E : K) (s : OvershootSlot K) : Prop :=
  Kept i T s ∧ S s ∧ s.velocity * A s < 0 ∧ |s.velocity| ^ 2 ≤ 12371 / 10000 * E ∧
    |s.velocity| ^ 2 ≤ E + 2 * (i.accel * i.maxDt * (i.maxVelocity * R)) ∧ |A s| ≤ i.maxDt * |s.velocity|

/-- Exactly on the target, and at rest. -/
def Done (i : OvershootInit K) (T : K) (s : OvershootSlot K) : Prop := Kept i T s ∧ s.Settled

/-- What the steps of a motivator do, with (`OvershootRound.lean`) and without wrap-around: `A` is the difference to the target, at most `R`, and
`S` holds of states within the limits. -/
structure Swings (A : OvershootSlot K → K) (S : OvershootSlot K → Prop) (i : OvershootInit K) (T G R : K) : Prop extends Tuned i where
  gap : 0 < G
  far : 10 * (i.maxDt * i.maxVelocity) ≤ R
  speed : ∀ s, Kept i T s → S s → |s.velocity| ≤ i.maxVelocity
  dist : ∀ s, Kept i T s → S s → |A s| ≤ R
  right : ∀ s, Kept i T s → S s → 0 ≤ s.velocity * A s → ∀ dt : ℤ, 1 ≤ dt → dt ≤ i.maxDt →
    ∃ s', s.substep dt = some s' ∧ Kept i T s' ∧
      (s'.Settled ∨ S s' ∧ s'.velocity ≠ 0 ∧ (i.atDifference < |A s| ∨ i.atVelocity < |s'.velocity|) ∧
        |s.velocity| ≤ |s'.velocity| ∧ |s'.velocity| ≤ |s.velocity| + dt * (|A s| * i.accel) ∧
        (|s'.velocity| = |s.velocity| + dt * (|A s| * i.accel) ∨ |s'.velocity| = i.maxVelocity) ∧
        (0 ≤ s'.velocity * A s' ∧ |A s'| = |A s| - dt * |s'.velocity| ∨
         s'.velocity * A s' < 0 ∧ |A s'| ≤ dt * |s'.velocity|))
  wrong : ∀ s, Kept i T s → S s → s.velocity * A s < 0 → ∀ dt : ℤ, 1 ≤ dt → dt ≤ i.maxDt →
    ∃ s', s.substep dt = some s' ∧ Kept i T s' ∧
      (s'.Settled ∨ S s' ∧
        (s'.velocity * A s' < 0 ∧ |s'.velocity| = |s.velocity| - dt * (|A s| * i.accel * i.wrongMultiplier) ∧
          |A s| ≤ |A s'| ∧ |A s'| ≤ |A s| + dt * |s'.velocity| ∧
          (|A s'| = |A s| + dt * |s'.velocity| ∨ G ≤ |A s'|) ∨
         0 ≤ s'.velocity * A s' ∧ |s'.velocity| ≤ dt * (|A s| * i.accel * i.wrongMultiplier) ∧ |A s'| ≤ |A s| ∨
         0 ≤ s'.velocity * A s' ∧ |s'.velocity| ≤ |s.velocity| ∧ R - i.maxDt * i.maxVelocity ≤ |A s|))

variable {A : OvershootSlot K → K} {S : OvershootSlot K → Prop} {G R : K}

/-- The speed at the target, once more. -/
theorem cross_speed_add {a m t p q p' E D V R : K} (ha : 0 ≤ a) (hp : 0 ≤ p) (hq : 0 ≤ q) (hm : 0 ≤ m) (htm : t ≤ m)
    (hsm : 31 * (a * m ^ 2) ≤ 1) (hp0 : 0 ≤ p') (h2 : p' ≤ p + t * (q * a)) (hD : D ≤ R) (hqR : q ≤ R) (hpV : p ≤ V)
    (hE : p ^ 2 + a * q ^ 2 ≤ E + a * m * (p * (D - q))) : p' ^ 2 ≤ E + 2 * (a * m * (V * R)) := by
  have h3 : p' ≤ p + m * (q * a) := h2.trans (by have := mul_le_mul_of_nonneg_right htm (mul_nonneg hq ha); linarith)
  have h4 : p' ^ 2 ≤ (p + m * (q * a)) ^ 2 := pow_le_pow_left₀ hp0 h3 2
  have h5 : (p + m * (q * a)) ^ 2 = p ^ 2 + 2 * (a * m * (p * q)) + a * m ^ 2 * (a * q ^ 2) := by ring
  have h6 : a * m ^ 2 * (a * q ^ 2) ≤ 1 * (a * q ^ 2) := mul_le_mul_of_nonneg_right (by linarith) (by positivity)
  have h7 : a * m * (p * (D + q)) ≤ a * m * (V * (R + R)) := by
    refine mul_le_mul_of_nonneg_left ?_ (mul_nonneg ha hm)
    calc p * (D + q) ≤ p * (R + R) := mul_le_mul_of_nonneg_left (by linarith) hp
      _ ≤ V * (R + R) := mul_le_mul_of_nonneg_right hpV (by linarith)
  have h8 : a * m * (p * (D + q)) = a * m * (p * (D - q)) + 2 * (a * m * (p * q)) := by ring
  have h9 : a * m * (V * (R + R)) = 2 * (a * m * (V * R)) := by ring
  linarith

/-- From the turning point to the target. -/
theorem coming_phase (h : Swings A S i T G R) {E D : K} (hDE : i.accel * D ^ 2 ≤ E) (hDR : D ≤ R) (k : ℕ) {s : OvershootSlot K} (hk : Kept i T s)
    (hs : S s) (hr : 0 ≤ s.velocity * A s) (hD : |A s| ≤ D)
    (hE : |s.velocity| ^ 2 + i.accel * |A s| ^ 2 ≤ E + i.accel * i.maxDt * (|s.velocity| * (D - |A s|)))
    (hq : |A s| ≤ k * |s.velocity|) :
    Within (fun s => Done i T s ∨ Passed A S i T R E s) i.maxDt (k + 1) s := by
  have ha := h.accel
  have hm : (0 : K) ≤ i.maxDt := by exact_mod_cast h.maxDt.le
  induction k generalizing s with
  | zero =>
    refine .later fun dt h1 h2 => ?_
    have ht : (0 : K) ≤ dt := by exact_mod_cast (by omega : (0 : ℤ) ≤ dt)
    have htm : (dt : K) ≤ i.maxDt := by exact_mod_cast h2
    obtain ⟨s', e, e1, hset | ⟨hs', hv0, -, p1, p2, p3, ⟨q1, q2⟩ | ⟨q1, q2⟩⟩⟩ := h.right s hk hs hr dt h1 h2
    · exact ⟨s', e, .now (Or.inl ⟨e1, hset⟩)⟩
    · exfalso
      have h0 : |A s| ≤ 0 := by simpa using hq
      have h3 : 0 < dt * |s'.velocity| := mul_pos (by exact_mod_cast (by omega : (0 : ℤ) < dt)) (abs_pos.mpr hv0)
      linarith [abs_nonneg (A s')]
    · refine ⟨s', e, .now (Or.inr ⟨e1, hs', q1, ?_, ?_, q2.trans (mul_le_mul_of_nonneg_right htm (abs_nonneg _))⟩)⟩
      · exact cross_speed ha.le (abs_nonneg _) (abs_nonneg _) hm ht htm h.slow (abs_nonneg _) p2 hDE hE
      · exact cross_speed_add ha.le (abs_nonneg _) (abs_nonneg _) hm htm h.slow (abs_nonneg _) p2 hDR (hD.trans hDR) (h.speed s hk hs) hE
  | succ k ih =>
    refine .later fun dt h1 h2 => ?_
    have ht : (0 : K) ≤ dt := by exact_mod_cast (by omega : (0 : ℤ) ≤ dt)
    have ht1 : (1 : K) ≤ dt := by exact_mod_cast h1
    have htm : (dt : K) ≤ i.maxDt := by exact_mod_cast h2
    obtain ⟨s', e, e1, hset | ⟨hs', hv0, -, p1, p2, p3, ⟨q1, q2⟩ | ⟨q1, q2⟩⟩⟩ := h.right s hk hs hr dt h1 h2
    · exact ⟨s', e, .now (Or.inl ⟨e1, hset⟩)⟩
    · refine ⟨s', e, ih e1 hs' q1 ?_ ?_ ?_⟩
      · have := mul_nonneg ht (abs_nonneg s'.velocity)
        linarith
      · exact right_energy ha.le (abs_nonneg _) (abs_nonneg _) ht htm p1 p2 q2 hD hE
      · have i1 : |s'.velocity| ≤ dt * |s'.velocity| := le_mul_of_one_le_left (abs_nonneg _) ht1
        have i2 : ((k + 1 : ℕ) : K) * |s.velocity| ≤ ((k + 1 : ℕ) : K) * |s'.velocity| := mul_le_mul_of_nonneg_left p1 (by positivity)
        push_cast at hq i2
        linarith
    · refine ⟨s', e, .now (Or.inr ⟨e1, hs', q1, ?_, ?_, q2.trans (mul_le_mul_of_nonneg_right htm (abs_nonneg _))⟩)⟩
      · exact cross_speed ha.le (abs_nonneg _) (abs_nonneg _) hm ht htm h.slow (abs_nonneg _) p2 hDE hE
      · exact cross_speed_add ha.le (abs_nonneg _) (abs_nonneg _) hm htm h.slow (abs_nonneg _) p2 hDR (hD.trans hDR) (h.speed s hk hs) hE

/-- Back on the way to the target, with the energy that is left after turning round, or after going all the way round. -/
def Turned (A : OvershootSlot K → K) (S : OvershootSlot K → Prop) (i : OvershootInit K) (T R F P : K) (s : OvershootSlot K) : Prop :=
  ∃ e, Coming A S i T e s ∧
    (13 * (i.wrongMultiplier * e) ≤ 16 * ((F + 4 / 3 * (i.accel * i.wrongMultiplier * i.maxDt ^ 2) * P ^ 2) *
        (1 + i.wrongMultiplier * (i.accel * i.wrongMultiplier * i.maxDt ^ 2))) ∨
     e ≤ F + i.accel * i.wrongMultiplier * (i.maxDt * i.maxVelocity * R - (R - i.maxDt * i.maxVelocity) ^ 2) + i.accel * R ^ 2)

/-- The energy after going round. -/
theorem round_energy {a b m p q p' q' F P V R : K} (ha : 0 ≤ a) (hb : 0 ≤ b) (hm : 0 ≤ m) (hp' : 0 ≤ p') (h1 : p' ≤ p) (hq' : 0 ≤ q') (hqR' : q' ≤ R)
    (hq : 0 ≤ q) (hqR : q ≤ R) (hPV : P ≤ V) (hV : 0 ≤ V) (h2 : R - m * V ≤ q) (h0 : 0 ≤ R - m * V) (hF : p ^ 2 + b * q ^ 2 ≤ F + b * m * (P * q)) :
    p' ^ 2 + a * q' ^ 2 ≤ F + b * (m * V * R - (R - m * V) ^ 2) + a * R ^ 2 := by
  have e1 : p' ^ 2 ≤ p ^ 2 := pow_le_pow_left₀ hp' h1 2
  have e2 : a * q' ^ 2 ≤ a * R ^ 2 := mul_le_mul_of_nonneg_left (pow_le_pow_left₀ hq' hqR' 2) ha
  have e3 : b * (R - m * V) ^ 2 ≤ b * q ^ 2 := mul_le_mul_of_nonneg_left (pow_le_pow_left₀ h0 h2 2) hb
  have e4 : b * m * (P * q) ≤ b * m * (V * R) := mul_le_mul_of_nonneg_left (mul_le_mul hPV hqR hq hV) (mul_nonneg hb hm)
  have e5 : b * (m * V * R - (R - m * V) ^ 2) = b * m * (V * R) - b * (R - m * V) ^ 2 := by ring
  linarith

/-- From the target to the next turning point. -/
theorem leaving_phase (h : Swings A S i T G R) {F P r : K} (hr0 : 0 < r) (hPV : P ≤ i.maxVelocity) (j : ℕ) {s : OvershootSlot K} (hk : Kept i T s)
    (hs : S s) (hr : s.velocity * A s < 0) (hP : |s.velocity| ≤ P)
    (hF : |s.velocity| ^ 2 + i.accel * i.wrongMultiplier * |A s| ^ 2 ≤ F + i.accel * i.wrongMultiplier * i.maxDt * (P * |A s|))
    (hrq : r ≤ |A s|) (hj : |s.velocity| ≤ j * (i.accel * i.wrongMultiplier * r)) :
    Within (fun s => Done i T s ∨ Turned A S i T R F P s) i.maxDt j s := by
  have ha := h.accel
  have hw : 0 < i.wrongMultiplier := by linarith [h.damping]
  have hb : 0 < i.accel * i.wrongMultiplier := mul_pos ha hw
  have hm : (0 : K) ≤ i.maxDt := by exact_mod_cast h.maxDt.le
  have hV := h.maxVelocity
  have hmV := mul_nonneg hm hV.le
  have hfar := h.far
  induction j generalizing s with
  | zero =>
    exfalso
    have h0 : |s.velocity| ≤ 0 := by simpa using hj
    have h1 : s.velocity = 0 := abs_nonpos_iff.mp h0
    rw [h1, zero_mul] at hr
    exact lt_irrefl _ hr
  | succ j ih =>
    refine .later fun dt h1 h2 => ?_
    have ht : (0 : K) ≤ dt := by exact_mod_cast (by omega : (0 : ℤ) ≤ dt)
    have ht1 : (1 : K) ≤ dt := by exact_mod_cast h1
    have htm : (dt : K) ≤ i.maxDt := by exact_mod_cast h2
    obtain ⟨s', e, e1, hset | ⟨hs', ⟨q1, q2, q3, q4, q5⟩ | ⟨q1, q2, q3⟩ | ⟨q1, q2, q3⟩⟩⟩ := h.wrong s hk hs hr dt h1 h2
    · exact ⟨s', e, .now (Or.inl ⟨e1, hset⟩)⟩
    · have hx : i.accel * i.wrongMultiplier * r ≤ dt * (|A s| * i.accel * i.wrongMultiplier) := by
        have i1 : i.accel * i.wrongMultiplier * r ≤ i.accel * i.wrongMultiplier * |A s| := mul_le_mul_of_nonneg_left hrq hb.le
        have i2 : |A s| * i.accel * i.wrongMultiplier = i.accel * i.wrongMultiplier * |A s| := by ring
        rw [i2]
        have i3 : i.accel * i.wrongMultiplier * |A s| ≤ dt * (i.accel * i.wrongMultiplier * |A s|) :=
          le_mul_of_one_le_left (mul_nonneg hb.le (abs_nonneg _)) ht1
        linarith
      have hx0 := mul_pos hb hr0
      refine ⟨s', e, ih e1 hs' q1 (by linarith) ?_ (hrq.trans q3) ?_⟩
      · refine wrong_energy hb.le (abs_nonneg (A s)) ht htm (abs_nonneg _) ?_ q3 q4 hP hF
        rw [q2]; ring
      · push_cast at hj
        linarith
    · refine ⟨s', e, .now (Or.inr ⟨_, ⟨e1, hs', q1, le_rfl⟩, Or.inl ?_⟩)⟩
      exact turn_energy ha.le hw.le (abs_nonneg (A s)) htm (abs_nonneg _) q2 (abs_nonneg _) q3 hF
    · refine ⟨s', e, .now (Or.inr ⟨_, ⟨e1, hs', q1, le_rfl⟩, Or.inr ?_⟩)⟩
      exact round_energy ha.le hb.le hm (abs_nonneg _) q2 (abs_nonneg _) (h.dist s' e1 hs') (abs_nonneg _) (h.dist s hk hs) hPV hV.le q3 (by linarith) hF

/-- From a turning point past the target. -/
theorem Coming.passes (h : Swings A S i T G R) {E : K} {k : ℕ} (hk1 : 1 ≤ k * i.accel) (hk2 : R ≤ k * i.maxVelocity)
    {s : OvershootSlot K} (hc : Coming A S i T E s) : Within (fun s => Done i T s ∨ Passed A S i T R E s) i.maxDt (k + 2) s := by
  obtain ⟨hk, hs, hr, hE⟩ := hc
  have ha := h.accel
  have hm : (0 : K) ≤ i.maxDt := by exact_mod_cast h.maxDt.le
  have hDE : i.accel * |A s| ^ 2 ≤ E := by have := sq_nonneg |s.velocity|; linarith
  have hE' : |s.velocity| ^ 2 + i.accel * |A s| ^ 2 ≤ E + i.accel * i.maxDt * (|s.velocity| * (|A s| - |A s|)) := by
    rw [sub_self, mul_zero, mul_zero, add_zero]; exact hE
  have hDR := h.dist s hk hs
  refine .later fun dt h1 h2 => ?_
  have ht : (0 : K) ≤ dt := by exact_mod_cast (by omega : (0 : ℤ) ≤ dt)
  have ht1 : (1 : K) ≤ dt := by exact_mod_cast h1
  have htm : (dt : K) ≤ i.maxDt := by exact_mod_cast h2
  obtain ⟨s', e, e1, hset | ⟨hs', hv0, -, p1, p2, p3, ⟨q1, q2⟩ | ⟨q1, q2⟩⟩⟩ := h.right s hk hs hr dt h1 h2
  · exact ⟨s', e, .now (Or.inl ⟨e1, hset⟩)⟩
  · have hqq : |A s'| ≤ |A s| := by
      have := mul_nonneg ht (abs_nonneg s'.velocity)
      linarith
    refine ⟨s', e, coming_phase h hDE hDR k e1 hs' q1 hqq (right_energy ha.le (abs_nonneg _) (abs_nonneg _) ht htm p1 p2 q2 le_rfl hE') ?_⟩
    refine hqq.trans ?_
    rcases p3 with p3 | p3
    · have i1 : |A s| * i.accel ≤ |s'.velocity| := by
        have i2 : |A s| * i.accel ≤ dt * (|A s| * i.accel) := le_mul_of_one_le_left (mul_nonneg (abs_nonneg _) ha.le) ht1
        linarith [abs_nonneg s.velocity]
      have i3 := mul_le_mul_of_nonneg_left i1 (show (0 : K) ≤ k by positivity)
      have i4 := mul_le_mul_of_nonneg_right hk1 (abs_nonneg (A s))
      have i5 : (k : K) * i.accel * |A s| = k * (|A s| * i.accel) := by ring
      linarith
    · rw [p3]
      exact hDR.trans hk2
  · refine ⟨s', e, .now (Or.inr ⟨e1, hs', q1, ?_, ?_, q2.trans (mul_le_mul_of_nonneg_right htm (abs_nonneg _))⟩)⟩
    · exact cross_speed ha.le (abs_nonneg _) (abs_nonneg _) hm ht htm h.slow (abs_nonneg _) p2 hDE hE'
    · exact cross_speed_add ha.le (abs_nonneg _) (abs_nonneg _) hm htm h.slow (abs_nonneg _) p2 hDR hDR (h.speed s hk hs) hE'

/-- A motivator that moves away turns back, or goes round. -/
theorem turns (h : Swings A S i T G R) {F : K} {j : ℕ} (hj1 : 1 ≤ j * (i.accel * i.wrongMultiplier))
    (hj2 : i.maxVelocity ≤ j * (i.accel * i.wrongMultiplier * G))
    {s : OvershootSlot K} (hk : Kept i T s) (hs : S s) (hr : s.velocity * A s < 0)
    (hF : |s.velocity| ^ 2 + i.accel * i.wrongMultiplier * |A s| ^ 2 ≤ F) :
    Within (fun s' => Done i T s' ∨ Turned A S i T R F |s.velocity| s') i.maxDt (j + 1) s := by
  have ha := h.accel
  have hw : 0 < i.wrongMultiplier := by linarith [h.damping]
  have hb : 0 < i.accel * i.wrongMultiplier := mul_pos ha hw
  have hm : (0 : K) ≤ i.maxDt := by exact_mod_cast h.maxDt.le
  have hV := h.maxVelocity
  have hmV := mul_nonneg hm hV.le
  have hfar := h.far
  have hF' : |s.velocity| ^ 2 + i.accel * i.wrongMultiplier * |A s| ^ 2 ≤
      F + i.accel * i.wrongMultiplier * i.maxDt * (|s.velocity| * |A s|) := by
    have : 0 ≤ i.accel * i.wrongMultiplier * i.maxDt * (|s.velocity| * |A s|) :=
      mul_nonneg (mul_nonneg hb.le hm) (mul_nonneg (abs_nonneg _) (abs_nonneg _))
    linarith
  refine .later fun dt h1 h2 => ?_
  have ht : (0 : K) ≤ dt := by exact_mod_cast (by omega : (0 : ℤ) ≤ dt)
  have ht1 : (1 : K) ≤ dt := by exact_mod_cast h1
  have htm : (dt : K) ≤ i.maxDt := by exact_mod_cast h2
  obtain ⟨s', e, e1, hset | ⟨hs', ⟨q1, q2, q3, q4, q5⟩ | ⟨q1, q2, q3⟩ | ⟨q1, q2, q3⟩⟩⟩ := h.wrong s hk hs hr dt h1 h2
  · exact ⟨s', e, .now (Or.inl ⟨e1, hset⟩)⟩
  · have hx0 : 0 ≤ dt * (|A s| * i.accel * i.wrongMultiplier) := mul_nonneg ht (mul_nonneg (mul_nonneg (abs_nonneg _) ha.le) hw.le)
    have hv : 0 < |s'.velocity| := by
      rw [abs_pos]; rintro h0; rw [h0, zero_mul] at q1; exact lt_irrefl _ q1
    have hr0 : 0 < min |s'.velocity| G := lt_min hv h.gap
    refine ⟨s', e, leaving_phase h hr0 (h.speed s hk hs) j e1 hs' q1 (by linarith) ?_ ?_ ?_⟩
    · refine wrong_energy hb.le (abs_nonneg (A s)) ht htm (abs_nonneg _) ?_ q3 q4 le_rfl hF'
      rw [q2]; ring
    · rcases q5 with q5 | q5
      · refine (min_le_left _ _).trans ?_
        have : |s'.velocity| ≤ dt * |s'.velocity| := le_mul_of_one_le_left hv.le ht1
        linarith [abs_nonneg (A s)]
      · exact (min_le_right _ _).trans q5
    · rcases le_total |s'.velocity| G with hc | hc
      · rw [min_eq_left hc, ← mul_assoc]
        exact le_mul_of_one_le_left hv.le hj1
      · rw [min_eq_right hc]
        exact (h.speed s' e1 hs').trans hj2
  · refine ⟨s', e, .now (Or.inr ⟨_, ⟨e1, hs', q1, le_rfl⟩, Or.inl ?_⟩)⟩
    exact turn_energy ha.le hw.le (abs_nonneg (A s)) htm (abs_nonneg _) q2 (abs_nonneg _) q3 hF'
  · refine ⟨s', e, .now (Or.inr ⟨_, ⟨e1, hs', q1, le_rfl⟩, Or.inr ?_⟩)⟩
    exact round_energy ha.le hb.le hm (abs_nonneg _) q2 (abs_nonneg _) (h.dist s' e1 hs') (abs_nonneg _) (h.dist s hk hs) (h.speed s hk hs) hV.le q3
      (by linarith) hF'

/-- From one turning point to the next, or once round. -/
theorem Coming.swings (h : Swings A S i T G R) {E : K} {k j : ℕ} (hk1 : 1 ≤ k * i.accel) (hk2 : R ≤ k * i.maxVelocity)
    (hj1 : 1 ≤ j * (i.accel * i.wrongMultiplier)) (hj2 : i.maxVelocity ≤ j * (i.accel * i.wrongMultiplier * G))
    {s : OvershootSlot K} (hc : Coming A S i T E s) :
    Within (fun s => Done i T s ∨ Coming A S i T (99 / 100 * E) s ∨ Coming A S i T (E - i.accel * R ^ 2 / 5) s) i.maxDt
      (0 + (j + 1) + (k + 2)) s := by
  have ha := h.accel
  have hw : 0 < i.wrongMultiplier := by linarith [h.damping]
  have hb : 0 < i.accel * i.wrongMultiplier := mul_pos ha hw
  have hm : (0 : K) ≤ i.maxDt := by exact_mod_cast h.maxDt.le
  have hV := h.maxVelocity
  refine Within.bind (hc.passes h hk1 hk2) fun s1 h1 => ?_
  rcases h1 with h1 | ⟨p1, p2, p3, p4, p4', p5⟩
  · exact .now (Or.inl h1)
  obtain ⟨β, hβ⟩ : ∃ β, β = i.accel * i.wrongMultiplier * i.maxDt ^ 2 := ⟨_, rfl⟩
  have hβ0 : 0 ≤ β := by rw [hβ]; positivity
  have hq2 : i.accel * i.wrongMultiplier * |A s1| ^ 2 ≤ |s1.velocity| ^ 2 * β := by
    have e1 : |A s1| ^ 2 ≤ (i.maxDt * |s1.velocity|) ^ 2 := pow_le_pow_left₀ (abs_nonneg _) p5 2
    have e2 := mul_le_mul_of_nonneg_left e1 hb.le
    have e3 : i.accel * i.wrongMultiplier * (i.maxDt * |s1.velocity|) ^ 2 = |s1.velocity| ^ 2 * β := by rw [hβ]; ring
    linarith
  have := turns h hj1 hj2 p1 p2 p3 (F := |s1.velocity| ^ 2 * (1 + β)) (by linarith)
  refine this.bind (k := 0) ?_
  rintro s2 (h2 | ⟨e, ⟨c1, c2, c3, c4⟩, h2 | h2⟩)
  · exact .now (Or.inl h2)
  · refine .now (Or.inr (Or.inl ⟨c1, c2, c3, c4.trans ?_⟩))
    rw [← hβ] at h2
    have sw := swing (w := i.wrongMultiplier) (β := β) h.damping (by rw [hβ]; exact h.slowBack) (by
      rw [hβ]
      have := mul_le_mul_of_nonneg_left h.slow hw.le
      linarith) hβ0
    have hE : 0 ≤ E := by
      have := sq_nonneg |s1.velocity|
      linarith
    have e1 : (|s1.velocity| ^ 2 * (1 + β) + 4 / 3 * β * |s1.velocity| ^ 2) * (1 + i.wrongMultiplier * β) ≤
        (12371 / 10000 * E) * ((1 + β + 4 / 3 * β) * (1 + i.wrongMultiplier * β)) := by
      have e : (|s1.velocity| ^ 2 * (1 + β) + 4 / 3 * β * |s1.velocity| ^ 2) * (1 + i.wrongMultiplier * β) =
        |s1.velocity| ^ 2 * ((1 + β + 4 / 3 * β) * (1 + i.wrongMultiplier * β)) := by ring
      rw [e]
      exact mul_le_mul_of_nonneg_right p4 (by positivity)
    have e2 := mul_le_mul_of_nonneg_left sw hE
    have e3 : i.wrongMultiplier * e ≤ i.wrongMultiplier * (99 / 100 * E) := by linarith
    exact le_of_mul_le_mul_left e3 hw
  · refine .now (Or.inr (Or.inr ⟨c1, c2, c3, c4.trans (h2.trans ?_)⟩))
    obtain ⟨x, hx⟩ : ∃ x, x = i.maxDt * i.maxVelocity := ⟨_, rfl⟩
    have hx0 : 0 ≤ x := by rw [hx]; exact mul_nonneg hm hV.le
    have hxR : 10 * x ≤ R := by rw [hx]; exact h.far
    have hv2 : |s1.velocity| ^ 2 ≤ i.maxVelocity ^ 2 := pow_le_pow_left₀ (abs_nonneg _) (h.speed s1 p1 p2) 2
    have e1 : |s1.velocity| ^ 2 * β ≤ i.accel * i.wrongMultiplier * x ^ 2 := by
      have := mul_le_mul_of_nonneg_right hv2 hβ0
      have e : i.maxVelocity ^ 2 * β = i.accel * i.wrongMultiplier * x ^ 2 := by rw [hβ, hx]; ring
      linarith
    have e2 : i.accel * i.maxDt * (i.maxVelocity * R) = i.accel * (x * R) := by rw [hx]; ring
    rw [e2] at p4'
    rw [← hx]
    have hxx : 10 * (x * R) ≤ R ^ 2 := by
      have := mul_le_mul_of_nonneg_right hxR (show 0 ≤ R by linarith)
      linarith
    have e3 : i.wrongMultiplier * (3 * (x * R) - R ^ 2) ≤ 2 * (3 * (x * R) - R ^ 2) := by
      have : 0 ≤ x * R := mul_nonneg hx0 (by linarith)
      exact mul_le_mul_of_nonpos_right h.damping (by linarith)
    have e4 := mul_le_mul_of_nonneg_left e3 ha.le
    have e5 := mul_le_mul_of_nonneg_left hxx ha.le
    have e6 : |s1.velocity| ^ 2 * (1 + β) = |s1.velocity| ^ 2 + |s1.velocity| ^ 2 * β := by ring
    have e7 : i.accel * i.wrongMultiplier * (x * R - (R - x) ^ 2) + i.accel * i.wrongMultiplier * x ^ 2 =
      i.accel * (i.wrongMultiplier * (3 * (x * R) - R ^ 2)) := by ring
    linarith

/-- With little energy, the next step snaps. -/
theorem Coming.snaps (h : Swings A S i T G R) {E : K} (h1 : 4 * E ≤ i.atVelocity ^ 2) (h2 : E ≤ i.accel * i.atDifference ^ 2)
    {s : OvershootSlot K} (hc : Coming A S i T E s) : Within (Done i T) i.maxDt 1 s := by
  obtain ⟨hk, hs, hr, hE⟩ := hc
  have ha := h.accel
  have hm : (0 : K) ≤ i.maxDt := by exact_mod_cast h.maxDt.le
  refine .later fun dt d1 d2 => ?_
  have ht : (0 : K) ≤ dt := by exact_mod_cast (by omega : (0 : ℤ) ≤ dt)
  have htm : (dt : K) ≤ i.maxDt := by exact_mod_cast d2
  obtain ⟨s', e, e1, hset | ⟨-, -, hsn, -, p2, -⟩⟩ := h.right s hk hs hr dt d1 d2
  · exact ⟨s', e, ⟨e1, hset⟩⟩
  · exfalso
    have v0 := sq_nonneg |s.velocity|
    have q0 : 0 ≤ i.accel * |A s| ^ 2 := by positivity
    have q1 : |A s| ≤ i.atDifference := by
      refine (pow_le_pow_iff_left₀ (abs_nonneg _) h.atDifference.le two_ne_zero).1 ?_
      exact le_of_mul_le_mul_left (by linarith) ha
    have v1 : |s.velocity| ≤ i.atVelocity / 2 := by
      refine (pow_le_pow_iff_left₀ (abs_nonneg _) (by linarith [h.atVelocity]) two_ne_zero).1 ?_
      rw [div_pow]; linarith
    have v2 : i.maxDt * (|A s| * i.accel) ≤ i.atVelocity / 2 := by
      refine (pow_le_pow_iff_left₀ (mul_nonneg hm (mul_nonneg (abs_nonneg _) ha.le)) (by linarith [h.atVelocity]) two_ne_zero).1 ?_
      have e : (i.maxDt * (|A s| * i.accel)) ^ 2 = i.accel * i.maxDt ^ 2 * (i.accel * |A s| ^ 2) := by ring
      have e' : i.accel * i.maxDt ^ 2 * (i.accel * |A s| ^ 2) ≤ 1 * (i.accel * |A s| ^ 2) :=
        mul_le_mul_of_nonneg_right (by linarith [h.slow]) q0
      rw [e, div_pow]; linarith
    have v3 : dt * (|A s| * i.accel) ≤ i.maxDt * (|A s| * i.accel) :=
      mul_le_mul_of_nonneg_right htm (mul_nonneg (abs_nonneg _) ha.le)
    rcases hsn with hsn | hsn <;> linarith

/-! ### All steps -/

theorem Coming.mono {E E' : K} (h : E ≤ E') {s : OvershootSlot K} (hc : Coming A S i T E s) : Coming A S i T E' s :=
  ⟨hc.1, hc.2.1, hc.2.2.1, hc.2.2.2.trans h⟩

/-- Any number of swings. -/
theorem Coming.decays (h : Swings A S i T G R) {k j : ℕ} (hk1 : 1 ≤ k * i.accel) (hk2 : R ≤ k * i.maxVelocity)
    (hj1 : 1 ≤ j * (i.accel * i.wrongMultiplier)) (hj2 : i.maxVelocity ≤ j * (i.accel * i.wrongMultiplier * G)) {ρ M : K}
    (hρ : 99 / 100 ≤ ρ) (hρ1 : ρ ≤ 1) (hM : (1 - ρ) * M ≤ i.accel * R ^ 2 / 5) (n : ℕ) {E : K} (hEM : E ≤ M)
    {s : OvershootSlot K} (hc : Coming A S i T E s) :
    Within (fun s => Done i T s ∨ Coming A S i T (ρ ^ n * E) s) i.maxDt (n * (0 + (j + 1) + (k + 2))) s := by
  induction n generalizing s E with
  | zero => exact .now (Or.inr (by rw [pow_zero, one_mul]; exact hc))
  | succ n ih =>
    rw [Nat.succ_mul]
    have hE0 : 0 ≤ E := by
      have h1 := hc.2.2.2
      have h2 : 0 ≤ i.accel * |A s| ^ 2 := mul_nonneg h.accel.le (sq_nonneg _)
      have h3 := sq_nonneg |s.velocity|
      linarith
    refine (hc.swings h hk1 hk2 hj1 hj2).bind fun s1 h1 => ?_
    have next : Coming A S i T (ρ * E) s1 → Within (fun s => Done i T s ∨ Coming A S i T (ρ ^ (n + 1) * E) s) i.maxDt (n * (0 + (j + 1) + (k + 2))) s1 := by
      intro h1
      have := ih ((mul_le_of_le_one_left hE0 hρ1).trans hEM) h1
      rw [← mul_assoc, ← pow_succ] at this
      exact this
    rcases h1 with h1 | h1 | h1
    · exact .now (Or.inl h1)
    · exact next (h1.mono (mul_le_mul_of_nonneg_right hρ hE0))
    · refine next (h1.mono ?_)
      have := mul_le_mul_of_nonneg_left hEM (sub_nonneg.mpr hρ1)
      linarith

/-- From any state within the limits, within a number of steps that depends only on the configuration and the target. -/
theorem Swings.reaches [Archimedean K] (h : Swings A S i T G R) : ∃ N : ℕ, ∀ s : OvershootSlot K, Kept i T s → S s → Within (Done i T) i.maxDt N s := by
  have ha := h.accel
  have hw : 0 < i.wrongMultiplier := by linarith [h.damping]
  have hb : 0 < i.accel * i.wrongMultiplier := mul_pos ha hw
  have hG := h.gap
  have hV := h.maxVelocity
  have hmp : (0 : K) < i.maxDt := by exact_mod_cast h.maxDt
  have hR : 0 < R := by have := mul_pos hmp hV; linarith [h.far]
  obtain ⟨k1, hk1⟩ := Archimedean.arch 1 ha
  obtain ⟨k2, hk2⟩ := Archimedean.arch R hV
  obtain ⟨j1, hj1⟩ := Archimedean.arch 1 hb
  obtain ⟨j2, hj2⟩ := Archimedean.arch i.maxVelocity (mul_pos hb hG)
  rw [nsmul_eq_mul] at hk1 hk2 hj1 hj2
  have up : ∀ (a b : ℕ) (x y : K), 0 < x → y ≤ a * x → y ≤ (a + b : ℕ) * x := by
    intro a b x y hx hy
    refine hy.trans (mul_le_mul_of_nonneg_right ?_ hx.le)
    exact_mod_cast Nat.le_add_right a b
  have up' : ∀ (a b : ℕ) (x y : K), 0 < x → y ≤ b * x → y ≤ (a + b : ℕ) * x := by
    intro a b x y hx hy
    rw [Nat.add_comm]; exact up b a x y hx hy
  obtain ⟨k, j, hk1, hk2, hj1, hj2⟩ : ∃ k j : ℕ, 1 ≤ k * i.accel ∧ R ≤ k * i.maxVelocity ∧
      1 ≤ j * (i.accel * i.wrongMultiplier) ∧ i.maxVelocity ≤ j * (i.accel * i.wrongMultiplier * G) :=
    ⟨k1 + k2, j1 + j2, up _ _ _ _ ha hk1, up' _ _ _ _ hV hk2, up _ _ _ _ hb hj1, up' _ _ _ _ (mul_pos hb hG) hj2⟩
  -- The most energy that is possible on the way out, and at the turning point.
  obtain ⟨F, hF⟩ : ∃ F, F = i.maxVelocity ^ 2 + i.accel * i.wrongMultiplier * R ^ 2 := ⟨_, rfl⟩
  obtain ⟨β, hβ⟩ : ∃ β, β = i.accel * i.wrongMultiplier * i.maxDt ^ 2 := ⟨_, rfl⟩
  have hβ0 : 0 ≤ β := by rw [hβ]; positivity
  obtain ⟨E1, hE1⟩ : ∃ E1, E1 = 16 * ((F + 4 / 3 * β * i.maxVelocity ^ 2) * (1 + i.wrongMultiplier * β)) := ⟨_, rfl⟩
  obtain ⟨E2, hE2⟩ : ∃ E2, E2 = i.accel * i.wrongMultiplier * (i.maxDt * i.maxVelocity * R) + i.accel * R ^ 2 := ⟨_, rfl⟩
  obtain ⟨E, hE⟩ : ∃ E, E = E1 + E2 := ⟨_, rfl⟩
  have hFpos : 0 < F := by rw [hF]; positivity
  have hE20 : 0 ≤ E2 := by rw [hE2]; positivity
  have hEF : F ≤ E1 := by
    have e1 : F ≤ F + 4 / 3 * β * i.maxVelocity ^ 2 := by
      have : 0 ≤ 4 / 3 * β * i.maxVelocity ^ 2 := by positivity
      linarith
    have e2 : F + 4 / 3 * β * i.maxVelocity ^ 2 ≤ (F + 4 / 3 * β * i.maxVelocity ^ 2) * (1 + i.wrongMultiplier * β) := by
      refine le_mul_of_one_le_right (by linarith) ?_
      have := mul_nonneg hw.le hβ0
      linarith
    linarith
  have hE0 : 0 < E := by linarith
  obtain ⟨ε, hε0, hε1, hε2⟩ : ∃ ε : K, 0 < ε ∧ 4 * ε ≤ i.atVelocity ^ 2 ∧ ε ≤ i.accel * i.atDifference ^ 2 := by
    have a1 : 0 < i.atVelocity ^ 2 / 4 := by have := h.atVelocity; positivity
    have a2 : 0 < i.accel * i.atDifference ^ 2 := by have := h.atDifference; positivity
    refine ⟨min (i.atVelocity ^ 2 / 4) (i.accel * i.atDifference ^ 2), lt_min a1 a2, ?_, min_le_right _ _⟩
    have := min_le_left (i.atVelocity ^ 2 / 4) (i.accel * i.atDifference ^ 2)
    linarith
  -- The part of the energy that is left after a swing, or after going round.
  obtain ⟨c, hc⟩ : ∃ c, c = i.accel * R ^ 2 / 5 := ⟨_, rfl⟩
  have hc0 : 0 < c := by rw [hc]; positivity
  obtain ⟨ρ, hρ, hρ1, hρM⟩ : ∃ ρ : K, 99 / 100 ≤ ρ ∧ ρ < 1 ∧ (1 - ρ) * E ≤ c := by
    have hd : 0 < c / E := div_pos hc0 hE0
    refine ⟨max (99 / 100) (1 - c / E), le_max_left _ _, max_lt (by norm_num) (by linarith), ?_⟩
    have : (1 - max (99 / 100) (1 - c / E)) * E ≤ c / E * E := mul_le_mul_of_nonneg_right (by linarith [le_max_right (99 / 100) (1 - c / E)]) hE0.le
    rwa [div_mul_cancel₀ _ hE0.ne'] at this
  obtain ⟨n, hn⟩ := exists_pow_lt_of_lt_one (div_pos hε0 hE0) hρ1
  have hn' : ρ ^ n * E ≤ ε := ((lt_div_iff₀ hE0).1 hn).le
  have settle : ∀ s : OvershootSlot K, Coming A S i T E s → Within (Done i T) i.maxDt (1 + n * (0 + (j + 1) + (k + 2))) s := by
    intro s hs
    refine (hs.decays h hk1 hk2 hj1 hj2 hρ hρ1.le (by rw [← hc]; exact hρM) n le_rfl).bind fun s1 h1 => ?_
    rcases h1 with h1 | h1
    · exact .now h1
    · exact Coming.snaps h hε1 hε2 (h1.mono hn')
  refine ⟨1 + n * (0 + (j + 1) + (k + 2)) + (j + 1), fun s hk hs => ?_⟩
  have hv2 : |s.velocity| ^ 2 ≤ i.maxVelocity ^ 2 := pow_le_pow_left₀ (abs_nonneg _) (h.speed s hk hs) 2
  have hq2 : |A s| ^ 2 ≤ R ^ 2 := pow_le_pow_left₀ (abs_nonneg _) (h.dist s hk hs) 2
  have hFs : |s.velocity| ^ 2 + i.accel * i.wrongMultiplier * |A s| ^ 2 ≤ F := by
    have := mul_le_mul_of_nonneg_left hq2 hb.le
    linarith
  rcases lt_or_ge (s.velocity * A s) 0 with hr | hr
  · refine (turns h hj1 hj2 hk hs hr hFs).bind fun s1 h1 => ?_
    rcases h1 with h1 | ⟨e, c1, h1⟩
    · exact .now h1
    refine settle s1 (c1.mono ?_)
    rcases h1 with h1 | h1
    · rw [← hβ] at h1
      have e1 : 16 * ((F + 4 / 3 * β * |s.velocity| ^ 2) * (1 + i.wrongMultiplier * β)) ≤ E1 := by
        rw [hE1]
        have e2 : F + 4 / 3 * β * |s.velocity| ^ 2 ≤ F + 4 / 3 * β * i.maxVelocity ^ 2 := by
          have := mul_le_mul_of_nonneg_left hv2 (show 0 ≤ 4 / 3 * β by positivity)
          linarith
        have e3 := mul_le_mul_of_nonneg_right e2 (show 0 ≤ 1 + i.wrongMultiplier * β by positivity)
        linarith
      have e0 : 0 ≤ e := by
        have h2 := c1.2.2.2
        have := sq_nonneg |s1.velocity|
        have : 0 ≤ i.accel * |A s1| ^ 2 := by positivity
        linarith
      have e4 := mul_le_mul_of_nonneg_right h.damping e0
      linarith
    · have e1 : 0 ≤ i.accel * i.wrongMultiplier * (R - i.maxDt * i.maxVelocity) ^ 2 := mul_nonneg hb.le (sq_nonneg _)
      have e2 : i.accel * i.wrongMultiplier * (i.maxDt * i.maxVelocity * R - (R - i.maxDt * i.maxVelocity) ^ 2) =
        i.accel * i.wrongMultiplier * (i.maxDt * i.maxVelocity * R) - i.accel * i.wrongMultiplier * (R - i.maxDt * i.maxVelocity) ^ 2 := by ring
      linarith
  · refine (settle s ⟨hk, hs, hr, ?_⟩).more _
    have e1 : i.accel * |A s| ^ 2 ≤ i.accel * i.wrongMultiplier * |A s| ^ 2 := by
      have := le_mul_of_one_le_right (show 0 ≤ i.accel * |A s| ^ 2 by positivity) (show 1 ≤ i.wrongMultiplier by linarith [h.damping])
      linarith
    linarith

/-- A motivator without wrap-around. -/
theorem Damped.swings (h : Damped i T) :
    Swings away Sound i T (gap i T) (max (i.range.stop - i.range.start) (10 * (i.maxDt * i.maxVelocity))) := by
  refine ⟨h.toTuned, h.gap_pos, le_max_right _ _, ?_, ?_, ?_, ?_⟩
  · intro s hk hs
    have := hs.velocity
    rwa [hk.1] at this
  · intro s hk hs
    refine le_trans ?_ (le_max_left _ _)
    have b1 := hs.above
    have b2 := hs.below
    have b3 := h.above
    have b4 := h.below
    have b5 : s.away = T - s.value := by unfold away; rw [hk.2]
    rw [hk.1] at b1 b2
    rw [b5, abs_le]
    constructor <;> linarith
  · rintro s ⟨rfl, rfl⟩ hs hr dt h1 h2
    obtain ⟨s', e, e1, e2, hor⟩ := step_right h hs hr h1 h2
    exact ⟨s', e, ⟨e1, e2⟩, hor⟩
  · rintro s ⟨rfl, rfl⟩ hs hr dt h1 h2
    obtain ⟨s', e, e1, e2, hor⟩ := step_wrong h hs hr h1 h2
    exact ⟨s', e, ⟨e1, e2⟩, hor.imp id fun ⟨hs', h3⟩ => ⟨hs', h3.imp id Or.inl⟩⟩

/-- From any state, within a number of steps that depends only on the configuration and the target. -/
theorem reaches [Archimedean K] (h : Damped i T) : ∃ N : ℕ, ∀ s : OvershootSlot K, Kept i T s → Within (Done i T) i.maxDt N s := by
  obtain ⟨N, hN⟩ := h.swings.reaches
  refine ⟨N + 1, fun s hk => .later fun dt h1 h2 => ?_⟩
  obtain ⟨s', e, e1, e2, hset | ⟨-, -, -, -, hs'⟩⟩ := step_sound (s := s) (by rw [hk.1, hk.2]; exact h) h1 (by rw [hk.1]; exact h2)
  · exact ⟨s', e, .now ⟨⟨e1.trans hk.1, e2.trans hk.2⟩, hset⟩⟩
  · exact ⟨s', e, hN s' ⟨e1.trans hk.1, e2.trans hk.2⟩ hs'⟩

/-! ### Frames -/

theorem Damped.settleLegal (h : Damped i T) : SettleLegal i :=
  ⟨h.maxDt, h.maxVelocity.le, fun hm => by rw [h.linear] at hm; exact absurd hm (by decide)⟩

theorem Within.steps (h : SettleLegal i) {n : ℕ} {ds : List ℤ} (hds : ∀ d ∈ ds, 0 < d ∧ d ≤ i.maxDt) {s : OvershootSlot K}
    (hw : Within (Done i T) i.maxDt n s) : ∃ s', ds.foldlM substep s = some s' ∧ Within (Done i T) i.maxDt (n - ds.length) s' := by
  induction ds generalizing n s with
  | nil => exact ⟨s, rfl, hw⟩
  | cons d ds ih =>
    obtain ⟨s1, e, hw1⟩ : ∃ s1, s.substep d = some s1 ∧ Within (Done i T) i.maxDt (n - 1) s1 := by
      have done : Done i T s → ∃ s1, s.substep d = some s1 ∧ Within (Done i T) i.maxDt (n - 1) s1 := fun hd =>
        ⟨s, settled_substep (by rw [hd.1.1]; exact h) hd.2 d, .now hd⟩
      cases n with
      | zero => exact done hw
      | succ n =>
        rcases hw with hw | hw
        · exact done hw
        · obtain ⟨h1, h2⟩ := hds d (by simp)
          exact hw d (by omega) h2
    obtain ⟨s', e', hw'⟩ := ih (fun d hd => hds d (by simp [hd])) hw1
    refine ⟨s', ?_, ?_⟩
    · rw [List.foldlM_cons, e]; exact e'
    · rw [List.length_cons, Nat.add_comm, ← Nat.sub_sub]; exact hw'

theorem Within.init_eq (h : SettleLegal i) {n : ℕ} {s : OvershootSlot K} (hw : Within (Done i T) i.maxDt n s) : s.init = i := by
  induction n generalizing s with
  | zero => exact hw.1.1
  | succ n ih =>
    rcases hw with hw | hw
    · exact hw.1.1
    · obtain ⟨s', e, hw'⟩ := hw 1 le_rfl h.maxDt
      rw [← (substep_keeps e).1]
      exact ih hw'

theorem Within.frames (h : SettleLegal i) {n : ℕ} {ts : List ℤ} (hts : ∀ t ∈ ts, t ≤ 2147483647)
    (hn : n ≤ (ts.filter (fun t => decide (0 < t))).length) {s : OvershootSlot K}
    (hw : Within (Done i T) i.maxDt n s) : ∃ s', s.run (ts.map Op.frame) = some s' ∧ Done i T s' := by
  induction ts generalizing n s with
  | nil =>
    have : n = 0 := by simpa using hn
    subst this
    exact ⟨s, rfl, hw⟩
  | cons t ts ih =>
    have hi := hw.init_eq h
    have hrun : ∀ s1, s.advance t = some s1 → s.run ((t :: ts).map Op.frame) = s1.run (ts.map Op.frame) := by
      intro s1 e
      unfold run
      rw [List.map_cons, List.foldlM_cons, apply, e]
      rfl
    rcases le_or_gt t 0 with h0 | h0
    · rw [hrun s (C34_no_time s h0)]
      refine ih (fun t ht => hts t (by simp [ht])) ?_ hw
      rwa [List.filter_cons_of_neg (by simpa using h0)] at hn
    · rw [List.filter_cons_of_pos (by simpa using h0), List.length_cons] at hn
      obtain ⟨h1, h2⟩ := stepsOf_sum h.maxDt h0.le
      obtain ⟨s1, e, hw1⟩ := hw.steps h h2
      have hlen : 1 ≤ (stepsOf t i.maxDt).length := by
        rw [Nat.one_le_iff_ne_zero]
        intro hl
        rw [List.length_eq_zero_iff] at hl
        rw [hl] at h1
        simp at h1
        omega
      rw [hrun s1 (by rw [C34_steps (by rw [hi]; exact h.maxDt) h0.le (hts t (by simp)), hi]; exact e)]
      exact ih (fun t ht => hts t (by simp [ht])) (by omega) hw1

/-! ### C103 -/

/-- **C103**. With a damped configuration there is a number of frames, which depends only on the configuration and on the target, after
which a motivator is exactly on its target and at rest: from every value and velocity, inside of the limits or not, with frames of
any lengths (those without time do not count). -/
theorem C103_settles [Archimedean K] (h : Damped i T) : ∃ N : ℕ, ∀ s : OvershootSlot K, s.init = i → s.target = T →
    ∀ ts : List ℤ, (∀ t ∈ ts, t ≤ 2147483647) → N ≤ (ts.filter (fun t => decide (0 < t))).length →
      s.run (ts.map Op.frame) = some { s with value := T, velocity := 0 } := by
  obtain ⟨N, hN⟩ := reaches h
  refine ⟨N, fun s h1 h2 ts hts hn => ?_⟩
  obtain ⟨s', e, ⟨k1, k2⟩, d1, d2⟩ := (hN s ⟨h1, h2⟩).frames h.settleLegal hts hn
  rw [e]
  cases s
  cases s'
  simp only at h1 h2 k1 k2 d1 d2
  subst h1 h2 k1 d2
  simp only [d1, k2]

/-- For example: the limits of a motivator that turns a face (in units of the range). -/
example : Damped (K := ℚ) ⟨⟨-3, 3⟩, false, 21 / 1000, 21 / 100, 87 / 10000, 1 / 1000, 32 / 100000, 4, 8⟩ 1 :=
  ⟨⟨by decide, by norm_num, by norm_num, by norm_num, by norm_num, by norm_num, by norm_num, by norm_num, by norm_num⟩, rfl, by norm_num,
    by norm_num⟩

/-! ### What the conditions are for -/

theorem neverRests {P : OvershootSlot K → Prop} {t : ℤ} {s : OvershootSlot K} (h0 : ∃ s', s.advance t = some s' ∧ P s')
    (h1 : ∀ s, P s → s.velocity ≠ 0 ∧ ∃ s', s.advance t = some s' ∧ P s') : NeverRests s t := by
  have all : ∀ n : ℕ, ∃ s', s.run (List.replicate (n + 1) (Op.frame t)) = some s' ∧ P s' := by
    intro n
    have go : ∀ (n : ℕ) (s : OvershootSlot K), (∃ s', s.advance t = some s' ∧ P s') →
        ∃ s', s.run (List.replicate (n + 1) (Op.frame t)) = some s' ∧ P s' := by
      intro n
      induction n with
      | zero =>
        rintro s ⟨s', e, hP⟩
        refine ⟨s', ?_, hP⟩
        unfold run
        rw [List.replicate_succ, List.foldlM_cons, apply, e]
        rfl
      | succ n ih =>
        rintro s ⟨s', e, hP⟩
        obtain ⟨s2, e2, hP2⟩ := ih s' (h1 s' hP).2
        refine ⟨s2, ?_, hP2⟩
        unfold run at e2 ⊢
        rw [List.replicate_succ, List.foldlM_cons, apply, e]
        exact e2
    exact go n s h0
  intro n
  obtain ⟨s', e, hP⟩ := all n
  exact ⟨s', e, (h1 s' hP).1⟩

/-- **C103** needs a target inside of the range: a motivator that starts at rest and is sent to the end of its range arrives there, and keeps
its velocity for ever, although with this configuration it settles on every target inside. -/
theorem C103_end_of_range_fails :
    ∃ (i : OvershootInit ℚ) (s : OvershootSlot ℚ), (∀ T, i.range.start < T → T < i.range.stop → Damped i T) ∧
      s.init = i ∧ s.value = 0 ∧ s.velocity = 0 ∧ s.target = i.range.stop ∧ NeverRests s 30 := by
  refine ⟨⟨⟨-1, 1⟩, false, 1 / 8, 1, 1 / 100, 1 / 100, 1 / 32, 4, 1⟩,
    ⟨⟨⟨-1, 1⟩, false, 1 / 8, 1, 1 / 100, 1 / 100, 1 / 32, 4, 1⟩, 0, 1, 0⟩, ?_, rfl, rfl, rfl, rfl, ?_⟩
  · exact fun T h1 h2 => ⟨⟨by decide, by norm_num, by norm_num, by norm_num, by norm_num, by norm_num, by norm_num, by norm_num,
      by norm_num⟩, rfl, h1, h2⟩
  · refine neverRests (P := fun s => s = ⟨⟨⟨-1, 1⟩, false, 1 / 8, 1, 1 / 100, 1 / 100, 1 / 32, 4, 1⟩, 1 / 8, 1, 1⟩)
      ⟨_, ?_, rfl⟩ ?_
    · rw [C34_steps (by decide) (by decide) (by decide)]
      decide +kernel
    · rintro s rfl
      refine ⟨by norm_num, _, ?_, rfl⟩
      rw [C34_steps (by decide) (by decide) (by decide)]
      decide +kernel

/-- **C103** needs steps that are short compared with the oscillation: with steps of 8 instead of 1, this motivator swings for ever. -/
theorem C103_long_steps_fail :
    ∃ (i : OvershootInit ℚ) (s : OvershootSlot ℚ), Damped { i with maxDt := 1 } s.target ∧ i.maxDt = 8 ∧ s.init = i ∧ s.Sound ∧
      NeverRests s 8 := by
  refine ⟨⟨⟨-4, 4⟩, false, 1, 8, 1 / 100, 1 / 100, 1 / 128, 4, 8⟩,
    ⟨⟨⟨-4, 4⟩, false, 1, 8, 1 / 100, 1 / 100, 1 / 128, 4, 8⟩, -1 / 16, 1, 0⟩, ?_, rfl, rfl, ?_, ?_⟩
  · exact ⟨⟨by decide, by norm_num, by norm_num, by norm_num, by norm_num, by norm_num, by norm_num, by norm_num, by norm_num⟩, rfl,
      by norm_num, by norm_num⟩
  · exact ⟨by norm_num [abs_div], by norm_num, by norm_num⟩
  · refine neverRests (P := fun s => s ∈ [⟨⟨⟨-4, 4⟩, false, 1, 8, 1 / 100, 1 / 100, 1 / 128, 4, 8⟩, -1 / 16, 1, 0⟩,
      ⟨⟨⟨-4, 4⟩, false, 1, 8, 1 / 100, 1 / 100, 1 / 128, 4, 8⟩, 3 / 16, 1, 3 / 2⟩,
      ⟨⟨⟨-4, 4⟩, false, 1, 8, 1 / 100, 1 / 100, 1 / 128, 4, 8⟩, 1 / 16, 1, 2⟩,
      ⟨⟨⟨-4, 4⟩, false, 1, 8, 1 / 100, 1 / 100, 1 / 128, 4, 8⟩, -3 / 16, 1, 1 / 2⟩])
      ⟨⟨⟨⟨-4, 4⟩, false, 1, 8, 1 / 100, 1 / 100, 1 / 128, 4, 8⟩, 3 / 16, 1, 3 / 2⟩, ?_, by simp⟩ ?_
    · rw [C34_steps (by decide) (by decide) (by decide)]
      decide +kernel
    · intro s hs
      simp only [List.mem_cons, List.not_mem_nil, or_false] at hs
      rcases hs with rfl | rfl | rfl | rfl
      · refine ⟨by norm_num, ⟨⟨⟨-4, 4⟩, false, 1, 8, 1 / 100, 1 / 100, 1 / 128, 4, 8⟩, 3 / 16, 1, 3 / 2⟩, ?_, by simp⟩
        rw [C34_steps (by decide) (by decide) (by decide)]
        decide +kernel
      · refine ⟨by norm_num, ⟨⟨⟨-4, 4⟩, false, 1, 8, 1 / 100, 1 / 100, 1 / 128, 4, 8⟩, 1 / 16, 1, 2⟩, ?_, by simp⟩
        rw [C34_steps (by decide) (by decide) (by decide)]
        decide +kernel
      · refine ⟨by norm_num, ⟨⟨⟨-4, 4⟩, false, 1, 8, 1 / 100, 1 / 100, 1 / 128, 4, 8⟩, -3 / 16, 1, 1 / 2⟩, ?_, by simp⟩
        rw [C34_steps (by decide) (by decide) (by decide)]
        decide +kernel
      · refine ⟨by norm_num, ⟨⟨⟨-4, 4⟩, false, 1, 8, 1 / 100, 1 / 100, 1 / 128, 4, 8⟩, -1 / 16, 1, 0⟩, ?_, by simp⟩
        rw [C34_steps (by decide) (by decide) (by decide)]
        decide +kernel

/-- The energy of a motivator that is accelerated alike in both directions. -/
def level (s : OvershootSlot ℚ) : ℚ := s.velocity ^ 2 + s.away ^ 2 / 64 + s.velocity * s.away / 64

/-- **C103** needs the damping: a motivator that is not accelerated more when it moves away keeps its energy, and swings for ever. -/
theorem C103_undamped_fails :
    ∃ (i : OvershootInit ℚ) (s : OvershootSlot ℚ), Damped { i with wrongMultiplier := 2 } s.target ∧ i.wrongMultiplier = 1 ∧ s.init = i ∧
      s.Sound ∧ NeverRests s 1 := by
  obtain ⟨i, hi⟩ : ∃ i : OvershootInit ℚ, i = ⟨⟨-100, 100⟩, false, 100, 100, 1 / 10, 1 / 10, 1 / 64, 1, 1⟩ := ⟨_, rfl⟩
  have key : ∀ s : OvershootSlot ℚ, s.init = i → s.target = 0 → s.level = 66 / 64 →
      ∃ s', s.advance 1 = some s' ∧ s'.init = i ∧ s'.target = 0 ∧ s'.level = 66 / 64 ∧ s'.velocity ≠ 0 := by
    rintro ⟨j, v, T, x⟩ h1 h2 h3
    simp only at h1 h2
    subst h1 h2
    unfold level away at h3
    simp only [zero_sub] at h3
    obtain ⟨v', hv'⟩ : ∃ v', v' = v + -x * (1 / 64) := ⟨_, rfl⟩
    have h4 : v' ^ 2 + x ^ 2 / 64 + v' * x / 64 = 66 / 64 := by rw [hv', ← h3]; ring
    have n0 : v' ≠ 0 := by
      intro h0
      rw [h0] at h4
      have : IsSquare ((66 : ℕ) : ℚ) := ⟨x, by push_cast; linarith⟩
      rw [Rat.isSquare_natCast_iff] at this
      obtain ⟨r, hr⟩ := this
      have hr8 : r ≤ 8 := by nlinarith
      interval_cases r <;> omega
    have b1 : |v'| ≤ 2 := by
      refine abs_le_of_sq_le_sq ?_ (by norm_num)
      nlinarith [sq_nonneg (x + v' / 2)]
    have b2 : |x| ≤ 12 := by
      refine abs_le_of_sq_le_sq ?_ (by norm_num)
      nlinarith [sq_nonneg (v' + x / 128), sq_nonneg x]
    have b3 : ¬ (|-x| ≤ 1 / 10 ∧ |v'| ≤ 1 / 10) := by
      rintro ⟨c1, c2⟩
      rw [abs_neg] at c1
      have d1 : v' ^ 2 ≤ 1 / 100 := by have := pow_le_pow_left₀ (abs_nonneg _) c2 2; rw [sq_abs] at this; linarith
      have d2 : x ^ 2 ≤ 1 / 100 := by have := pow_le_pow_left₀ (abs_nonneg _) c1 2; rw [sq_abs] at this; linarith
      nlinarith [sq_nonneg (v' - x)]
    obtain ⟨e1, e2⟩ := abs_le.mp b1
    obtain ⟨e3, e4⟩ := abs_le.mp b2
    subst hi
    have hvf : velocityFor (⟨⟨⟨-100, 100⟩, false, 100, 100, 1 / 10, 1 / 10, 1 / 64, 1, 1⟩, v, 0, x⟩ : OvershootSlot ℚ) 1 (-x) = v' := by
      have hc : OvershootInit.clampVelocity (⟨⟨-100, 100⟩, false, 100, 100, 1 / 10, 1 / 10, 1 / 64, 1, 1⟩ : OvershootInit ℚ)
          (v + (1 : ℤ) * acceleration (⟨⟨⟨-100, 100⟩, false, 100, 100, 1 / 10, 1 / 10, 1 / 64, 1, 1⟩, v, 0, x⟩ : OvershootSlot ℚ) (-x)) = v' := by
        unfold OvershootInit.clampVelocity clampTo acceleration
        simp only [ite_self, mul_one, Int.cast_one, one_mul]
        rw [← hv', min_eq_left (by linarith), max_eq_right (by linarith)]
      unfold velocityFor
      simp only
      rw [hc]
      exact if_neg b3
    refine ⟨⟨⟨⟨-100, 100⟩, false, 100, 100, 1 / 10, 1 / 10, 1 / 64, 1, 1⟩, v', 0, x + v'⟩, ?_, rfl, rfl, ?_, n0⟩
    · rw [C34_steps (by norm_num) (by decide) (by decide), stepsOf_small (by decide) le_rfl, List.foldlM_cons]
      have := substep_of (s := (⟨⟨⟨-100, 100⟩, false, 100, 100, 1 / 10, 1 / 10, 1 / 64, 1, 1⟩, v, 0, x⟩ : OvershootSlot ℚ)) (dt := 1) (diff := -x)
        (x := x + v') (by simp [OvershootInit.normalize]) (by
          rw [hvf]
          unfold newValue
          rw [if_neg n0]
          simp only [OvershootInit.normalize, OvershootInit.clampDelta, clampTo]
          simp only [Int.cast_one, one_mul, Bool.false_eq_true, if_false, Option.map_some]
          rw [min_eq_left (show v' ≤ 100 by linarith), max_eq_right (show -100 ≤ v' by linarith),
            range_clamp_eq (show -100 ≤ x + v' by linarith) (show x + v' ≤ 100 by linarith)])
      rw [this, hvf]
      rfl
    · unfold level away
      simp only
      rw [← h4]; ring
  refine ⟨i, ⟨i, 1, 0, -1⟩, ?_, by rw [hi], rfl, ?_, ?_⟩
  · rw [hi]
    exact ⟨⟨by decide, by norm_num, by norm_num, by norm_num, by norm_num, by norm_num, by norm_num, by norm_num, by norm_num⟩, rfl,
      by norm_num, by norm_num⟩
  · rw [hi]; exact ⟨by norm_num, by norm_num, by norm_num⟩
  · refine neverRests (P := fun s => s.init = i ∧ s.target = 0 ∧ s.level = 66 / 64 ∧ s.velocity ≠ 0)
      (key _ rfl rfl (by unfold level away; norm_num)) fun s hs => ⟨hs.2.2.2, key s hs.1 hs.2.1 hs.2.2.1⟩

end Motive.Slot.OvershootSlot
