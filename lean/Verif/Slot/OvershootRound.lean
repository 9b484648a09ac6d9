import Verif.Slot.OvershootSettle
/-!
# Overshoot motivators that wrap around settle from every start (C103)

The same for angles.  A motivator that is fast enough goes round, possibly several times, before it turns back; each time round costs it
some of its energy.
-/

set_option linter.unusedSectionVars false

namespace Motive.Slot.OvershootSlot

open Motive.Math

variable {K : Type} [Field K] [LinearOrder K] [IsStrictOrderedRing K]

/-! ### Specification -/

/-- A configuration that wraps around, at `-R` and `R` with `R` the end of the range, and a target, with which a motivator settles.  One step
covers at most a tenth of `R`. -/
structure DampedRound (i : OvershootInit K) (target : K) : Prop extends Tuned i where
  modular : i.modular = true
  symmetric : i.range.start = -i.range.stop
  tenth : 10 * (i.maxDt * i.maxVelocity) ≤ i.range.stop
  above : i.range.start < target
  below : target ≤ i.range.stop

/-! ### One step -/

/-- Within the limits. -/
structure SoundRound (s : OvershootSlot K) : Prop where
  velocity : |s.velocity| ≤ s.init.maxVelocity
  above : s.init.range.start < s.value
  below : s.value ≤ s.init.range.stop

/-- The difference to the target, the short way round. -/
def awayRound (s : OvershootSlot K) : K := (s.init.normalize (s.target - s.value)).getD 0

variable {i : OvershootInit K} {T : K}

theorem DampedRound.stop_pos (h : DampedRound i T) : 0 < i.range.stop := by
  have h1 : (0 : K) < i.maxDt := by exact_mod_cast h.maxDt
  have := mul_pos h1 h.maxVelocity
  linarith [h.tenth]

/-- The representative of a value that is less than one length away. -/
theorem DampedRound.normalize (h : DampedRound i T) {y : K} (h1 : -(3 * i.range.stop) < y) (h2 : y ≤ 3 * i.range.stop) :
    ∃ z, i.normalize y = some z ∧ -i.range.stop < z ∧ z ≤ i.range.stop ∧ ∃ k : ℤ, z = y + k * (2 * i.range.stop) := by
  have hR := h.stop_pos
  have hs := h.symmetric
  obtain ⟨z, hz, ha, hb, k, hk⟩ := Range.normalize_rep (r := i.range) (by linarith) (x := y) (by linarith) (by linarith)
  refine ⟨z, ?_, by linarith, hb, k, ?_⟩
  · unfold OvershootInit.normalize; rw [if_pos h.modular]; exact hz
  · rw [hk, hs]; ring

/-- The difference of a motivator inside of its range. -/
theorem DampedRound.away_eq (h : DampedRound i T) {s : OvershootSlot K} (hk : Kept i T s) (h1 : i.range.start < s.value) (h2 : s.value ≤ i.range.stop) :
    s.init.normalize (s.target - s.value) = some s.awayRound ∧ -i.range.stop < s.awayRound ∧ s.awayRound ≤ i.range.stop ∧
      ∃ k : ℤ, s.awayRound = T - s.value + k * (2 * i.range.stop) := by
  have hR := h.stop_pos
  have hs := h.symmetric
  have ha := h.above
  have hb := h.below
  obtain ⟨z, hz, z1, z2, z3⟩ := h.normalize (y := T - s.value) (by linarith) (by linarith)
  have e : s.awayRound = z := by unfold awayRound; rw [hk.1, hk.2, hz]; rfl
  rw [e]
  exact ⟨by rw [hk.1, hk.2]; exact hz, z1, z2, z3⟩

/-- A step, written out: the new difference is the old one less the way that was made, or once round from there. -/
theorem step_round (h : DampedRound i T) {s : OvershootSlot K} (hk : Kept i T s) (ha : i.range.start < s.value) (hb : s.value ≤ i.range.stop)
    {dt : ℤ} (h1 : 1 ≤ dt) (h2 : dt ≤ i.maxDt) :
    ∃ s', s.substep dt = some s' ∧ Kept i T s' ∧
      (s'.Settled ∨
        s'.velocity = i.clampVelocity (s.velocity + dt * s.acceleration s.awayRound) ∧ s'.velocity ≠ 0 ∧
        (i.atDifference < |s.awayRound| ∨ i.atVelocity < |s'.velocity|) ∧ s'.SoundRound ∧ |dt * s'.velocity| ≤ i.maxDt * i.maxVelocity ∧
        (s'.awayRound = s.awayRound - dt * s'.velocity ∨
         s.awayRound - dt * s'.velocity ≤ -i.range.stop ∧ s'.awayRound = s.awayRound - dt * s'.velocity + 2 * i.range.stop ∨
         i.range.stop < s.awayRound - dt * s'.velocity ∧ s'.awayRound = s.awayRound - dt * s'.velocity - 2 * i.range.stop)) := by
  have hR := h.stop_pos
  have hsym := h.symmetric
  obtain ⟨hd, d1, d2, k1, d3⟩ := h.away_eq hk ha hb
  by_cases hz : s.velocityFor dt s.awayRound = 0
  · refine ⟨_, substep_of (dt := dt) (x := s.target) hd (by unfold newValue; rw [if_pos hz]), hk, Or.inl ⟨rfl, hz⟩⟩
  have hv : s.velocityFor dt s.awayRound = s.init.clampVelocity (s.velocity + dt * s.acceleration s.awayRound) ∧
      ¬ s.init.atTarget s.awayRound (s.init.clampVelocity (s.velocity + dt * s.acceleration s.awayRound)) := by
    unfold velocityFor at hz ⊢
    simp only at hz ⊢
    by_cases ha : s.init.atTarget s.awayRound (s.init.clampVelocity (s.velocity + dt * s.acceleration s.awayRound))
    · rw [if_pos ha] at hz; exact absurd rfl hz
    · rw [if_neg ha]; exact ⟨rfl, ha⟩
  obtain ⟨v, hvd⟩ : ∃ v, v = s.velocityFor dt s.awayRound := ⟨_, rfl⟩
  have hva : |v| ≤ i.maxVelocity := by
    rw [hvd, ← hk.1]; exact velocityFor_abs (by rw [hk.1]; exact h.maxVelocity.le) dt _
  have hdt0 : (0 : K) ≤ dt := by exact_mod_cast (by omega : (0 : ℤ) ≤ dt)
  have hdtm : (dt : K) ≤ i.maxDt := by exact_mod_cast h2
  have hmove : |dt * v| ≤ i.maxDt * i.maxVelocity := by
    rw [abs_mul, abs_of_nonneg hdt0]
    exact mul_le_mul hdtm hva (abs_nonneg _) (hdt0.trans hdtm)
  obtain ⟨m1, m2⟩ := abs_le.mp hmove
  have ht := h.tenth
  have hdel : i.clampDelta (dt * v) = dt * v := by
    have hmd := h.maxDelta
    rw [mul_comm] at hmd
    obtain ⟨b1, b2⟩ := abs_le.mp (hmove.trans hmd)
    unfold OvershootInit.clampDelta clampTo
    rw [min_eq_left b2, max_eq_right b1]
  obtain ⟨x, hx, x1, x2, k2, x3⟩ := h.normalize (y := s.value + dt * v) (by linarith) (by linarith)
  rw [← hvd, hk.1] at hv
  rw [← hvd] at hz
  have hstep : s.substep dt = some { s with velocity := v, value := x } := by
    have := substep_of (s := s) (dt := dt) (x := x) hd (by
      rw [← hvd]
      unfold newValue
      rw [if_neg hz]
      simp only
      rw [hk.1, hdel, hx, Option.map_some, range_clamp_eq (by linarith) x2])
    rw [← hvd] at this
    exact this
  refine ⟨{ s with velocity := v, value := x }, hstep, hk, Or.inr ⟨hv.1, hz, ?_, ⟨?_, ?_, ?_⟩, hmove, ?_⟩⟩
  · rw [hv.1]
    have h3 := hv.2
    unfold OvershootInit.atTarget at h3
    by_contra hcon
    push Not at hcon
    exact h3 hcon
  · simp only; rw [hk.1]; exact hva
  · simp only; rw [hk.1, hsym]; exact x1
  · simp only; rw [hk.1]; exact x2
  · obtain ⟨-, e1, e2, k3, e3⟩ := h.away_eq (s := { s with velocity := v, value := x }) hk (by simp only; rw [hsym]; exact x1) x2
    simp only at e3
    obtain ⟨z, hz'⟩ : ∃ z, z = s.awayRound - dt * v := ⟨_, rfl⟩
    simp only
    rw [← hz']
    obtain ⟨d, hd'⟩ : ∃ d, d = ({ s with velocity := v, value := x } : OvershootSlot K).awayRound := ⟨_, rfl⟩
    rw [← hd'] at e1 e2 e3 ⊢
    have e4 : d = z + ((k3 - k2 - k1 : ℤ) : K) * (2 * i.range.stop) := by
      push_cast
      rw [e3, x3, hz', d3]; ring
    obtain ⟨n, hn⟩ : ∃ n : ℤ, n = k3 - k2 - k1 := ⟨_, rfl⟩
    rw [← hn] at e4
    have hlo : -1 ≤ n := by
      by_contra hc
      push Not at hc
      have : (n : K) ≤ -2 := by exact_mod_cast (by omega : n ≤ -2)
      have := mul_le_mul_of_nonneg_right this (show 0 ≤ 2 * i.range.stop by linarith)
      linarith
    have hhi : n ≤ 1 := by
      by_contra hc
      push Not at hc
      have : (2 : K) ≤ n := by exact_mod_cast (by omega : 2 ≤ n)
      have := mul_le_mul_of_nonneg_right this (show 0 ≤ 2 * i.range.stop by linarith)
      linarith
    have : n = 0 ∨ n = 1 ∨ n = -1 := by omega
    rcases this with rfl | rfl | rfl
    · left; push_cast at e4; linarith
    · right; left; push_cast at e4; constructor <;> linarith
    · right; right; push_cast at e4; constructor <;> linarith

theorem limited_self (z : K) : Limited z (z - 1) (z + 1) z :=
  ⟨fun h => by linarith, fun _ _ => rfl, fun h => by linarith⟩

theorem limited_wide {z lo hi : K} (h1 : lo < z) (h2 : z < hi) : Limited z lo hi z :=
  ⟨fun h => by linarith, fun _ _ => rfl, fun h => by linarith⟩

/-- A motivator that wraps around. -/
theorem DampedRound.swings (h : DampedRound i T) : Swings awayRound SoundRound i T i.range.stop i.range.stop := by
  have hR := h.stop_pos
  have hsym := h.symmetric
  have ht := h.tenth
  have hV := h.maxVelocity
  have ha := h.accel
  have hw : 0 < i.wrongMultiplier := by linarith [h.damping]
  have inside : ∀ s, Kept i T s → SoundRound s → -i.range.stop < s.awayRound ∧ s.awayRound ≤ i.range.stop := by
    intro s hk hs
    have b1 := hs.above
    have b2 := hs.below
    rw [hk.1] at b1 b2
    obtain ⟨-, d1, d2, -⟩ := h.away_eq hk b1 b2
    exact ⟨d1, d2⟩
  refine ⟨h.toTuned, hR, ht, ?_, ?_, ?_, ?_⟩
  · intro s hk hs
    have := hs.velocity
    rwa [hk.1] at this
  · intro s hk hs
    obtain ⟨d1, d2⟩ := inside s hk hs
    rw [abs_le]
    constructor <;> linarith
  · intro s hk hs hr dt h1 h2
    have b1 := hs.above
    have b2 := hs.below
    have va := hs.velocity
    rw [hk.1] at b1 b2 va
    obtain ⟨va1, va2⟩ := abs_le.mp va
    obtain ⟨d1, d2⟩ := inside s hk hs
    have hdt1 : (1 : K) ≤ dt := by exact_mod_cast h1
    obtain ⟨s', e, e1, hor⟩ := step_round h hk b1 b2 h1 h2
    refine ⟨s', e, e1, hor.imp id ?_⟩
    rintro ⟨hv, hv0, hsn, hs', hmove, hd⟩
    refine ⟨hs', hv0, hsn, ?_⟩
    obtain ⟨m1, m2⟩ := abs_le.mp hmove
    have hacc : s.acceleration s.awayRound = s.awayRound * i.accel := by
      unfold acceleration
      rw [if_neg (not_lt.mpr hr), mul_one, hk.1]
    have hlim : Limited (s.velocity + dt * (s.awayRound * i.accel)) (-i.maxVelocity) i.maxVelocity s'.velocity := by
      rw [hv, hacc]; exact limited_clampTo (by linarith)
    have hmV : 0 ≤ i.maxDt * i.maxVelocity := (abs_nonneg _).trans hmove
    rcases mul_nonneg_iff.mp hr with ⟨p1, p2⟩ | ⟨p1, p2⟩
    · obtain ⟨q1, q2, q3, q4⟩ := right_up ha va2 hdt1 p1 p2 (lo := -(2 * i.range.stop)) (hi := 2 * i.range.stop) (by linarith) (by linarith) hlim
        (limited_wide (by linarith) (by linarith))
      have hp : 0 ≤ s'.velocity := p1.trans q1
      have hp' : 0 < s'.velocity := lt_of_le_of_ne hp (Ne.symm hv0)
      have hpd : 0 < dt * s'.velocity := mul_pos (by linarith) hp'
      have hd' : s'.awayRound = s.awayRound - dt * s'.velocity := by
        rcases hd with hd | ⟨hd, -⟩ | ⟨hd, -⟩
        · exact hd
        · exfalso; linarith
        · exfalso; linarith
      rw [abs_of_nonneg p1, abs_of_nonneg p2, abs_of_nonneg hp, hd']
      refine ⟨q1, q2, q3, ?_⟩
      rcases q4 with ⟨r1, r2⟩ | ⟨r1, r2⟩
      · exact Or.inl ⟨mul_nonneg hp r1, by rw [abs_of_nonneg r1]⟩
      · exact Or.inr ⟨mul_neg_of_pos_of_neg hp' r1, by rw [abs_of_neg r1]; exact r2⟩
    · have l1 := hlim.neg
      rw [show -(s.velocity + dt * (s.awayRound * i.accel)) = -s.velocity + dt * (-s.awayRound * i.accel) by ring, neg_neg] at l1
      obtain ⟨q1, q2, q3, q4⟩ := right_up ha (v := -s.velocity) (d := -s.awayRound) (lo := -(2 * i.range.stop)) (hi := 2 * i.range.stop)
        (d' := -s.awayRound - dt * -s'.velocity) (by linarith) hdt1 (neg_nonneg.mpr p1)
        (neg_nonneg.mpr p2) (by linarith) (by linarith) l1 (limited_wide (by linarith) (by linarith))
      have hp : s'.velocity ≤ 0 := by linarith
      have hp' : s'.velocity < 0 := lt_of_le_of_ne hp hv0
      have hpd : 0 < dt * -s'.velocity := mul_pos (by linarith) (by linarith)
      have hd' : s'.awayRound = s.awayRound - dt * s'.velocity := by
        rcases hd with hd | ⟨hd, -⟩ | ⟨hd, -⟩
        · exact hd
        · exfalso; linarith
        · exfalso; linarith
      rw [abs_of_nonpos p1, abs_of_nonpos p2, abs_of_nonpos hp, hd']
      refine ⟨q1, q2, q3, ?_⟩
      rcases q4 with ⟨r1, r2⟩ | ⟨r1, r2⟩
      · exact Or.inl ⟨mul_nonneg_of_nonpos_of_nonpos hp (by linarith), by rw [abs_of_nonpos (by linarith)]; ring⟩
      · exact Or.inr ⟨mul_neg_of_neg_of_pos hp' (by linarith), by rw [abs_of_pos (by linarith)]; linarith⟩
  · intro s hk hs hr dt h1 h2
    have b1 := hs.above
    have b2 := hs.below
    have va := hs.velocity
    rw [hk.1] at b1 b2 va
    obtain ⟨va1, va2⟩ := abs_le.mp va
    obtain ⟨d1, d2⟩ := inside s hk hs
    have hdt1 : (1 : K) ≤ dt := by exact_mod_cast h1
    have hdtm : (dt : K) ≤ i.maxDt := by exact_mod_cast h2
    obtain ⟨s', e, e1, hor⟩ := step_round h hk b1 b2 h1 h2
    refine ⟨s', e, e1, hor.imp id ?_⟩
    rintro ⟨hv, hv0, -, hs', hmove, hd⟩
    refine ⟨hs', ?_⟩
    obtain ⟨m1, m2⟩ := abs_le.mp hmove
    have hmV : 0 ≤ i.maxDt * i.maxVelocity := (abs_nonneg _).trans hmove
    have hsm : (dt : K) * dt * (i.accel * i.wrongMultiplier) ≤ 1 := by
      have h3 : (dt : K) * dt ≤ i.maxDt * i.maxDt := mul_le_mul hdtm hdtm (by linarith) (by linarith)
      have h4 := mul_le_mul_of_nonneg_right h3 (mul_pos ha hw).le
      have h5 := h.slowBack
      have h6 : 7 * (i.accel * i.wrongMultiplier * (i.maxDt : K) ^ 2) = 7 * ((i.maxDt : K) * i.maxDt * (i.accel * i.wrongMultiplier)) := by ring
      rw [h6] at h5
      linarith
    have hacc : s.acceleration s.awayRound = s.awayRound * i.accel * i.wrongMultiplier := by
      unfold acceleration
      rw [if_pos hr, hk.1]
    have hlim : Limited (s.velocity + dt * (s.awayRound * i.accel * i.wrongMultiplier)) (-i.maxVelocity) i.maxVelocity s'.velocity := by
      rw [hv, hacc]; exact limited_clampTo (by linarith)
    rcases mul_neg_iff.mp hr with ⟨p1, p2⟩ | ⟨p1, p2⟩
    · have := wrong_up ha hw va2 hdt1 hsm p1 p2 (lo := -(2 * i.range.stop)) (hi := 2 * i.range.stop) (by linarith) (by linarith) hv0 hlim
        (limited_wide (by linarith) (by linarith))
      rw [abs_of_pos p1, abs_of_neg p2]
      rcases this with ⟨q1, q2, q3, q4, q5, q6⟩ | ⟨q1, q2, q3, q4⟩
      · have hpd : 0 < dt * s'.velocity := mul_pos (by linarith) q1
        have hx : 0 ≤ dt * (-s.awayRound * i.accel * i.wrongMultiplier) := mul_nonneg (by linarith) (mul_nonneg (mul_nonneg (by linarith) ha.le) hw.le)
        rcases hd with hd | ⟨hd, hd'⟩ | ⟨hd, -⟩
        · rw [hd, abs_of_pos q1, abs_of_neg q2]
          exact Or.inl ⟨mul_neg_of_pos_of_neg q1 q2, q3, q4, q5, Or.inl (by linarith)⟩
        · rw [hd', abs_of_pos q1]
          exact Or.inr (Or.inr ⟨mul_nonneg q1.le (by linarith), by linarith, by linarith⟩)
        · exfalso; linarith
      · have hpd : 0 < dt * -s'.velocity := mul_pos (by linarith) (by linarith)
        have hd' : s'.awayRound = s.awayRound - dt * s'.velocity := by
          rcases hd with hd | ⟨hd, -⟩ | ⟨hd, -⟩
          · exact hd
          · exfalso; linarith
          · exfalso; linarith
        rw [hd', abs_of_neg q1, abs_of_nonpos q2]
        exact Or.inr (Or.inl ⟨mul_nonneg_of_nonpos_of_nonpos q1.le q2, q3, q4⟩)
    · have l1 := hlim.neg
      rw [show -(s.velocity + dt * (s.awayRound * i.accel * i.wrongMultiplier)) =
        -s.velocity + dt * (-s.awayRound * i.accel * i.wrongMultiplier) by ring, neg_neg] at l1
      have := wrong_up ha hw (v := -s.velocity) (d := -s.awayRound) (v' := -s'.velocity) (d' := -s.awayRound - dt * -s'.velocity)
        (lo := -(2 * i.range.stop)) (hi := 2 * i.range.stop) (by linarith) hdt1 hsm (neg_pos.mpr p1)
        (by linarith) (by linarith) (by linarith) (neg_ne_zero.mpr hv0) l1 (limited_wide (by linarith) (by linarith))
      simp only [neg_neg] at this
      rw [abs_of_neg p1, abs_of_pos p2]
      rcases this with ⟨q1, q2, q3, q4, q5, q6⟩ | ⟨q1, q2, q3, q4⟩
      · have hpd : 0 < dt * -s'.velocity := mul_pos (by linarith) q1
        have hx : 0 ≤ dt * (s.awayRound * i.accel * i.wrongMultiplier) := mul_nonneg (by linarith) (mul_nonneg (mul_nonneg (by linarith) ha.le) hw.le)
        rcases hd with hd | ⟨hd, -⟩ | ⟨hd, hd'⟩
        · rw [hd, abs_of_neg (by linarith : s'.velocity < 0), abs_of_pos (by linarith)]
          exact Or.inl ⟨mul_neg_of_neg_of_pos (by linarith) (by linarith), q3, by linarith, by linarith, Or.inl (by linarith)⟩
        · exfalso; linarith
        · rw [hd', abs_of_neg (by linarith : s'.velocity < 0)]
          exact Or.inr (Or.inr ⟨mul_nonneg_of_nonpos_of_nonpos (by linarith) (by linarith), by linarith, by linarith⟩)
      · have hpd : 0 < dt * s'.velocity := mul_pos (by linarith) (by linarith)
        have hd' : s'.awayRound = s.awayRound - dt * s'.velocity := by
          rcases hd with hd | ⟨hd, -⟩ | ⟨hd, -⟩
          · exact hd
          · exfalso; linarith
          · exfalso; linarith
        rw [hd', abs_of_pos (by linarith : 0 < s'.velocity), abs_of_nonneg (by linarith)]
        exact Or.inr (Or.inl ⟨mul_nonneg (by linarith) (by linarith), q3, by linarith⟩)

/-! ### C103 -/

/-- **C103**, with wrap-around. There is a number of frames, which depends only on the configuration and on the target, after which a motivator
that turns, such as an angle, is exactly on its target and at rest: from every value in its range, every velocity, within the limit or not,
and with frames of any lengths (those without time do not count). -/
theorem C103_round_settles [Archimedean K] (h : DampedRound i T) : ∃ N : ℕ, ∀ s : OvershootSlot K, s.init = i → s.target = T →
    i.range.start < s.value → s.value ≤ i.range.stop →
    ∀ ts : List ℤ, (∀ t ∈ ts, t ≤ 2147483647) → N ≤ (ts.filter (fun t => decide (0 < t))).length →
      s.run (ts.map Op.frame) = some { s with value := T, velocity := 0 } := by
  obtain ⟨N, hN⟩ := h.swings.reaches
  have legal : SettleLegal i := ⟨h.maxDt, h.maxVelocity.le, fun _ => ⟨by linarith [h.stop_pos, h.symmetric], h.stop_pos.le⟩⟩
  refine ⟨N + 1, fun s h1 h2 ha hb ts hts hn => ?_⟩
  have first : Within (Done i T) i.maxDt (N + 1) s := by
    refine .later fun dt d1 d2 => ?_
    obtain ⟨s', e, e1, hset | ⟨-, -, -, hs', -⟩⟩ := step_round h ⟨h1, h2⟩ ha hb d1 d2
    · exact ⟨s', e, .now ⟨e1, hset⟩⟩
    · exact ⟨s', e, hN s' e1 hs'⟩
  obtain ⟨s', e, ⟨k1, k2⟩, d1, d2⟩ := first.frames legal hts hn
  rw [e]
  cases s
  cases s'
  simp only at h1 h2 k1 k2 d1 d2
  subst h1 h2 k1 d2
  simp only [d1, k2]

/-- For example: the angle of the unit tests (motive_test.cpp:235-243), with π about 3.1416. -/
example : DampedRound (K := ℚ) ⟨⟨-(31416 / 10000), 31416 / 10000⟩, true, 21 / 1000, 3141 / 1000, 87 / 1000, 59 / 100000, 32 / 100000, 4, 10⟩ 1 :=
  ⟨⟨by decide, by norm_num, by norm_num, by norm_num, by norm_num, by norm_num, by norm_num, by norm_num, by norm_num⟩, rfl, by norm_num,
    by norm_num, by norm_num, by norm_num⟩

end Motive.Slot.OvershootSlot
