import Verif.Slot.Ease
import Verif.Curve.EaseProps
/-!
# C36, C59: the ease-in-ease-out processor follows its curve, whatever the frame times
-/

namespace Motive.Slot.EaseSlot

open Motive.Curve

noncomputable section

/-- The slot of a motivator at time `t` along curve `c`, once it has been given a target. -/
structure At (s : EaseSlot) (c : EaseCurve) (t : ℝ) : Prop where
  elapsed : s.elapsed = t
  targetTime : s.targetTime = c.total
  /-- still on the curve, or parked at its end -/
  q : (t < c.total ∧ s.q = .curve c ∧ s.qStart = 0) ∨
    (c.total ≤ t ∧ s.q = .flat (c.eval c.total) ∧ s.value = c.eval c.total)

theorem frames_cons (s : EaseSlot) (t : ℝ) (ts : List ℝ) :
    s.frames (t :: ts) = (s.advance t).bind fun s' => s'.frames ts := by
  simp [frames, List.foldlM_cons]

theorem advance_at {s : EaseSlot} {c : EaseCurve} {t dt : ℝ} (h : s.At c t) (hdt : 0 ≤ dt)
    (hv : |c.deriv c.total| ≤ 1 / 1000000) :
    ∃ s', s.advance dt = some s' ∧ s'.At c (t + dt) ∧ (t + dt < c.total → s'.value = c.eval (t + dt)) := by
  obtain ⟨h1, h2, ⟨h3, h4, h5⟩ | ⟨h3, h4, h5⟩⟩ := h
  · by_cases hc : c.total ≤ t + dt
    · refine ⟨⟨.flat (c.eval c.total), s.typDelta, s.typTime, s.bias, s.qStart + c.total, s.targetTime, s.elapsed + dt,
        c.eval c.total⟩, ?_, ⟨by simp [h1], h2, Or.inr ⟨hc, rfl, rfl⟩⟩, fun h => absurd hc (not_le.mpr h)⟩
      unfold advance
      simp only [h4, h5, sub_zero, h1, if_pos hc, nextQ, if_neg (not_lt.mpr hv), Option.map_some, EaseQ.eval]
    · refine ⟨{ s with elapsed := s.elapsed + dt, value := c.eval (t + dt) }, ?_,
        ⟨by simp [h1], h2, Or.inl ⟨not_le.mp hc, h4, h5⟩⟩, fun _ => rfl⟩
      unfold advance
      simp only [h4, h5, sub_zero, h1, if_neg hc]
  · refine ⟨{ s with elapsed := s.elapsed + dt, value := c.eval c.total }, ?_,
      ⟨by simp [h1], h2, Or.inr ⟨by linarith, h4, rfl⟩⟩, fun h => absurd h (by push Not; linarith)⟩
    unfold advance
    simp only [h4]

theorem frames_at {dts : List ℝ} (hdt : ∀ t ∈ dts, 0 ≤ t) {s : EaseSlot} {c : EaseCurve} {t : ℝ} (h : s.At c t)
    (hv : |c.deriv c.total| ≤ 1 / 1000000) :
    ∃ s', s.frames dts = some s' ∧ s'.At c (t + dts.sum) ∧
      (t + dts.sum < c.total → dts ≠ [] → s'.value = c.eval (t + dts.sum)) := by
  induction dts generalizing s t with
  | nil => exact ⟨s, rfl, by simpa using h, fun _ h => absurd rfl h⟩
  | cons u us ih =>
    obtain ⟨s1, e1, h1, v1⟩ := advance_at h (hdt u (by simp)) hv
    obtain ⟨s2, e2, h2, v2⟩ := ih (fun x hx => hdt x (by simp [hx])) h1
    rw [add_assoc, ← List.sum_cons] at h2 v2
    refine ⟨s2, by rw [frames_cons, e1, Option.bind_some, e2], h2, fun hlt _ => ?_⟩
    by_cases hn : us = []
    · subst hn
      simp only [frames, List.foldlM_nil] at e2
      cases e2
      simpa using v1 (by simpa using hlt)
    · exact v2 hlt hn

/-! ### Property theorems -/

/-- C59. From any state, set a target whose curve arrives with (almost) no velocity, then advance by any frame times.
Before the end of the curve the value and velocity are the curve's at the total time, however it was cut into frames. From
the end of the curve on, the motivator stays exactly at the end value with velocity zero. The reported target is the end
value throughout. -/
theorem C59_frames {s s1 : EaseSlot} {c : EaseCurve} {target targetD typDelta typTime bias : ℝ}
    (hc : between s.value s.velocity target targetD typDelta typTime bias = some c)
    (h1 : s.setTarget target targetD typDelta typTime bias = some s1) (hv : |c.deriv c.total| ≤ 1 / 1000000)
    (ht : 0 < c.total) (dts : List ℝ) (hdt : ∀ t ∈ dts, 0 ≤ t) (hne : dts ≠ []) :
    ∃ s', s1.frames dts = some s' ∧
      (dts.sum < c.total → s'.value = c.eval dts.sum ∧ s'.velocity = c.deriv dts.sum) ∧
      (c.total ≤ dts.sum → s'.value = c.eval c.total ∧ s'.velocity = 0 ∧ s'.difference = 0) ∧
      s'.targetValue = c.eval c.total := by
  have hs1 : s1 = { s with q := .curve c, typDelta := typDelta, typTime := typTime, bias := bias, qStart := 0,
                           targetTime := c.total, elapsed := 0 } := by
    simp [setTarget, hc] at h1; exact h1.symm
  have hat : s1.At c 0 := by subst hs1; exact ⟨rfl, rfl, Or.inl ⟨ht, rfl, rfl⟩⟩
  obtain ⟨s2, e2, h2, v2⟩ := frames_at hdt hat hv
  rw [zero_add] at h2 v2
  refine ⟨s2, e2, fun hlt => ⟨v2 hlt hne, ?_⟩, fun hge => ?_, ?_⟩
  · obtain ⟨a, -, ⟨-, b, -⟩ | ⟨b, -, -⟩⟩ := h2
    · simp [velocity, b, a, EaseQ.deriv]
    · linarith
  · obtain ⟨a, -, ⟨b, -, -⟩ | ⟨-, b, d⟩⟩ := h2
    · linarith
    · exact ⟨d, by simp [velocity, b, EaseQ.deriv], by simp [difference, targetValue, b, d, EaseQ.eval]⟩
  · obtain ⟨-, a, ⟨-, b, d⟩ | ⟨-, b, -⟩⟩ := h2
    · simp only [targetValue, b, a, d, sub_zero, EaseQ.eval, max_eq_right ht.le]
    · simp [targetValue, b, EaseQ.eval]

/-- C59, whole motion with a typical shape: from rest to rest over the typical distance, any frame times. The motivator
is at the target, at rest, from the typical time on. -/
theorem C59_typical {s : EaseSlot} {target typDelta typTime bias : ℝ} (hv : s.velocity = 0) (hb : 1 / 10000 ≤ bias)
    (hb1 : bias < 1) (hd : 0 < typDelta) (hx : 0 < typTime) (hdist : |target - s.value| = typDelta)
    (hsize : (2 : ℝ) ^ (-60 : Int) ≤ 4 * typDelta ^ 2 / (bias * (1 - bias) * typTime ^ 4) ∧
      4 * typDelta ^ 2 / (bias * (1 - bias) * typTime ^ 4) ≤ 2 ^ (60 : Int) ∧
      (2 : ℝ) ^ (-60 : Int) ≤ 4 * typDelta ^ 2 / (bias * (1 - bias) * typTime ^ 2) ∧
      4 * typDelta ^ 2 / (bias * (1 - bias) * typTime ^ 2) ≤ 2 ^ (60 : Int)) :
    ∃ s1, s.setTarget target 0 typDelta typTime bias = some s1 ∧ s1.value = s.value ∧ s1.velocity = 0 ∧
      s1.targetTime = typTime ∧
      ∀ dts : List ℝ, (∀ t ∈ dts, 0 ≤ t) → typTime ≤ dts.sum →
        ∃ s', s1.frames dts = some s' ∧ s'.value = target ∧ s'.velocity = 0 := by
  obtain ⟨a, e, c, h1, h2, h3, -, -, h5, h6, h7⟩ :=
    C36_typical s.value target typDelta typTime bias hb hb1 hd hx hdist hsize
  have hc : between s.value s.velocity target 0 typDelta typTime bias = some c := by simp [between, h1, hv, h2]
  have hset : s.setTarget target 0 typDelta typTime bias =
      some { s with q := .curve c, typDelta := typDelta, typTime := typTime, bias := bias, qStart := 0,
                    targetTime := c.total, elapsed := 0 } := by simp [setTarget, hc]
  refine ⟨_, hset, rfl, h6, h3, fun dts hdt hge => ?_⟩
  have hne : dts ≠ [] := by rintro rfl; simp at hge; linarith
  obtain ⟨s2, e2, -, g, -⟩ := C59_frames hc hset (by rw [h3, h7]; norm_num) (by rw [h3]; exact hx) dts hdt hne
  obtain ⟨g1, g2, -⟩ := g (by rw [h3]; exact hge)
  exact ⟨s2, e2, by rw [g1, h3, h5], g2⟩

/-! ### Arriving with velocity -/

/-- The slot at time `t` when curve `c` is followed by curve `c2`. -/
structure At2 (s : EaseSlot) (c c2 : EaseCurve) (t : ℝ) : Prop where
  elapsed : s.elapsed = t
  targetTime : s.targetTime = c.total
  q : (t < c.total ∧ s.q = .curve c ∧ s.qStart = 0) ∨
    (c.total ≤ t ∧ t ≤ c.total + c2.total ∧ s.q = .curve c2 ∧ s.qStart = c.total ∧ s.value = c2.eval (t - c.total)) ∨
    (c.total + c2.total ≤ t ∧ s.q = .flat (c2.eval c2.total) ∧ s.value = c2.eval c2.total)

theorem advance_at2 {s : EaseSlot} {c c2 : EaseCurve} {t dt : ℝ} (h : s.At2 c c2 t) (hdt : 0 ≤ dt) (hdt2 : dt ≤ c2.total)
    (hnext : ∀ s' : EaseSlot, s'.typDelta = s.typDelta → s'.typTime = s.typTime → s'.bias = s.bias →
      s'.nextQ c = some (.curve c2))
    (hv2 : |c2.deriv c2.total| ≤ 1 / 1000000) :
    ∃ s', s.advance dt = some s' ∧ s'.At2 c c2 (t + dt) ∧ (t + dt < c.total → s'.value = c.eval (t + dt)) ∧
      s'.typDelta = s.typDelta ∧ s'.typTime = s.typTime ∧ s'.bias = s.bias := by
  obtain ⟨h1, h2, ⟨h3, h4, h5⟩ | ⟨h3, h3', h4, h5, h6⟩ | ⟨h3, h4, h5⟩⟩ := h
  · by_cases hc : c.total ≤ t + dt
    · refine ⟨⟨.curve c2, s.typDelta, s.typTime, s.bias, s.qStart + c.total, s.targetTime, s.elapsed + dt,
        c2.eval (t + dt - c.total)⟩, ?_, ⟨by simp [h1], h2, Or.inr (Or.inl ⟨hc, by linarith, rfl, by simp [h5], rfl⟩)⟩,
        fun h => absurd hc (not_le.mpr h), rfl, rfl, rfl⟩
      unfold advance
      simp only [h4, h5, sub_zero, h1, if_pos hc, hnext s rfl rfl rfl, Option.map_some, EaseQ.eval, zero_add]
    · refine ⟨{ s with elapsed := s.elapsed + dt, value := c.eval (t + dt) }, ?_,
        ⟨by simp [h1], h2, Or.inl ⟨not_le.mp hc, h4, h5⟩⟩, fun _ => rfl, rfl, rfl, rfl⟩
      unfold advance
      simp only [h4, h5, sub_zero, h1, if_neg hc]
  · by_cases hc : c2.total ≤ t + dt - c.total
    · refine ⟨⟨.flat (c2.eval c2.total), s.typDelta, s.typTime, s.bias, s.qStart + c2.total, s.targetTime, s.elapsed + dt,
        c2.eval c2.total⟩, ?_, ⟨by simp [h1], h2, Or.inr (Or.inr ⟨by linarith, rfl, rfl⟩)⟩,
        fun h => absurd h (by push Not; linarith), rfl, rfl, rfl⟩
      unfold advance
      simp only [h4, h5, h1, if_pos hc, nextQ, if_neg (not_lt.mpr hv2), Option.map_some, EaseQ.eval]
    · refine ⟨{ s with elapsed := s.elapsed + dt, value := c2.eval (t + dt - c.total) }, ?_,
        ⟨by simp [h1], h2, Or.inr (Or.inl ⟨by linarith, by linarith, h4, h5, rfl⟩)⟩,
        fun h => absurd h (by push Not; linarith), rfl, rfl, rfl⟩
      unfold advance
      simp only [h4, h5, h1, if_neg hc]
  · refine ⟨{ s with elapsed := s.elapsed + dt, value := c2.eval c2.total }, ?_,
      ⟨by simp [h1], h2, Or.inr (Or.inr ⟨by linarith, h4, rfl⟩)⟩, fun h => absurd h ?_, rfl, rfl, rfl⟩
    · unfold advance
      simp only [h4]
    · push Not; linarith

theorem frames_at2 {c c2 : EaseCurve} {a b d : ℝ}
    (hnext : ∀ s' : EaseSlot, s'.typDelta = a → s'.typTime = b → s'.bias = d → s'.nextQ c = some (.curve c2))
    (hv2 : |c2.deriv c2.total| ≤ 1 / 1000000) {dts : List ℝ} (hdt : ∀ t ∈ dts, 0 ≤ t ∧ t ≤ c2.total)
    {s : EaseSlot} {t : ℝ} (h : s.At2 c c2 t) (ha : s.typDelta = a) (hb : s.typTime = b) (hd : s.bias = d) :
    ∃ s', s.frames dts = some s' ∧ s'.At2 c c2 (t + dts.sum) ∧
      (t + dts.sum < c.total → dts ≠ [] → s'.value = c.eval (t + dts.sum)) := by
  induction dts generalizing s t with
  | nil => exact ⟨s, rfl, by simpa using h, fun _ h => absurd rfl h⟩
  | cons u us ih =>
    obtain ⟨s1, e1, h1, v1, a1, b1, d1⟩ := advance_at2 h (hdt u (by simp)).1 (hdt u (by simp)).2
      (by rw [ha, hb, hd]; exact hnext) hv2
    obtain ⟨s2, e2, h2, v2⟩ := ih (fun x hx => hdt x (by simp [hx])) h1 (a1.trans ha) (b1.trans hb) (d1.trans hd)
    rw [add_assoc, ← List.sum_cons] at h2 v2
    refine ⟨s2, by rw [frames_cons, e1, Option.bind_some, e2], h2, fun hlt _ => ?_⟩
    by_cases hn : us = []
    · subst hn
      simp only [frames, List.foldlM_nil] at e2
      cases e2
      simpa using v1 (by simpa using hlt)
    · exact v2 hlt hn

theorem typicalSecond_mid {typDelta typX bias : ℝ} (hb0 : 0 < bias) (hb1 : bias < 1) (hd : 0 < typDelta) (hx : 0 < typX) :
    Ease.typicalSecond typDelta typX bias =
      some (((2 * typDelta / (bias * (typX * typX)) : ℝ) : WithTop ℝ),
        ((2 * typDelta / ((1 - bias) * (typX * typX)) : ℝ) : WithTop ℝ)) := by
  unfold Ease.typicalSecond
  rw [if_neg (by push Not; exact ⟨hb0.le, hb1.le, hx, hd⟩)]
  by_cases h : 1 / 2 ≤ bias
  · simp only [if_pos h, if_neg hb1.ne]
  · have : 1 - bias ≠ 1 := by linarith
    simp only [if_neg h, if_neg this, sub_sub_cancel]

/-- C59, arrival with velocity `v`, bias strictly between 0 and 1. The motivator overshoots, turns around and comes to rest
at the target a time `settle.total` after it first got there. All the while it reports the same target value; the target
velocity it reports is `v` until it has come to rest. No frame may be longer than `settle.total`: by the last clause, a
single frame that takes it past the whole of the settling motion leaves it far from the target, by half the acceleration
times the square of the time past, until the next frame (a disagreement). `accIn` and `accOut` are the accelerations of the shape. -/
theorem C59_settles {s s1 : EaseSlot} {c : EaseCurve} {target targetD typDelta typTime bias v accIn accOut : ℝ}
    (hc : between s.value s.velocity target targetD typDelta typTime bias = some c)
    (h1 : s.setTarget target targetD typDelta typTime bias = some s1) (ht : 0 < c.total)
    (hb0 : 0 < bias) (hb1 : bias < 1) (hd : 0 < typDelta) (hx : 0 < typTime)
    (hin : accIn = 2 * typDelta / (bias * (typTime * typTime)))
    (hout : accOut = 2 * typDelta / ((1 - bias) * (typTime * typTime)))
    (hvd : c.deriv c.total = v) (hv : 1 / 1000000 < |v|) (hv' : epsScale * (typDelta / typTime) < |v|)
    (hw : (Quad.mk (-(accIn * accOut)) (2 * accOut * |v|) (v ^ 2) : Quad ℝ).WellConditioned) :
    ∃ settle : EaseCurve,
      settle.eval 0 = c.eval c.total ∧ settle.deriv 0 = v ∧ settle.inC.c2 * v < 0 ∧
      settle.total = |v| * (1 + √(accOut / (accIn + accOut))) / accIn + |v| * √(accOut / (accIn + accOut)) / accOut ∧
      settle.eval settle.total = c.eval c.total ∧ settle.deriv settle.total = 0 ∧
      (∀ dts : List ℝ, (∀ t ∈ dts, 0 ≤ t ∧ t ≤ settle.total) → dts ≠ [] →
        ∃ s', s1.frames dts = some s' ∧ s'.targetValue = c.eval c.total ∧
          (dts.sum < c.total → s'.value = c.eval dts.sum) ∧
          (c.total ≤ dts.sum → dts.sum ≤ c.total + settle.total → s'.value = settle.eval (dts.sum - c.total)) ∧
          (dts.sum < c.total + settle.total → s'.targetVelocity = v) ∧
          (c.total + settle.total < dts.sum → s'.value = c.eval c.total ∧ s'.velocity = 0 ∧ s'.difference = 0 ∧
            s'.targetVelocity = 0)) ∧
      ∀ y, 0 ≤ y → ∃ s', s1.frames [c.total + settle.total + y] = some s' ∧
        |s'.value - c.eval c.total| = accOut * y ^ 2 / 2 ∧
        ∀ u, 0 ≤ u → ∃ s'', s'.frames [u] = some s'' ∧ s''.value = c.eval c.total := by
  have hs1 : s1 = { s with q := .curve c, typDelta := typDelta, typTime := typTime, bias := bias, qStart := 0,
                           targetTime := c.total, elapsed := 0 } := by
    simp [setTarget, hc] at h1; exact h1.symm
  have h1b : 0 < 1 - bias := by linarith
  have hs0 : 0 < accIn := by rw [hin]; positivity
  have he0 : 0 < accOut := by rw [hout]; positivity
  obtain ⟨c2, g1, g2, g3, g4, g5, g6, g7, g8, g9⟩ :=
    C36_settle_partial (c.eval c.total) v accIn accOut typDelta typTime hs0 he0 hd hx hv' hw
  have hnext : ∀ s' : EaseSlot, s'.typDelta = typDelta → s'.typTime = typTime → s'.bias = bias →
      s'.nextQ c = some (.curve c2) := by
    intro s' a b d
    unfold nextQ between
    rw [hvd, if_pos hv, a, b, d, typicalSecond_mid hb0 hb1 hd hx, Option.bind_some, ← hin, ← hout, g1]
    rfl
  have hat : s1.At2 c c2 0 := by subst hs1; exact ⟨rfl, rfl, Or.inl ⟨ht, rfl, rfl⟩⟩
  refine ⟨c2, g2, g3, g4, g5, g7, g8, fun dts hdt hne => ?_, fun y hy => ?_⟩
  · obtain ⟨s2, e2, ⟨h2, h3, h4⟩, v2⟩ := frames_at2 hnext (by rw [g8]; norm_num) hdt hat (by rw [hs1]) (by rw [hs1])
      (by rw [hs1])
    rw [zero_add] at h2 h4 v2
    refine ⟨s2, e2, ?_, fun h => v2 h hne, fun ha hb => ?_, fun ha => ?_, fun ha => ?_⟩
    · obtain ⟨-, b, d⟩ | ⟨-, -, b, d, -⟩ | ⟨-, b, -⟩ := h4
      · simp only [targetValue, b, h3, d, sub_zero, EaseQ.eval, max_eq_right ht.le]
      · simp only [targetValue, b, h3, d, sub_self, EaseQ.eval, max_self, g2]
      · simp only [targetValue, b, EaseQ.eval, g7]
    · obtain ⟨b, -, -⟩ | ⟨-, -, -, -, b⟩ | ⟨b, -, d⟩ := h4
      · linarith
      · exact b
      · rw [d, show dts.sum - c.total = c2.total by linarith]
    · obtain ⟨-, b, d⟩ | ⟨-, -, b, d, -⟩ | ⟨b, -, -⟩ := h4
      · simp only [targetVelocity, b, h3, d, sub_zero, EaseQ.deriv, max_eq_right ht.le, hvd]
      · simp only [targetVelocity, b, h3, d, sub_self, EaseQ.deriv, max_self, g3]
      · linarith
    · obtain ⟨b, -, -⟩ | ⟨-, b, -, -, -⟩ | ⟨-, b, d⟩ := h4
      · linarith
      · linarith
      · exact ⟨by rw [d, g7], by simp [velocity, b, EaseQ.deriv], by simp [difference, targetValue, b, d, EaseQ.eval],
          by simp [targetVelocity, b, EaseQ.deriv]⟩
  · refine ⟨{ s1 with q := .curve c2, qStart := c.total, elapsed := c.total + c2.total + y,
                      value := c2.eval (c2.total + y) }, ?_, g9 y hy, fun u hu => ?_⟩
    swap
    · refine ⟨{ s1 with q := .flat (c2.eval c2.total), qStart := c.total + c2.total, elapsed := c.total + c2.total + y + u,
                        value := c2.eval c2.total }, ?_, g7⟩
      rw [frames_cons]
      unfold advance
      simp only
      rw [if_pos (by linarith)]
      unfold nextQ
      rw [g8, if_neg (by norm_num)]
      rfl
    have : s1.advance (c.total + c2.total + y) = some { s1 with
        q := .curve c2, qStart := c.total, elapsed := c.total + c2.total + y, value := c2.eval (c2.total + y) } := by
      unfold advance
      subst hs1
      simp only [zero_add, sub_zero]
      rw [if_pos (by linarith), hnext _ rfl rfl rfl]
      simp only [Option.map_some, EaseQ.eval, add_assoc, add_sub_cancel_left]
    rw [frames_cons, this]; rfl

/-! ### What goes wrong when the curve arrives with velocity -/

theorem wc_pure_half : (Quad.mk 1 0 (-(1 / 4)) : Quad ℝ).WellConditioned :=
  Quad.wellConditioned_pure rfl (by norm_num) (by norm_num) (by norm_num [abs_of_pos]) (by norm_num [abs_of_pos])

theorem wc_one_one : (Quad.mk 1 1 0 : Quad ℝ).WellConditioned := by
  intro n xr h
  rw [Quad.normalized_id (by norm_num) (by norm_num) (by norm_num) (by norm_num)] at h
  cases h
  right
  simp only [Quad.epsilon, Quad.maxCoeff, epsScale, Quad.discriminant]
  norm_num

theorem typical_bias_one : Ease.typicalSecond (1 / 4) (1 / 2) 1 = some (((2 : ℝ) : WithTop ℝ), ⊤) := by
  unfold Ease.typicalSecond
  norm_num

/-- Setting out from rest with bias 1: `x^2`, arriving at 1/4 after 1/2 with velocity 1. -/
theorem between_out : between 0 0 (1 / 4) 0 (1 / 4) (1 / 2) 1 =
    some (EaseCurve.single ⟨1, 0, 0⟩ (1 / 2)) := by
  obtain ⟨c, h1, h2, h3, h4, -, -, h7⟩ := Ease.flyOut_spec (start := 0) (endV := 1 / 4) (startD := 0) (second := 2)
    (by norm_num) (by
      have : Ease.flyOutEq 0 (1 / 4) 0 2 = ⟨1, 0, -(1 / 4)⟩ := by simp only [Ease.flyOutEq]; norm_num
      rw [this]; exact wc_pure_half)
  have hcv : Ease.flyOutCurve 0 (1 / 4) 0 2 = ⟨1, 0, 0⟩ := by simp only [Ease.flyOutCurve, Quad.initOrigin]; norm_num
  have hc : c = EaseCurve.single ⟨1, 0, 0⟩ c.total := by
    have := h1
    unfold Ease.flyOut at this
    rw [hcv] at this
    obtain ⟨xs, -, hx⟩ := Option.bind_eq_some_iff.mp this
    obtain ⟨e, -, he⟩ := Option.map_eq_some_iff.mp hx
    rw [← he]; rfl
  have ht : c.total = 1 / 2 := by
    have e : c.outC = ⟨1, 0, 0⟩ := by rw [hc]; rfl
    rw [e] at h7
    simp only [Quad.eval] at h7
    nlinarith
  rw [ht] at hc
  unfold between
  rw [typical_bias_one, Option.bind_some]
  unfold Ease.calculate
  rw [if_neg (by push Not; exact ⟨WithTop.coe_lt_coe.mpr (by norm_num : (0:ℝ) < 2), WithTop.coe_lt_top _, by norm_num, by norm_num⟩),
    if_neg (by unfold epsScale; norm_num [abs_of_pos])]
  change Ease.flyOut 0 (1 / 4) 0 2 = _
  rw [h1, hc]

/-- The curve that is meant to bring the motivator to rest: `1/4 + x + x^2`, of length zero. -/
theorem between_settle : between (1 / 4) 1 (1 / 4) 0 (1 / 4) (1 / 2) 1 =
    some (EaseCurve.single ⟨1, 1, 1 / 4⟩ 0) := by
  obtain ⟨c, h1, h2, h3, h4, -, -, h7⟩ := Ease.flyOut_spec (start := 1 / 4) (endV := 1 / 4) (startD := 1) (second := 2)
    (by norm_num) (by
      have : Ease.flyOutEq (1 / 4) (1 / 4) 1 2 = ⟨1, 1, 0⟩ := by simp only [Ease.flyOutEq]; norm_num
      rw [this]; exact wc_one_one)
  have hcv : Ease.flyOutCurve (1 / 4) (1 / 4) 1 2 = ⟨1, 1, 1 / 4⟩ := by
    simp only [Ease.flyOutCurve, Quad.initOrigin]; norm_num
  have hc : c = EaseCurve.single ⟨1, 1, 1 / 4⟩ c.total := by
    have := h1
    unfold Ease.flyOut at this
    rw [hcv] at this
    obtain ⟨xs, -, hx⟩ := Option.bind_eq_some_iff.mp this
    obtain ⟨e, -, he⟩ := Option.map_eq_some_iff.mp hx
    rw [← he]; rfl
  have ht : c.total = 0 := by
    have e : c.outC = ⟨1, 1, 1 / 4⟩ := by rw [hc]; rfl
    rw [e] at h7
    simp only [Quad.eval] at h7
    nlinarith
  rw [ht] at hc
  unfold between
  rw [typical_bias_one, Option.bind_some]
  unfold Ease.calculate
  rw [if_neg (by push Not; exact ⟨WithTop.coe_lt_coe.mpr (by norm_num : (0:ℝ) < 2), WithTop.coe_lt_top _, by norm_num, by norm_num⟩),
    if_neg (by unfold epsScale; norm_num [abs_of_pos])]
  change Ease.flyOut (1 / 4) (1 / 4) 1 2 = _
  rw [h1, hc]

/-- C59, disagreement. With bias 1, a valid bias, the motivator does not stop at its target: the curve meant to bring it to
rest has length zero and is recomputed every frame, so the value runs away quadratically. From rest at 0 with target 1/4 and
a typical time of 1/2, after the typical time and a further `t` it is at `1/4 + t + t^2`, whether or not it is advanced
again. -/
theorem C59_bias_one_runs_away (t u : ℝ) (ht : 0 ≤ t) (hu : 0 ≤ u) :
    ∃ s1 s2 s3, (fresh 0 0).setTarget (1 / 4) 0 (1 / 4) (1 / 2) 1 = some s1 ∧
      s1.frames [1 / 2 + t] = some s2 ∧ s2.value = 1 / 4 + t + t ^ 2 ∧
      s1.frames [1 / 2 + t, u] = some s3 ∧ s3.value = 1 / 4 + (t + u) + (t + u) ^ 2 := by
  have hv : (fresh 0 0).velocity = 0 := by
    simp [velocity, fresh, EaseQ.deriv, EaseCurve.deriv, EaseCurve.curve, EaseCurve.single, Quad.initOrigin, Quad.deriv]
  have h1 : (fresh 0 0).setTarget (1 / 4) 0 (1 / 4) (1 / 2) 1 =
      some ⟨.curve (EaseCurve.single ⟨1, 0, 0⟩ (1 / 2)), 1 / 4, 1 / 2, 1, 0, 1 / 2, 0, 0⟩ := by
    unfold setTarget
    rw [hv]
    change (between 0 0 _ _ _ _ _).map _ = _
    rw [between_out]
    rfl
  have e1 : (EaseCurve.single ⟨1, 0, 0⟩ (1 / 2)).eval (1 / 2) = 1 / 4 := by
    simp [EaseCurve.single, EaseCurve.eval, EaseCurve.curve, Quad.eval]; norm_num
  have e2 : (EaseCurve.single ⟨1, 0, 0⟩ (1 / 2)).deriv (1 / 2) = 1 := by
    simp [EaseCurve.single, EaseCurve.deriv, EaseCurve.curve, Quad.deriv]
  have e3 : (EaseCurve.single ⟨1, 1, 1 / 4⟩ 0).eval 0 = 1 / 4 := by
    simp [EaseCurve.single, EaseCurve.eval, EaseCurve.curve, Quad.eval]
  have e4 : (EaseCurve.single ⟨1, 1, 1 / 4⟩ 0).deriv 0 = 1 := by
    simp [EaseCurve.single, EaseCurve.deriv, EaseCurve.curve, Quad.deriv]
  have e5 : ∀ x, (EaseCurve.single ⟨1, 1, 1 / 4⟩ 0).eval x = 1 / 4 + x + x ^ 2 := by
    intro x
    unfold EaseCurve.eval EaseCurve.curve EaseCurve.single
    simp only [ite_self, Quad.eval]; ring
  have a1 : (⟨.curve (EaseCurve.single ⟨1, 0, 0⟩ (1 / 2)), 1 / 4, 1 / 2, 1, 0, 1 / 2, 0, 0⟩ : EaseSlot).advance (1 / 2 + t) =
      some ⟨.curve (EaseCurve.single ⟨1, 1, 1 / 4⟩ 0), 1 / 4, 1 / 2, 1, 1 / 2, 1 / 2, 1 / 2 + t, 1 / 4 + t + t ^ 2⟩ := by
    have ht' : (EaseCurve.single ⟨1, 0, 0⟩ (1 / 2)).total = 1 / 2 := rfl
    unfold advance
    simp only [zero_add, sub_zero, ht']
    rw [if_pos (by linarith)]
    unfold nextQ
    rw [ht', e1, e2, if_pos (by norm_num), between_settle]
    simp only [Option.map_some, EaseQ.eval, e5]
    congr 2; ring
  have a2 : (⟨.curve (EaseCurve.single ⟨1, 1, 1 / 4⟩ 0), 1 / 4, 1 / 2, 1, 1 / 2, 1 / 2, 1 / 2 + t, 1 / 4 + t + t ^ 2⟩ :
      EaseSlot).advance u = some ⟨.curve (EaseCurve.single ⟨1, 1, 1 / 4⟩ 0), 1 / 4, 1 / 2, 1, 1 / 2, 1 / 2, 1 / 2 + t + u,
        1 / 4 + (t + u) + (t + u) ^ 2⟩ := by
    have ht' : (EaseCurve.single ⟨1, 1, 1 / 4⟩ 0).total = 0 := rfl
    unfold advance
    simp only [ht']
    rw [if_pos (by linarith)]
    unfold nextQ
    rw [ht', e3, e4, if_pos (by norm_num), between_settle]
    simp only [Option.map_some, EaseQ.eval, e5, add_zero]
    congr 2; ring
  exact ⟨_, _, _, h1, by rw [frames_cons, a1]; rfl, rfl,
    by rw [frames_cons, a1, Option.bind_some, frames_cons, a2]; rfl, rfl⟩

/-- C59, disagreement. Once the first curve has been used up, the reported velocity is wrong: it is the new curve's
derivative at the time since the target was set. In the run of `C59_bias_one_runs_away`, exactly on arrival, the value moves
as `1/4 + x + x^2`, velocity 1, but 2 is reported. A target set at that moment starts from the wrong velocity. -/
theorem C59_velocity_after_arrival :
    ∃ s1 s2, (fresh 0 0).setTarget (1 / 4) 0 (1 / 4) (1 / 2) 1 = some s1 ∧ s1.frames [1 / 2] = some s2 ∧
      s2.q = .curve (EaseCurve.single ⟨1, 1, 1 / 4⟩ 0) ∧ s2.elapsed - s2.qStart = 0 ∧
      s2.q.deriv (s2.elapsed - s2.qStart) = 1 ∧ s2.velocity = 2 := by
  have hv : (fresh 0 0).velocity = 0 := by
    simp [velocity, fresh, EaseQ.deriv, EaseCurve.deriv, EaseCurve.curve, EaseCurve.single, Quad.initOrigin, Quad.deriv]
  have h1 : (fresh 0 0).setTarget (1 / 4) 0 (1 / 4) (1 / 2) 1 =
      some ⟨.curve (EaseCurve.single ⟨1, 0, 0⟩ (1 / 2)), 1 / 4, 1 / 2, 1, 0, 1 / 2, 0, 0⟩ := by
    unfold setTarget
    rw [hv]
    change (between 0 0 _ _ _ _ _).map _ = _
    rw [between_out]
    rfl
  have e1 : (EaseCurve.single ⟨1, 0, 0⟩ (1 / 2)).eval (1 / 2) = 1 / 4 := by
    simp [EaseCurve.single, EaseCurve.eval, EaseCurve.curve, Quad.eval]; norm_num
  have e2 : (EaseCurve.single ⟨1, 0, 0⟩ (1 / 2)).deriv (1 / 2) = 1 := by
    simp [EaseCurve.single, EaseCurve.deriv, EaseCurve.curve, Quad.deriv]
  have a1 : (⟨.curve (EaseCurve.single ⟨1, 0, 0⟩ (1 / 2)), 1 / 4, 1 / 2, 1, 0, 1 / 2, 0, 0⟩ : EaseSlot).advance (1 / 2) =
      some ⟨.curve (EaseCurve.single ⟨1, 1, 1 / 4⟩ 0), 1 / 4, 1 / 2, 1, 1 / 2, 1 / 2, 1 / 2, 1 / 4⟩ := by
    have ht' : (EaseCurve.single ⟨1, 0, 0⟩ (1 / 2)).total = 1 / 2 := rfl
    unfold advance
    simp only [zero_add, sub_zero, ht', le_refl, if_true]
    unfold nextQ
    rw [ht', e1, e2, if_pos (by norm_num), between_settle]
    simp only [Option.map_some, EaseQ.eval, sub_self]
    congr 2
    simp [EaseCurve.single, EaseCurve.eval, EaseCurve.curve, Quad.eval]
  refine ⟨_, _, h1, by rw [frames_cons, a1]; rfl, rfl, by norm_num, ?_, ?_⟩
  · simp [EaseQ.deriv, EaseCurve.single, EaseCurve.deriv, EaseCurve.curve, Quad.deriv]
  · simp [velocity, EaseQ.deriv, EaseCurve.single, EaseCurve.deriv, EaseCurve.curve, Quad.deriv]; norm_num

/-- The hypotheses of `C59_settles`: a motivator that starts at 0 moving down at 1/2 is sent to 3/4, to arrive moving up
at 1/2, with accelerations 1. -/
theorem settles_witness : ∃ c, between (fresh 0 (-1 / 2)).value (fresh 0 (-1 / 2)).velocity (3 / 4) (1 / 2) (1 / 4) 1 (1 / 2)
      = some c ∧ 0 < c.total ∧ c.eval c.total = 3 / 4 ∧ c.deriv c.total = 1 / 2 ∧
    (Quad.mk (-(1 * 1)) (2 * 1 * |1 / 2|) ((1 / 2) ^ 2) : Quad ℝ).WellConditioned := by
  have hv : (fresh 0 (-1 / 2)).velocity = -1 / 2 := by
    simp [velocity, fresh, EaseQ.deriv, EaseCurve.deriv, EaseCurve.curve, EaseCurve.single, Quad.initOrigin, Quad.deriv]
  have hk : Ease.curvature 0 (-1 / 2) (3 / 4) (1 / 4) = 1 := by unfold Ease.curvature epsScale; norm_num [abs_of_pos]
  have hq : Ease.shiftQuad (Ease.inPiece 0 (-1 / 2) 1 1) (Ease.outPiece (3 / 4) (1 / 2) 1 1) = ⟨-1, 0, 4⟩ := by
    simp only [Ease.shiftQuad, Ease.inPiece, Ease.outPiece, Quad.initOrigin, Quad.sub]; norm_num
  have hp : TwoPhase 0 (-1 / 2) 1 (3 / 4) (1 / 2) 1 1 (3 / 2) 2 := by unfold TwoPhase; norm_num
  obtain ⟨c, h1, h2, h3⟩ := Ease.twoPiece_spec (start := 0) (startD := -1 / 2) (s := 1) (endV := 3 / 4) (endD := 1 / 2)
    (e := 1) (k := 1) (typX := 1) (Or.inl rfl) (by norm_num) (by norm_num) (by norm_num) (by norm_num)
    (by rw [hq]; exact Quad.wellConditioned_pure rfl (by norm_num) (by norm_num) (by norm_num [abs_of_pos])
          (by norm_num [abs_of_pos]))
    (fun h => absurd ⟨_, _, hp⟩ h)
  have ht : 0 < c.total := by
    rcases (h2.ordered.1.trans h2.ordered.2).lt_or_eq with h | h
    · exact h
    · exfalso
      have a := h2.arrives
      have hi : c.inter = 0 := le_antisymm (h ▸ h2.ordered.2) h2.ordered.1
      have b := h2.step
      have d := h2.starts
      simp only [EaseCurve.eval, EaseCurve.curve, hi, le_refl, if_true] at d
      rw [← h] at a
      rw [hi, a, d, zero_sub, abs_neg] at b
      norm_num [abs_of_pos] at b
  refine ⟨c, ?_, ht, h2.ends ht, ?_, ?_⟩
  · unfold between
    rw [typicalSecond_mid (by norm_num) (by norm_num) (by norm_num) (by norm_num), Option.bind_some, hv]
    unfold Ease.calculate
    rw [if_neg (by
      push Not
      exact ⟨WithTop.coe_lt_coe.mpr (by norm_num), WithTop.coe_lt_coe.mpr (by norm_num), by norm_num, by norm_num⟩),
      if_neg (by unfold epsScale; norm_num [fresh, abs_of_pos])]
    change Ease.twoPiece 0 (-1 / 2) _ (3 / 4) (1 / 2) _ (Ease.curvature 0 (-1 / 2) (3 / 4) (1 / 4)) 1 = _
    rw [hk, show (2 * (1 / 4) / (1 / 2 * (1 * 1)) : ℝ) = 1 by norm_num,
      show (2 * (1 / 4) / ((1 - 1 / 2) * (1 * 1)) : ℝ) = 1 by norm_num, h1]
  · have e := h3 _ _ hp
    simp only [EaseCurve.deriv, EaseCurve.curve]
    split_ifs with h
    · have hi : c.inter = c.total := le_antisymm h2.ordered.2 h
      rw [← hi] at e ⊢
      rw [(h2.joined (by rw [hi]; exact ht.ne')).2, e]
    · exact e
  · intro n xr h
    rw [Quad.normalized_id (by norm_num) (by norm_num) (by norm_num [abs_of_pos]) (by norm_num [abs_of_pos])] at h
    cases h
    right
    simp only [Quad.epsilon, Quad.maxCoeff, epsScale, Quad.discriminant]
    norm_num [abs_of_pos]

/-- The hypotheses of `C59_typical` are met by a fresh motivator at rest. -/
example : (fresh 0 0).velocity = 0 ∧ |(1 / 4 : ℝ) - (fresh 0 0).value| = 1 / 4 := by
  constructor
  · simp [velocity, fresh, EaseQ.deriv, EaseCurve.deriv, EaseCurve.curve, EaseCurve.single, Quad.initOrigin, Quad.deriv]
  · simp [fresh, abs_of_pos]

end

end Motive.Slot.EaseSlot
