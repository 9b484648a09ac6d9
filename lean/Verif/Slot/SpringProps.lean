import Verif.Slot.Spring
import Verif.Curve.SpringInc
/-!
# C37: the spring processor follows its curve, whatever the frame times
-/

namespace Motive.Slot.SpringSlot

open Motive.Curve Motive.Curve.Spring

noncomputable section

/-- The slot is `x` along a running curve. -/
structure On (s : SpringSlot) (d : ℝ) : Prop where
  wf : s.q.WF d
  follows : s.q.Follows d s.c s.elapsed
  start : -d ≤ s.q.internal 0
  pos : 0 ≤ s.elapsed
  run : s.q.Running 0
  value : s.q.evalWith s.c s.elapsed = some s.value

theorem On.running_or {s : SpringSlot} {d : ℝ} (h : s.On d) {x : ℝ} (hx : 0 ≤ x) : s.q.bias < 1 ∨ s.q.Running x := by
  rcases lt_trichotomy s.q.bias 1 with hb | hb | hb
  · exact Or.inl hb
  · exact Or.inr (Or.inl hb)
  · right; right
    have hr := r_neg h.wf hb
    have h0 := h.run.resolve_left hb.ne'
    have : s.q.internal x / s.q.r ≤ s.q.internal 0 / s.q.r :=
      div_le_div_of_nonpos_of_le hr.le (by unfold internal; linarith)
    linarith

theorem On.advance {s : SpringSlot} {d : ℝ} (h : s.On d) {dt : ℝ} (hdt : 0 ≤ dt) :
    ∃ s', s.advance dt = some s' ∧ s'.On d ∧ s'.elapsed = s.elapsed + dt ∧ s'.q = s.q := by
  have hx : 0 ≤ s.elapsed + dt := by linarith [h.pos]
  obtain ⟨c', hc, hf⟩ := increment_follows h.wf h.follows (by linarith : s.elapsed ≤ s.elapsed + dt) (h.running_or hx)
  have hv := follows_valid hf
  obtain ⟨v, hev⟩ : ∃ v, s.q.evalWith c' (s.elapsed + dt) = some v := by unfold evalWith; rw [if_pos hv]; exact ⟨_, rfl⟩
  refine ⟨⟨s.q, c', s.elapsed + dt, s.targetTime, v⟩, ?_, ⟨h.wf, hf, h.start, hx, h.run, hev⟩, rfl, rfl⟩
  simp [SpringSlot.advance, hc, hev]

theorem On.frames {dts : List ℝ} (hdt : ∀ t ∈ dts, 0 ≤ t) {s : SpringSlot} {d : ℝ} (h : s.On d) :
    ∃ s', s.frames dts = some s' ∧ s'.On d ∧ s'.elapsed = s.elapsed + dts.sum ∧ s'.q = s.q := by
  induction dts generalizing s with
  | nil => exact ⟨s, rfl, h, by simp, rfl⟩
  | cons t ts ih =>
    obtain ⟨s1, e1, h1, t1, q1⟩ := h.advance (hdt t (by simp))
    obtain ⟨s2, e2, h2, t2, q2⟩ := ih (fun u hu => hdt u (by simp [hu])) h1
    refine ⟨s2, ?_, h2, ?_, by rw [q2, q1]⟩
    · have : SpringSlot.frames s (t :: ts) = (SpringSlot.advance s t).bind fun s' => SpringSlot.frames s' ts := by
        simp [SpringSlot.frames, List.foldlM_cons]
      rw [this, e1, Option.bind_some, e2]
    · rw [t2, t1, List.sum_cons]; ring

theorem setTarget_on {s : SpringSlot} {v target typDelta typTime bias : ℝ} (hv : s.velocity = some v)
    (hD : 0 < typDelta) (hT : 0 < typTime) (hb1 : 1 / 10000 ≤ bias) (hb2 : bias ≤ 10000)
    (hm : target ≠ s.value ∨ 0 < v) :
    ∃ s' d, s.setTarget target typDelta typTime bias = some s' ∧ s'.On d ∧
      Spring.make s.value v target typDelta typTime bias = some s'.q ∧ s'.elapsed = 0 ∧ s'.value = s.value := by
  have hbb := clampBias_bounds hb1 hb2
  obtain ⟨q, hq⟩ : ∃ q, make s.value v target typDelta typTime bias = some q := by
    unfold make
    simp only
    rw [if_neg (by push Not; exact ⟨hT.ne', hD, by linarith [hbb.1]⟩)]
    exact ⟨_, rfl⟩
  obtain ⟨d, hw, hst, hrun, e1, -, -⟩ := start_facts hq hb1 hb2 hm
  obtain ⟨c, hc, hf⟩ := context_follows hw (Or.inr hrun : q.bias < 1 ∨ q.Running 0)
  have e2 := (eval_describes hw hrun hf).1
  refine ⟨⟨q, c, 0, s.targetTime, s.value⟩, d, ?_, ⟨hw, hf, hst, le_rfl, hrun, by rw [e2, e1]⟩, hq, rfl, rfl⟩
  simp [setTarget, hv, hq, hc]

/-! ### Property theorems -/

/-- C37 through the processor. From any slot with a velocity, set any target and valid shape, then advance by any frame
times: no assert fails, the target is reported, the value and the reported difference add up to it, and while the oscillation is running the value and velocity are those of
the curve at the total time, however the time was cut into frames. -/
theorem C37_frames {s : SpringSlot} {v target typDelta typTime bias : ℝ} (hv : s.velocity = some v)
    (hD : 0 < typDelta) (hT : 0 < typTime) (hb1 : 1 / 10000 ≤ bias) (hb2 : bias ≤ 10000)
    (hm : target ≠ s.value ∨ 0 < v) (dts : List ℝ) (hdt : ∀ t ∈ dts, 0 ≤ t) :
    ∃ q s', Spring.make s.value v target typDelta typTime bias = some q ∧
      (s.setTarget target typDelta typTime bias).bind (fun s1 => s1.frames dts) = some s' ∧
      s'.targetValue = target ∧ s'.value + s'.difference = target ∧
      (q.Running dts.sum → q.eval dts.sum = some s'.value ∧ q.deriv dts.sum = s'.velocity ∧ s'.velocity ≠ none) := by
  obtain ⟨s1, d, e1, h1, hq, t1, -⟩ := setTarget_on hv hD hT hb1 hb2 hm
  obtain ⟨s2, e2, h2, t2, q2⟩ := h1.frames hdt
  rw [t1, zero_add] at t2
  have htv : s2.targetValue = target := by
    unfold targetValue
    rw [q2]
    obtain ⟨-, -, -, -, -, -, -, ht, -⟩ := make_facts hq
    exact ht
  refine ⟨s1.q, s2, hq, by rw [e1, Option.bind_some, e2], htv, ?_, fun hr => ?_⟩
  · unfold difference
    rw [htv, add_sub_cancel]
  · rw [← t2] at hr ⊢
    rw [← q2] at hr ⊢
    obtain ⟨a, b⟩ := eval_describes h2.wf hr h2.follows
    refine ⟨by rw [← a]; exact h2.value, by rw [← b]; rfl, ?_⟩
    unfold velocity derivWith
    rw [if_pos (follows_valid h2.follows)]
    simp

/-- C37: setting a target changes neither the value nor the velocity. -/
theorem C37_retarget {s : SpringSlot} {v target typDelta typTime bias : ℝ} (hv : s.velocity = some v)
    (hD : 0 < typDelta) (hT : 0 < typTime) (hb1 : 1 / 10000 ≤ bias) (hb2 : bias ≤ 10000)
    (hm : target ≠ s.value ∨ 0 < v) :
    ∃ s', s.setTarget target typDelta typTime bias = some s' ∧ s'.value = s.value ∧ s'.velocity = some v := by
  obtain ⟨s1, d, e1, h1, hq, t1, v1⟩ := setTarget_on hv hD hT hb1 hb2 hm
  refine ⟨s1, e1, v1, ?_⟩
  obtain ⟨-, e, -⟩ := C37_starts hq hb1 hb2 hm
  have := (eval_describes h1.wf (by rw [t1]; exact h1.run) h1.follows).2
  unfold velocity
  rw [this, t1, e]

/-- C37, settling: a damped spring comes to rest exactly on its target. There is a time, depending only on the curve,
after which any frame times leave it at the target with velocity zero. -/
theorem C37_settles {s : SpringSlot} {v target typDelta typTime bias : ℝ} (hv : s.velocity = some v)
    (hD : 0 < typDelta) (hT : 0 < typTime) (hb1 : 1 / 10000 ≤ bias) (hb2 : bias < 1)
    (hm : target ≠ s.value ∨ 0 < v) :
    ∃ T : ℝ, ∀ dts : List ℝ, (∀ t ∈ dts, 0 ≤ t) → T ≤ dts.sum →
      ∃ s', (s.setTarget target typDelta typTime bias).bind (fun s1 => s1.frames dts) = some s' ∧
        s'.value = target ∧ s'.velocity = some 0 ∧ s'.difference = 0 := by
  obtain ⟨s1, d, e1, h1, hq, t1, -⟩ := setTarget_on hv hD hT hb1 (by linarith) hm
  refine ⟨s1.q.r - s1.q.startX, fun dts hdt hT => ?_⟩
  obtain ⟨s2, e2, h2, t2, q2⟩ := h1.frames hdt
  rw [t1, zero_add] at t2
  obtain ⟨-, -, -, -, -, -, hbc, ht, -⟩ := make_facts hq
  have hb : s2.q.bias < 1 := by
    rw [q2, hbc]; unfold clampBias
    rw [if_neg hb2.ne, if_pos hb2]
    exact (min_le_left _ _).trans_lt (by norm_num)
  obtain ⟨a, b⟩ := follows_end h2.wf h2.follows hb (by unfold internal; rw [t2, q2]; linarith)
  have hval : s2.value = target := by
    have := h2.value
    rw [a, q2, ht] at this
    exact (Option.some.inj this).symm
  refine ⟨s2, by rw [e1, Option.bind_some, e2], hval, b, ?_⟩
  unfold difference targetValue
  rw [hval, q2, ht, sub_self]

/-- C37, amplitude: a spring that is not growing never strays further from its target than its first peak. -/
theorem C37_bounded {s : SpringSlot} {v target typDelta typTime bias : ℝ} (hv : s.velocity = some v)
    (hD : 0 < typDelta) (hT : 0 < typTime) (hb1 : 1 / 10000 ≤ bias) (hb2 : bias ≤ 1)
    (hm : target ≠ s.value ∨ 0 < v) (dts : List ℝ) (hdt : ∀ t ∈ dts, 0 ≤ t) :
    ∃ q s', Spring.make s.value v target typDelta typTime bias = some q ∧
      (s.setTarget target typDelta typTime bias).bind (fun s1 => s1.frames dts) = some s' ∧
      |s'.value - target| ≤ |q.peak| := by
  obtain ⟨s1, d, e1, h1, hq, t1, -⟩ := setTarget_on hv hD hT hb1 (by linarith) hm
  obtain ⟨s2, e2, h2, t2, q2⟩ := h1.frames hdt
  obtain ⟨-, -, -, -, -, -, hbc, ht, -⟩ := make_facts hq
  have hb : s2.q.bias ≤ 1 := by
    rw [q2, hbc]; unfold clampBias
    split_ifs with g1 g2
    · exact le_rfl
    · exact (min_le_left _ _).trans (by norm_num)
    · exact absurd (le_antisymm hb2 (not_lt.mp g2)) g1
  obtain ⟨w, a, b⟩ := follows_bound h2.wf hb h2.follows
    (by have := h2.start; have := h2.pos; unfold internal at *; linarith)
  refine ⟨s1.q, s2, hq, by rw [e1, Option.bind_some, e2], ?_⟩
  rw [h2.value] at a
  rw [Option.some.inj a, ← ht, ← q2]
  exact b

/-- C37: a spring that has just been initialised is at rest at its start value, which is also its target. -/
theorem C37_fresh (start : ℝ) : (fresh start).value = start ∧ (fresh start).targetValue = start ∧
    (fresh start).difference = 0 ∧ (fresh start).velocity = some 0 :=
  ⟨rfl, rfl, sub_self start, by unfold velocity derivWith validX fresh noCtx const internal; norm_num⟩

/-- The hypotheses hold for a fresh motivator given a target elsewhere. -/
example : ∃ s : SpringSlot, s.velocity = some 0 ∧ (3 : ℝ) ≠ s.value :=
  ⟨fresh 1, by unfold velocity derivWith validX fresh noCtx const internal; norm_num, by unfold fresh; norm_num⟩

/-- C37, disagreement. A spring that has been initialised but not yet given a target is a constant curve with a zero bias.
Its first frame with time in it divides zero by zero and fails the assert on the range (curve_util.h:440). -/
theorem C37_untargeted_frame_fails (start : ℝ) {dt : ℝ} (hdt : 0 < dt) : (fresh start).advance dt = none := by
  have : (Spring.const start).advanceCtx noCtx (0 + dt) = none := by
    unfold advanceCtx noCtx
    simp only
    have h0 : (0 : ℝ) < (Spring.const start).internal (0 + dt) := by unfold internal const; simp; exact hdt
    rw [if_pos h0]
    unfold stepCtx
    simp
  rw [zero_add] at this
  simp [advance, fresh, increment, this]

end

end Motive.Slot.SpringSlot
