import Verif.Slot.EaseProps
import Verif.Slot.SpringProps
import Verif.Spline.Model

/-!
# The time that ease and spring motivators say is left (C124)

Model of `TargetTime` and `MotiveShape` of ease-in-ease-out and spring motivators (ease_in_ease_out_processor.cpp:56-58,
137-140; spring_processor.cpp:40-42, 85-88).  How the times of several dimensions are joined is C89.  Times of frames are
whole numbers, as `MotiveTime` is; arithmetic is exact, and a time that does not fit `int` is `none`.
-/

namespace Motive.Slot

open Motive.Curve

noncomputable section

/-- `MotiveCurveShape` (target.h:30-54): typical distance, typical time and bias. -/
structure Shape where
  delta : ℝ
  time : ℝ
  bias : ℝ

/-- `MotiveCurveShape()` (target.h:31-32). -/
def Shape.none : Shape := ⟨0, 0, 0⟩

/-- `SimpleTargetTime` of the ease processor (ease_in_ease_out_processor.cpp:56-58). -/
def EaseSlot.timeLeft (s : EaseSlot) : Option ℤ := Splines.toInt (s.targetTime - s.elapsed)
/-- `MotiveShape` of the ease processor (ease_in_ease_out_processor.cpp:137-140). -/
def EaseSlot.shape (s : EaseSlot) : Shape := ⟨s.typDelta, s.typTime, s.bias⟩
/-- `SimpleTargetTime` of the spring processor (spring_processor.cpp:40-42). -/
def SpringSlot.timeLeft (s : SpringSlot) : Option ℤ := Splines.toInt (s.targetTime - s.elapsed)
/-- `MotiveShape` of the spring processor (spring_processor.cpp:85-88). -/
def SpringSlot.shape (_ : SpringSlot) : Shape := Shape.none

/-- What a program does with a motivator: set a target with a velocity and a shape, or advance by a frame. -/
inductive Call where
  | target (value velocity : ℝ) (shape : Shape)
  | frame (dt : ℕ)

/-- A call on an ease motivator (ease_in_ease_out_processor.cpp:65-107, 112-136). -/
def EaseSlot.call (s : EaseSlot) : Call → Option EaseSlot
  | .target v d h => s.setTarget v d h.delta h.time h.bias
  | .frame dt => s.advance dt
/-- A call on a spring motivator (spring_processor.cpp:48-61, 67-83). -/
def SpringSlot.call (s : SpringSlot) : Call → Option SpringSlot
  | .target v _ h => s.setTarget v h.delta h.time h.bias
  | .frame dt => s.advance dt

/-- A program on an ease motivator. -/
def EaseSlot.run (s : EaseSlot) (cs : List Call) : Option EaseSlot := cs.foldlM EaseSlot.call s
/-- A program on a spring motivator. -/
def SpringSlot.run (s : SpringSlot) (cs : List Call) : Option SpringSlot := cs.foldlM SpringSlot.call s

/-! ### Specification -/

/-- The time since the last target was set, or since the start; `t` at the start. -/
def since : ℕ → List Call → ℕ
  | t, [] => t
  | _, .target .. :: cs => since 0 cs
  | t, .frame dt :: cs => since (t + dt) cs

/-- The shape that was last given; `h` at the start. -/
def lastShape : Shape → List Call → Shape
  | h, [] => h
  | _, .target _ _ h :: cs => lastShape h cs
  | h, .frame _ :: cs => lastShape h cs

/-- The total time of frames. -/
def total (ns : List ℕ) : ℕ := ns.sum

/-! ### Springs -/

theorem toInt_neg (n : ℕ) (h : n ≤ 2147483648) : Splines.toInt (-(n : ℝ)) = some (-(n : ℤ)) := by
  have e : Splines.trunc (-(n : ℝ)) = -(n : ℤ) := by
    unfold Splines.trunc
    split
    · rw [← Int.cast_natCast, ← Int.cast_neg, Int.floor_intCast]
    · rw [← Int.cast_natCast, ← Int.cast_neg, Int.ceil_intCast]
  unfold Splines.toInt
  rw [e, if_pos (by omega)]

theorem spring_run : ∀ (cs : List Call) {s t : SpringSlot} {n : ℕ}, s.targetTime = 0 → s.elapsed = n → s.run cs = some t →
    t.targetTime = 0 ∧ t.elapsed = since n cs := by
  intro cs
  induction cs with
  | nil => intro s t n h1 h2 h; simp only [SpringSlot.run, List.foldlM_nil] at h; cases h; exact ⟨h1, h2⟩
  | cons c cs ih =>
    intro s t n h1 h2 h
    have hr : (s.call c).bind (fun u => u.run cs) = some t := by
      rw [← h]; simp [SpringSlot.run, List.foldlM_cons]
    rw [Option.bind_eq_some_iff] at hr
    obtain ⟨u, hu, hr⟩ := hr
    cases c with
    | target v d k =>
      simp only [SpringSlot.call, SpringSlot.setTarget, Option.bind_eq_some_iff, Option.some.injEq] at hu
      obtain ⟨_, -, q, -, c, -, rfl⟩ := hu
      exact ih (s := { s with q := q, c := c, elapsed := 0 }) h1 (by simp) hr
    | frame dt =>
      simp only [SpringSlot.call, SpringSlot.advance, Option.bind_eq_some_iff, Option.some.injEq] at hu
      obtain ⟨c, -, v, -, rfl⟩ := hu
      exact ih (s := { s with c := c, elapsed := s.elapsed + dt, value := v }) h1 (by simp [h2]) hr

/-- C124, disagreement: the time that a spring motivator says is left has nothing to do with its motion: whatever targets
and shapes it is given, it is minus the time since the last one.  And the shape it reports is always the empty one. -/
theorem C124_spring_time (start : ℝ) (cs : List Call) {s : SpringSlot} (h : (SpringSlot.fresh start).run cs = some s)
    (hint : since 0 cs ≤ 2147483648) : s.timeLeft = some (-(since 0 cs : ℤ)) ∧ s.shape = Shape.none := by
  have h0 : (SpringSlot.fresh start).targetTime = 0 := by
    simp only [SpringSlot.fresh, Spring.iterationX, Spring.const, Spring.external]
    norm_num
  obtain ⟨h1, h2⟩ := spring_run cs h0 (n := 0) (by simp [SpringSlot.fresh]) h
  refine ⟨?_, rfl⟩
  unfold SpringSlot.timeLeft
  rw [h1, h2, zero_sub]
  exact toInt_neg _ hint

/-- C124, disagreement: a spring motivator that has just been sent elsewhere says that no time is left, though it has not
moved yet, and after any frames that the time left is negative, though a spring without damping is still swinging. -/
theorem C124_spring_not_there (start target : ℝ) (h : Shape) (hne : target ≠ start) (hD : 0 < h.delta) (hT : 0 < h.time)
    (hb1 : 1 / 10000 ≤ h.bias) (hb2 : h.bias ≤ 10000) (d : ℝ) :
    ∃ s, (SpringSlot.fresh start).run [.target target d h] = some s ∧ s.timeLeft = some 0 ∧ s.difference = target - start ∧
      s.difference ≠ 0 := by
  obtain ⟨-, -, -, hv⟩ := SpringSlot.C37_fresh start
  obtain ⟨s, dd, e, -, hq, -, hval⟩ := SpringSlot.setTarget_on (s := SpringSlot.fresh start) hv hD hT hb1 hb2
    (target := target) (Or.inl hne)
  have hrun : (SpringSlot.fresh start).run [.target target d h] = some s := by
    simp [SpringSlot.run, SpringSlot.call, e]
  have ht := (C124_spring_time start _ hrun (by simp [since])).1
  simp only [since, Nat.cast_zero, neg_zero] at ht
  have hdiff : s.difference = target - start := by
    obtain ⟨-, -, -, -, -, -, -, hg, -⟩ := Spring.make_facts hq
    simp only [SpringSlot.difference, SpringSlot.targetValue, hg, hval]
    rfl
  exact ⟨s, hrun, ht, hdiff, by rw [hdiff]; exact sub_ne_zero.mpr hne⟩

/-! ### Ease -/

theorem ease_call {s t : EaseSlot} {c : Call} (h : s.call c = some t) :
    match c with
    | .target _ _ k => t.elapsed = 0 ∧ t.shape = k
    | .frame dt => t.elapsed = s.elapsed + dt ∧ t.targetTime = s.targetTime ∧ t.shape = s.shape := by
  cases c with
  | target v d k =>
    simp only [EaseSlot.call, EaseSlot.setTarget, Option.map_eq_some_iff] at h
    obtain ⟨c, -, rfl⟩ := h
    exact ⟨rfl, rfl⟩
  | frame dt =>
    simp only [EaseSlot.call, EaseSlot.advance] at h
    split at h
    · cases h; exact ⟨rfl, rfl, rfl⟩
    · split at h
      · rw [Option.map_eq_some_iff] at h
        obtain ⟨q, -, rfl⟩ := h
        exact ⟨rfl, rfl, rfl⟩
      · cases h; exact ⟨rfl, rfl, rfl⟩

/-- C124: an ease motivator reports the shape it was last given. -/
theorem C124_ease_shape : ∀ (cs : List Call) {s t : EaseSlot}, s.run cs = some t → t.shape = lastShape s.shape cs := by
  intro cs
  induction cs with
  | nil => intro s t h; simp only [EaseSlot.run, List.foldlM_nil] at h; cases h; rfl
  | cons c cs ih =>
    intro s t h
    have hr : (s.call c).bind (fun u => u.run cs) = some t := by
      rw [← h]; simp [EaseSlot.run, List.foldlM_cons]
    rw [Option.bind_eq_some_iff] at hr
    obtain ⟨u, hu, hr⟩ := hr
    have := ease_call hu
    cases c with
    | target v d k => simp only at this; rw [ih hr, this.2]; rfl
    | frame dt => simp only at this; rw [ih hr, this.2.2]; rfl

theorem ease_frames : ∀ (ns : List ℕ) {s t : EaseSlot}, s.frames (ns.map (↑)) = some t →
    t.elapsed = s.elapsed + (total ns : ℕ) ∧ t.targetTime = s.targetTime := by
  intro ns
  induction ns with
  | nil => intro s t h; simp only [EaseSlot.frames, List.map_nil, List.foldlM_nil] at h; cases h; simp [total]
  | cons n ns ih =>
    intro s t h
    rw [List.map_cons, EaseSlot.frames_cons, Option.bind_eq_some_iff] at h
    obtain ⟨u, hu, h⟩ := h
    obtain ⟨a, b, -⟩ := ease_call (c := .frame n) hu
    obtain ⟨c, d⟩ := ih h
    exact ⟨by rw [c, a]; simp only [total, List.sum_cons]; push_cast; ring, d.trans b⟩

theorem cast_sum (ns : List ℕ) : (ns.map (fun n : ℕ => (n : ℝ))).sum = ((total ns : ℕ) : ℝ) := by
  induction ns with
  | nil => simp [total]
  | cons n ns ih => simp only [total, List.map_cons, List.sum_cons] at ih ⊢; rw [ih]; push_cast; ring

/-- C124: what an ease motivator says about the time left comes true.  A target is set from any state, such that the curve
to it arrives without velocity in less than 2^31.  After any frames `ns` that do not pass the target the motivator
says `r`, not negative.  Then after more frames that take no longer than `r` the motivator is on the curve still, and
after more frames that take longer than `r`, by the next whole unit, it is on the target, at rest. -/
theorem C124_ease_time {s s1 : EaseSlot} {c : EaseCurve} {target targetD typDelta typTime bias : ℝ}
    (hc : EaseSlot.between s.value s.velocity target targetD typDelta typTime bias = some c)
    (h1 : s.setTarget target targetD typDelta typTime bias = some s1) (hv : |c.deriv c.total| ≤ 1 / 1000000)
    (ht : 0 < c.total) (hint : c.total < 2147483648) (ns : List ℕ) (hns : (total ns : ℝ) ≤ c.total) :
    ∃ s2 r, s1.frames (ns.map (↑)) = some s2 ∧ s2.timeLeft = some r ∧ 0 ≤ r ∧
      (r : ℝ) ≤ c.total - total ns ∧ c.total - total ns < r + 1 ∧
      ∀ ms : List ℕ, ms ≠ [] → ∃ s3, s2.frames (ms.map (↑)) = some s3 ∧
        ((total ms : ℤ) ≤ r → s3.value = c.eval (total ns + total ms : ℕ)) ∧
        (r < total ms → s3.value = c.eval c.total ∧ s3.velocity = 0 ∧ s3.difference = 0) := by
  have hs1 : s1 = { s with q := .curve c, typDelta := typDelta, typTime := typTime, bias := bias, qStart := 0,
                           targetTime := c.total, elapsed := 0 } := by
    simp [EaseSlot.setTarget, hc] at h1; exact h1.symm
  have hat : s1.At c 0 := by subst hs1; exact ⟨rfl, rfl, Or.inl ⟨ht, rfl, rfl⟩⟩
  have pos : ∀ l : List ℕ, ∀ t ∈ l.map (fun n : ℕ => (n : ℝ)), 0 ≤ t := by
    intro l t h
    rw [List.mem_map] at h
    obtain ⟨n, -, rfl⟩ := h
    positivity
  obtain ⟨s2, e2, h2, -⟩ := EaseSlot.frames_at (pos ns) hat hv
  rw [zero_add, cast_sum] at h2
  obtain ⟨f1, f2⟩ := ease_frames ns e2
  have g1 : s2.elapsed = (total ns : ℕ) := by rw [f1, hs1]; simp
  have g2 : s2.targetTime = c.total := by rw [f2, hs1]
  have hnn : 0 ≤ c.total - (total ns : ℕ) := by linarith
  have hfl := Int.floor_le (c.total - (total ns : ℕ))
  have hfu := Int.lt_floor_add_one (c.total - (total ns : ℕ))
  have h0 : 0 ≤ ⌊c.total - (total ns : ℕ)⌋ := Int.floor_nonneg.mpr hnn
  have hlt : ⌊c.total - ((total ns : ℕ) : ℝ)⌋ < 2147483648 := by
    rw [Int.floor_lt]
    have : (0 : ℝ) ≤ (total ns : ℕ) := by positivity
    push_cast
    linarith
  refine ⟨s2, ⌊c.total - (total ns : ℕ)⌋, e2, ?_, h0, hfl, hfu, fun ms hms => ?_⟩
  · unfold EaseSlot.timeLeft Splines.toInt Splines.trunc
    rw [g1, g2, if_pos hnn, if_pos (by omega)]
  · obtain ⟨s3, e3, h3, v3⟩ := EaseSlot.frames_at (pos ms) h2 hv
    rw [cast_sum] at h3 v3
    refine ⟨s3, e3, fun hle => ?_, fun hgt => ?_⟩
    · have hle' : (total ms : ℝ) ≤ (⌊c.total - ((total ns : ℕ) : ℝ)⌋ : ℤ) := by exact_mod_cast hle
      rcases lt_or_eq_of_le (show ((total ns : ℕ) : ℝ) + (total ms : ℕ) ≤ c.total by linarith) with hh | hh
      · rw [v3 hh (by simpa using hms)]; push_cast; rfl
      · obtain ⟨-, -, ⟨b, -⟩ | ⟨-, -, d⟩⟩ := h3
        · linarith
        · rw [d, ← hh]; push_cast; rfl
    · have hgt' : ((⌊c.total - ((total ns : ℕ) : ℝ)⌋ + 1 : ℤ) : ℝ) ≤ (total ms : ℕ) := by
        have : ⌊c.total - ((total ns : ℕ) : ℝ)⌋ + 1 ≤ (total ms : ℤ) := by omega
        exact_mod_cast this
      push_cast at hgt'
      obtain ⟨-, -, ⟨b, -⟩ | ⟨-, b, d⟩⟩ := h3
      · linarith
      · exact ⟨d, by simp [EaseSlot.velocity, b, EaseQ.deriv], by
          simp [EaseSlot.difference, EaseSlot.targetValue, b, d, EaseQ.eval]⟩

/-- C124, disagreement: once the target is passed, the time that an ease motivator says is left is negative and falls for
ever, as long as it fits. -/
theorem C124_ease_negative {s s1 s2 : EaseSlot} {c : EaseCurve} {target targetD typDelta typTime bias : ℝ}
    (hc : EaseSlot.between s.value s.velocity target targetD typDelta typTime bias = some c)
    (h1 : s.setTarget target targetD typDelta typTime bias = some s1) (ns : List ℕ) (h2 : s1.frames (ns.map (↑)) = some s2)
    (hns : c.total + 1 ≤ total ns) (hint : (total ns : ℝ) - c.total < 2147483649) :
    s2.timeLeft = some (-⌊(total ns : ℝ) - c.total⌋) ∧ 1 ≤ ⌊(total ns : ℝ) - c.total⌋ := by
  have hs1 : s1 = { s with q := .curve c, typDelta := typDelta, typTime := typTime, bias := bias, qStart := 0,
                           targetTime := c.total, elapsed := 0 } := by
    simp [EaseSlot.setTarget, hc] at h1; exact h1.symm
  obtain ⟨f1, f2⟩ := ease_frames ns h2
  have g1 : s2.elapsed = (total ns : ℕ) := by rw [f1, hs1]; simp
  have g2 : s2.targetTime = c.total := by rw [f2, hs1]
  have hge : 1 ≤ ⌊(total ns : ℝ) - c.total⌋ := by rw [Int.le_floor]; push_cast; linarith
  have hlt : ⌊(total ns : ℝ) - c.total⌋ < 2147483649 := by rw [Int.floor_lt]; push_cast; linarith
  refine ⟨?_, hge⟩
  unfold EaseSlot.timeLeft Splines.toInt Splines.trunc
  rw [g1, g2, if_neg (show ¬ (0 ≤ c.total - ((total ns : ℕ) : ℝ)) by push Not; linarith), show c.total - ((total ns : ℕ) : ℝ) = -((total ns : ℝ) - c.total) by ring,
    Int.ceil_neg, if_pos (by omega)]

/-- The hypotheses of `C124_ease_time` hold of a motion from 0 to 1 with a typical time of 16. -/
example : ∃ c s1, EaseSlot.between (EaseSlot.fresh 0 0).value (EaseSlot.fresh 0 0).velocity 1 0 1 16 (1 / 2) = some c ∧
    (EaseSlot.fresh 0 0).setTarget 1 0 1 16 (1 / 2) = some s1 ∧ |c.deriv c.total| ≤ 1 / 1000000 ∧ 0 < c.total ∧
    c.total < 2147483648 ∧ (total [5, 6] : ℝ) ≤ c.total := by
  obtain ⟨a, e, c, h1, h2, h3, -, -, h5, h6, h7⟩ := C36_typical 0 1 1 16 (1 / 2) (by norm_num) (by norm_num) (by norm_num)
    (by norm_num) (by norm_num) (by norm_num)
  have hv : (EaseSlot.fresh 0 0).velocity = 0 := by
    simp [EaseSlot.fresh, EaseSlot.velocity, EaseQ.deriv, EaseCurve.single, Quad.initOrigin, EaseCurve.deriv, EaseCurve.curve, Quad.deriv]
  have hc : EaseSlot.between (EaseSlot.fresh 0 0).value (EaseSlot.fresh 0 0).velocity 1 0 1 16 (1 / 2) = some c := by
    rw [hv]
    simp only [EaseSlot.between, h1, Option.bind_some]
    exact h2
  refine ⟨c, _, hc, by simp only [EaseSlot.setTarget, hc, Option.map_some]; rfl, by rw [h3, h7]; norm_num, by rw [h3]; norm_num,
    by rw [h3]; norm_num, by rw [h3]; norm_num [total]⟩

/-- The hypotheses of `C124_spring_not_there` hold. -/
example : ∃ h : Shape, (3 : ℝ) ≠ 1 ∧ 0 < h.delta ∧ 0 < h.time ∧ 1 / 10000 ≤ h.bias ∧ h.bias ≤ 10000 :=
  ⟨⟨1, 100, 1 / 2⟩, by norm_num⟩

end

end Motive.Slot
