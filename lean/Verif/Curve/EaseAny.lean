import Verif.Curve.EaseProps
/-!
# C36: what ease-in-ease-out curves guarantee for every input, also in the root finder's tolerance bands

The root finder may return values that are not quite roots (C30).  What does not depend on that: both pieces are built
from the exact states at their outer ends, and the place of the junction makes the velocities of the pieces equal
whatever the shift.  Only the values at the junction depend on the root, and the sanity check bounds that step.
-/

namespace Motive.Curve

open Quad Ease

noncomputable section

/-- `CalculateShiftForUniqueIntersection` taken apart: the junction belongs to the shift, and passed the check. -/
theorem Ease.uniqueIntersection_any {f g : Quad ℝ} {typX : ℝ} {it : ℝ × ℝ} (h : uniqueIntersection f g typX = some it) :
    it.1 = (if |touchX f g it.2| < typX * (1 / 10000) then 0 else touchX f g it.2) ∧
      |f.eval (touchX f g it.2) - g.eval (touchX f g it.2 - it.2)| ≤ typX * (1 / 10000) := by
  unfold uniqueIntersection at h
  obtain ⟨rs, -, h⟩ := Option.bind_eq_some_iff.mp h
  obtain ⟨s, -, h⟩ := Option.bind_eq_some_iff.mp h
  unfold finishIntersection at h
  dsimp only at h
  split_ifs at h with h1 h2 h3
  all_goals
    obtain rfl := Option.some.inj h
    have e : (⟨(f.sub g).c2, (f.sub g).c1 + 2 * g.c2 * s, (f.sub g).c0 - g.c2 * s * s + g.c1 * s⟩ : Quad ℝ).eval
        (touchX f g s) = f.eval (touchX f g s) - g.eval (touchX f g s - s) := by
      simp only [Quad.sub, eval]; ring
    rw [e] at h2
    refine ⟨?_, h2⟩
  · exact (if_pos h3).symm
  · exact (if_neg h3).symm

/-- A curve of one piece from a start state. -/
structure OnePiece (c : EaseCurve) (start startD : ℝ) : Prop where
  /-- there is no second piece -/
  one : c.inC = c.outC ∧ c.inter = c.total
  /-- it does not end before it starts -/
  forward : 0 ≤ c.total
  /-- it starts at the start value -/
  starts : c.eval 0 = start
  /-- and velocity -/
  startsMoving : c.deriv 0 = startD

/-- A curve of two pieces. `step` and `stepVelocity` bound the jumps at the junction. -/
structure TwoPieces (c : EaseCurve) (start startD endV endD step stepVelocity : ℝ) : Prop where
  /-- the junction lies within the duration -/
  ordered : 0 ≤ c.inter ∧ c.inter ≤ c.total
  /-- it starts at the start value -/
  starts : c.eval 0 = start
  /-- and velocity -/
  startsMoving : c.deriv 0 = startD
  /-- it ends at the end value -/
  ends : c.inter < c.total → c.eval c.total = endV
  /-- and velocity -/
  endsMoving : c.inter < c.total → c.deriv c.total = endD
  /-- the pieces meet with equal velocity -/
  joined : c.inter ≠ 0 → c.inC.deriv c.inter = c.outC.deriv c.inter
  /-- and nearly equal value -/
  step : |c.inC.eval c.inter - c.outC.eval c.inter| ≤ step
  /-- at a junction snapped to zero the velocities are nearly equal -/
  stepVelocity : |c.inC.deriv c.inter - c.outC.deriv c.inter| ≤ stepVelocity

theorem Ease.curvature_cases (start startD endV typDelta : ℝ) :
    curvature start startD endV typDelta = 1 ∨ curvature start startD endV typDelta = -1 := by
  unfold curvature; split_ifs <;> simp

theorem Ease.pickEnd_nonneg {xs : List ℝ} {x : ℝ} (h : pickEnd xs = some x) : 0 ≤ x := by
  unfold pickEnd at h
  split at h
  · cases h
  · split_ifs at h with h1; cases h; exact h1
  · split_ifs at h with h1 h2
    · cases h; exact h1
    · cases h; exact h2

theorem Ease.flyOut_any {start endV startD second : ℝ} {c : EaseCurve} (h : flyOut start endV startD second = some c) :
    OnePiece c start startD := by
  unfold flyOut at h
  obtain ⟨xs, -, h⟩ := Option.bind_eq_some_iff.mp h
  obtain ⟨x, h1, rfl⟩ := Option.map_eq_some_iff.mp h
  have h0 := pickEnd_nonneg h1
  refine ⟨⟨rfl, rfl⟩, h0, ?_, ?_⟩
  · simp [EaseCurve.eval, EaseCurve.curve, EaseCurve.single, flyOutCurve, initOrigin, eval]
  · simp [EaseCurve.deriv, EaseCurve.curve, EaseCurve.single, flyOutCurve, initOrigin, deriv]

theorem Ease.twoPiece_any {start startD s endV endD e k typX : ℝ} {c : EaseCurve} (hk : k = 1 ∨ k = -1) (hs : 0 < s)
    (he : 0 < e) (hx : 0 < typX) (h : twoPiece start startD s endV endD e k typX = some c) :
    OnePiece c start startD ∨
      TwoPieces c start startD endV endD (typX / 10000 + (s + e) / 2 * (typX / 10000) ^ 2)
        ((s + e) * (typX / 10000)) := by
  unfold twoPiece at h
  obtain ⟨⟨i, t⟩, h1, h⟩ := Option.bind_eq_some_iff.mp h
  obtain ⟨h2, h3⟩ := uniqueIntersection_any h1
  simp only at h2 h3 h
  split_ifs at h with hfb
  · exact Or.inl (flyOut_any h)
  · right
    obtain rfl := Option.some.inj h
    push Not at hfb
    set u := touchX (inPiece start startD s k) (outPiece endV endD e k) t with hu
    have hkabs : |k| = 1 := by rcases hk with h | h <;> rw [h] <;> norm_num
    have hse : 0 < s + e := by linarith
    have hder : ∀ x, (inPiece start startD s k).deriv x - ((outPiece endV endD e k).shiftRight t).deriv x =
        k * (s + e) * (x - u) := by
      intro x; rw [shiftRight_deriv, touch_deriv hk hs he t x]
    -- the difference of the pieces is a parabola with its vertex at `u`
    have hval : ∀ x, (inPiece start startD s k).eval x - ((outPiece endV endD e k).shiftRight t).eval x =
        ((inPiece start startD s k).eval u - (outPiece endV endD e k).eval (u - t)) + k * (s + e) / 2 * (x - u) ^ 2 := by
      intro x
      have hd := touch_deriv (start := start) (endV := endV) (startD := startD) (endD := endD) hk hs he t u
      rw [← hu, sub_self, mul_zero] at hd
      rw [shiftRight_eval]
      simp only [inPiece, outPiece, initOrigin, eval, deriv] at hd ⊢
      linear_combination (x - u) * hd
    have hiu : |i - u| ≤ typX / 10000 := by
      by_cases hsn : |u| < typX * (1 / 10000)
      · rw [if_pos hsn] at h2
        rw [h2, zero_sub, abs_neg]; linarith
      · rw [if_neg hsn] at h2
        rw [h2, sub_self, abs_zero]; positivity
    have hend : ∀ (hlt : i < t), ¬ t ≤ i := fun hlt => not_le.mpr hlt
    refine ⟨⟨hfb.2, hfb.1⟩, ?_, ?_, fun hlt => ?_, fun hlt => ?_, fun hne => ?_, ?_, ?_⟩
    · simp [EaseCurve.eval, EaseCurve.curve, hfb.2, inPiece, initOrigin, eval]
    · simp [EaseCurve.deriv, EaseCurve.curve, hfb.2, inPiece, initOrigin, deriv]
    · simp only [EaseCurve.eval, EaseCurve.curve, if_neg (hend hlt), shiftRight_eval, sub_self]
      simp [outPiece, initOrigin, eval]
    · simp only [EaseCurve.deriv, EaseCurve.curve, if_neg (hend hlt), shiftRight_deriv, sub_self]
      simp [outPiece, initOrigin, deriv]
    · simp only at hne ⊢
      have : i = u := by
        by_cases hsn : |u| < typX * (1 / 10000)
        · rw [if_pos hsn] at h2; exact absurd h2 hne
        · rw [if_neg hsn] at h2; exact h2
      have := hder i
      rw [‹i = u›, sub_self, mul_zero] at this
      rw [‹i = u›]; linarith
    · simp only
      rw [hval i]
      refine (abs_add_le _ _).trans (add_le_add (by linarith) ?_)
      rw [abs_mul, abs_div, abs_mul, hkabs, one_mul, abs_of_pos hse, abs_of_pos (by norm_num : (0 : ℝ) < 2),
        abs_of_nonneg (sq_nonneg _)]
      refine mul_le_mul_of_nonneg_left ?_ (by linarith)
      rw [← sq_abs]
      exact pow_le_pow_left₀ (abs_nonneg _) hiu 2
    · simp only
      rw [hder i, abs_mul, abs_mul, hkabs, one_mul, abs_of_pos hse]
      exact mul_le_mul_of_nonneg_left hiu hse.le

/-- C36 for all inputs, also where the root finder is inexact: whatever curve comes out starts at the start value and
velocity; if it has two pieces, it ends at the end value and velocity exactly, and the pieces meet with equal
velocity (nearly, if the junction is snapped to 0) and with values that differ by about a ten-thousandth of the typical
duration at most.

Partial: a curve of one piece (the code's fallback, and the case that start and end compare equal) is only shown to
start right; for where it ends see `C36_ease_partial`. The bound on the step is that of the sanity check
(`MOTIVE_CURVE_SANITY_CHECKS`); if the check fails the result is `none`. -/
theorem C36_any_input_partial (start startD s endV endD e typDelta typX : ℝ) (hs : 0 < s) (he : 0 < e) (c : EaseCurve)
    (h : calculate start startD s endV endD e typDelta typX = some c) :
    OnePiece c start startD ∨
      TwoPieces c start startD endV endD (typX / 10000 + (s + e) / 2 * (typX / 10000) ^ 2)
        ((s + e) * (typX / 10000)) := by
  unfold calculate at h
  split_ifs at h with h1 h2
  · left
    obtain rfl := Option.some.inj h
    refine ⟨⟨rfl, rfl⟩, le_refl _, ?_, ?_⟩
    · simp [EaseCurve.eval, EaseCurve.curve, EaseCurve.single, initOrigin, eval]
    · simp [EaseCurve.deriv, EaseCurve.curve, EaseCurve.single, initOrigin, deriv]
  · exact twoPiece_any (curvature_cases _ _ _ _) hs he h1.2.2.2 h

/-- C36 for all inputs with a bias of 0 (no ease-in): a curve that comes out ends at the end value with the end
velocity, unless start and end compare equal. -/
theorem C36_any_fly_in_partial (start startD endV endD e typDelta typX : ℝ) (c : EaseCurve)
    (h : calculate start startD ⊤ endV endD e typDelta typX = some c)
    (hne : ¬ (|endV - start| ≤ epsScale * typDelta ∧ |endD - startD| ≤ epsScale * (typDelta / typX))) :
    0 ≤ c.total ∧ c.eval c.total = endV ∧ c.deriv c.total = endD := by
  unfold calculate at h
  split_ifs at h with h1
  change flyIn start endV endD e = some c at h
  unfold flyIn at h
  obtain ⟨xs, -, h⟩ := Option.bind_eq_some_iff.mp h
  obtain ⟨b, -, h⟩ := Option.bind_eq_some_iff.mp h
  split_ifs at h with h3
  obtain rfl := Option.some.inj h
  refine ⟨by simpa [EaseCurve.single] using h3, ?_, ?_⟩
  · simp only [EaseCurve.eval, EaseCurve.curve, EaseCurve.single, le_refl, if_true, shiftRight_eval, sub_self]
    simp [flyInCurve, initOrigin, eval]
  · simp only [EaseCurve.deriv, EaseCurve.curve, EaseCurve.single, le_refl, if_true, shiftRight_deriv, sub_self]
    simp [flyInCurve, initOrigin, deriv]

/-- C36 for all inputs with a bias of 1 (no ease-out): a curve that comes out starts at the start value with the start
velocity. -/
theorem C36_any_fly_out_partial (start startD s endV endD typDelta typX : ℝ) (c : EaseCurve)
    (h : calculate start startD s endV endD ⊤ typDelta typX = some c) : OnePiece c start startD := by
  unfold calculate at h
  split_ifs at h with h1 h2
  · obtain rfl := Option.some.inj h
    refine ⟨⟨rfl, rfl⟩, le_refl _, ?_, ?_⟩
    · simp [EaseCurve.eval, EaseCurve.curve, EaseCurve.single, initOrigin, eval]
    · simp [EaseCurve.deriv, EaseCurve.curve, EaseCurve.single, initOrigin, deriv]
  · exact flyOut_any h

/-- The curve of the example for `C36_typical` has two pieces that meet in the middle. -/
example : ∃ s e c, typicalSecond (1 / 4) 1 (1 / 2) = some (((s : ℝ) : WithTop ℝ), ((e : ℝ) : WithTop ℝ)) ∧
    calculate 0 0 s (1 / 4) 0 e (1 / 4) 1 = some c ∧ TwoPieces c 0 0 (1 / 4) 0 (1 / 10000 + 1 / 10000 ^ 2)
      (2 * (1 / 10000)) := by
  obtain ⟨s, e, c, h1, h2, h3, h4, -⟩ := C36_typical 0 (1 / 4) (1 / 4) 1 (1 / 2) (by norm_num) (by norm_num)
    (by norm_num) (by norm_num) (by norm_num [abs_of_pos]) ⟨by norm_num, by norm_num, by norm_num, by norm_num⟩
  have h5 : typicalSecond (1 / 4) 1 (1 / 2) = some (((1 : ℝ) : WithTop ℝ), ((1 : ℝ) : WithTop ℝ)) := by
    unfold typicalSecond; norm_num
  rw [h5] at h1
  obtain ⟨rfl, rfl⟩ := Prod.mk.inj (Option.some.inj h1)
  refine ⟨1, 1, c, h5, h2, ?_⟩
  rcases C36_any_input_partial 0 0 1 (1 / 4) 0 1 (1 / 4) 1 (by norm_num) (by norm_num) c h2 with h | h
  · have := h.one.2
    rw [h3, h4] at this
    norm_num at this
  · have a : (1 : ℝ) / 10000 + (1 + 1) / 2 * (1 / 10000) ^ 2 = 1 / 10000 + 1 / 10000 ^ 2 := by norm_num
    have b : ((1 : ℝ) + 1) * (1 / 10000) = 2 * (1 / 10000) := by norm_num
    rw [a, b] at h
    exact h

end

end Motive.Curve
