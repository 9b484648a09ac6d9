import Verif.Curve.Model
import Mathlib.Tactic.Linarith
import Mathlib.Tactic.Ring
import Mathlib.Tactic.FieldSimp
import Mathlib.Tactic.NormNum
import Mathlib.Tactic.Positivity
import Mathlib.Tactic.LinearCombination
import Mathlib.Analysis.Calculus.Deriv.Pow
import Mathlib.Analysis.Calculus.Deriv.Add
import Mathlib.Analysis.Calculus.Deriv.Mul

/-!
# Properties C29 and C31: polynomial curves
-/

set_option linter.unusedSectionVars false

namespace Motive.Curve

variable {K : Type} [Field K] [LinearOrder K] [IsStrictOrderedRing K]

/-! ### C29 -/

/-- C29: the functions reported as derivatives are the derivatives, in the sense of analysis, of the function
that `Evaluate` computes. -/
theorem C29_derivatives (q : Quad ℝ) (c : Cubic ℝ) (x : ℝ) :
    HasDerivAt q.eval (q.deriv x) x ∧ HasDerivAt q.deriv q.second x ∧
    HasDerivAt c.eval (c.deriv x) x ∧ HasDerivAt c.deriv (c.second x) x ∧ HasDerivAt c.second c.third x := by
  have hx := hasDerivAt_id x
  have lin : ∀ a b : ℝ, HasDerivAt (fun y : ℝ => a * y + b) a x := by
    intro a b
    have := (hx.const_mul a).add_const b
    simpa using this
  have quad : ∀ a b d : ℝ, HasDerivAt (fun y : ℝ => (a * y + b) * y + d) (2 * a * x + b) x := by
    intro a b d
    have := ((lin a b).mul hx).add_const d
    refine this.congr_deriv ?_
    simp only [id]; ring
  refine ⟨quad _ _ _, lin _ _, ?_, ?_, lin _ _⟩
  · have := ((quad c.c3 c.c2 c.c1).mul hx).add_const c.c0
    refine this.congr_deriv ?_
    simp only [id, Cubic.deriv]; ring
  · refine (quad (3 * c.c3) (2 * c.c2) c.c1).congr_deriv ?_
    simp only [Cubic.second]; ring

/-- C29: `CubicCurve(CubicInit)` with a positive width is the cubic Hermite interpolant: it has the requested
values and derivatives at both ends, and it is the only cubic that does. -/
theorem C29_hermite (i : CubicInit K) (hw : 0 < i.widthX) (c : Cubic K) :
    c = Cubic.init i ↔
      c.eval 0 = i.startY ∧ c.deriv 0 = i.startDerivative ∧
      c.eval i.widthX = i.endY ∧ c.deriv i.widthX = i.endDerivative := by
  have hne : i.widthX ≠ 0 := hw.ne'
  obtain ⟨y0, s0, y1, s1, w⟩ := i
  simp only at hw hne
  constructor
  · rintro rfl
    simp only [Cubic.init, Cubic.eval, Cubic.deriv, if_pos hw]
    refine ⟨by ring, by ring, ?_, ?_⟩ <;> field_simp <;> ring
  · rintro ⟨h1, h2, h3, h4⟩
    obtain ⟨c3, c2, c1, c0⟩ := c
    simp only [Cubic.init, Cubic.eval, Cubic.deriv, if_pos hw, Cubic.mk.injEq] at *
    have e0 : c0 = y0 := by linear_combination h1
    have e1 : c1 = s0 := by linear_combination h2
    subst e0 e1
    refine ⟨?_, ?_, rfl, rfl⟩
    · field_simp
      linear_combination (-2) * h3 + w * h4
    · field_simp
      linear_combination 3 * h3 - w * h4

/-- C29: with a width that is not positive the curve still starts at the requested value, with slope zero. -/
theorem C29_hermite_degenerate (i : CubicInit K) (hw : ¬ 0 < i.widthX) :
    (Cubic.init i).eval 0 = i.startY ∧ (Cubic.init i).deriv 0 = 0 := by
  simp [Cubic.init, Cubic.eval, Cubic.deriv, hw]

/-- C29: the three quadratic initialisers produce the only quadratic with the requested data. -/
theorem C29_quadratic_init (q : Quad K) :
    (∀ y0 s0 y1, q = Quad.initStartDerivative y0 s0 y1 ↔ q.eval 0 = y0 ∧ q.deriv 0 = s0 ∧ q.eval 1 = y1) ∧
    (∀ y s w, q = Quad.initOrigin y s w ↔ q.eval 0 = y ∧ q.deriv 0 = s ∧ q.second = w) ∧
    (∀ x y s w, q = Quad.initPoint x y s w ↔ q.eval x = y ∧ q.deriv x = s ∧ q.second = w) := by
  obtain ⟨c2, c1, c0⟩ := q
  refine ⟨fun y0 s0 y1 => ⟨?_, ?_⟩, fun y s w => ⟨?_, ?_⟩, fun x y s w => ⟨?_, ?_⟩⟩
  · intro h
    simp only [Quad.initStartDerivative, Quad.mk.injEq] at h
    obtain ⟨rfl, rfl, rfl⟩ := h
    simp [Quad.eval, Quad.deriv]
  · rintro ⟨h1, h2, h3⟩
    simp only [Quad.initStartDerivative, Quad.mk.injEq, Quad.eval, Quad.deriv] at *
    exact ⟨by linear_combination h3 - h2 - h1, by linear_combination h2, by linear_combination h1⟩
  · intro h
    simp only [Quad.initOrigin, Quad.mk.injEq] at h
    obtain ⟨rfl, rfl, rfl⟩ := h
    simp only [Quad.eval, Quad.deriv, Quad.second]
    exact ⟨by ring, by ring, by ring⟩
  · rintro ⟨h1, h2, h3⟩
    simp only [Quad.initOrigin, Quad.mk.injEq, Quad.eval, Quad.deriv, Quad.second] at *
    exact ⟨by linear_combination (1/2) * h3, by linear_combination h2, by linear_combination h1⟩
  · intro h
    simp only [Quad.initPoint, Quad.mk.injEq] at h
    obtain ⟨rfl, rfl, rfl⟩ := h
    simp only [Quad.eval, Quad.deriv, Quad.second]
    exact ⟨by ring, by ring, by ring⟩
  · rintro ⟨h1, h2, h3⟩
    simp only [Quad.initPoint, Quad.mk.injEq, Quad.eval, Quad.deriv, Quad.second] at *
    have e2 : c2 = 1 / 2 * w := by linear_combination (1/2) * h3
    have e1 : c1 = s - w * x := by linear_combination h2 - x * h3
    refine ⟨e2, e1, ?_⟩
    rw [← e2, ← e1]; linear_combination h1

/-- C29: shifting, scaling, adding and subtracting curves are the corresponding operations on functions, for
quadratics and cubics. -/
theorem C29_transforms (q p : Quad K) (c : Cubic K) (x s : K) :
    (q.shiftLeft s).eval x = q.eval (x + s) ∧ (q.shiftRight s).eval x = q.eval (x - s) ∧
    (q.shiftUp s).eval x = q.eval x + s ∧ (q.scaleUp s).eval x = s * q.eval x ∧
    (q.scaleInX s).eval x = q.eval (x / s) ∧ (q.scaleInXByReciprocal s).eval x = q.eval (x * s) ∧
    (q.add p).eval x = q.eval x + p.eval x ∧ (q.sub p).eval x = q.eval x - p.eval x ∧
    (c.shiftLeft s).eval x = c.eval (x + s) ∧ (c.shiftRight s).eval x = c.eval (x - s) ∧
    (c.shiftUp s).eval x = c.eval x + s ∧ (c.scaleUp s).eval x = s * c.eval x := by
  have h1 : ∀ s, (q.shiftLeft s).eval x = q.eval (x + s) := by
    intro s
    by_cases h : s = 0
    · simp [Quad.shiftLeft, h]
    · simp only [Quad.shiftLeft, h, if_false, Quad.eval, Quad.deriv]; ring
  have h2 : ∀ s, (c.shiftLeft s).eval x = c.eval (x + s) := by
    intro s
    by_cases h : s = 0
    · simp [Cubic.shiftLeft, h]
    · simp only [Cubic.shiftLeft, h, if_false, Cubic.eval, Cubic.deriv, Cubic.second]; ring
  refine ⟨h1 s, ?_, ?_, ?_, ?_, ?_, ?_, ?_, h2 s, ?_, ?_, ?_⟩
  · rw [Quad.shiftRight, h1, sub_eq_add_neg]
  · simp only [Quad.shiftUp, Quad.eval]; ring
  · simp only [Quad.scaleUp, Quad.eval]; ring
  · simp only [Quad.scaleInX, Quad.scaleInXByReciprocal, Quad.eval]; ring
  · simp only [Quad.scaleInXByReciprocal, Quad.eval]; ring
  · simp only [Quad.add, Quad.eval]; ring
  · simp only [Quad.sub, Quad.eval]; ring
  · rw [Cubic.shiftRight, h2, sub_eq_add_neg]
  · simp only [Cubic.shiftUp, Cubic.eval]; ring
  · simp only [Cubic.scaleUp, Cubic.eval]; ring

example : (Cubic.init (⟨1, 2, 5, -1, 3⟩ : CubicInit ℚ)).eval 3 = 5 ∧
    (Cubic.init (⟨1, 2, 5, -1, 3⟩ : CubicInit ℚ)).deriv 3 = -1 := by decide +kernel

/-! ### C31 -/

theorem clampNearZero_cases (x : K) {eps : K} (he : 0 ≤ eps) :
    (x < -eps ∧ clampNearZero x eps < 0) ∨ (eps < x ∧ 0 < clampNearZero x eps) ∨
    (-eps ≤ x ∧ x ≤ eps ∧ clampNearZero x eps = 0) := by
  unfold clampNearZero
  by_cases h : |x| ≤ eps
  · right; right; rw [if_pos h]; exact ⟨(abs_le.mp h).1, (abs_le.mp h).2, rfl⟩
  · rw [if_neg h]
    rcases lt_abs.mp (not_le.mp h) with h | h
    · right; left; exact ⟨h, by linarith⟩
    · left; exact ⟨by linarith, by linarith⟩

theorem Cubic.epsilon_nonneg (c : Cubic K) : 0 ≤ c.epsilon := by
  unfold Cubic.epsilon epsScale
  exact mul_nonneg (le_trans (abs_nonneg c.c0) (le_max_right _ _)) (by norm_num)

/-- C31: `UniformCurvature(range)` returns true exactly when, on the whole range, the second derivative never
goes below `-epsilon` or never goes above `epsilon`, where `epsilon` is the rounding tolerance `Epsilon()`,
2^-22 times the largest coefficient. -/
theorem C31_uniform_curvature (c : Cubic K) (r : Math.Range K) (hr : r.start ≤ r.stop) :
    c.uniformCurvature r = true ↔
      (∀ x, r.start ≤ x → x ≤ r.stop → -c.epsilon ≤ c.second x) ∨
      (∀ x, r.start ≤ x → x ≤ r.stop → c.second x ≤ c.epsilon) := by
  have he := c.epsilon_nonneg
  have mono : ∀ x, r.start ≤ x → x ≤ r.stop →
      (c.second r.start ≤ c.second x ∧ c.second x ≤ c.second r.stop) ∨
      (c.second r.stop ≤ c.second x ∧ c.second x ≤ c.second r.start) := by
    intro x h1 h2
    unfold Cubic.second
    rcases le_total 0 c.c3 with h | h
    · left; constructor <;> nlinarith
    · right; constructor <;> nlinarith
  unfold Cubic.uniformCurvature
  rw [decide_eq_true_iff]
  rcases clampNearZero_cases (c.second r.start) he with ⟨a, a'⟩ | ⟨a, a'⟩ | ⟨a, a1, a'⟩ <;>
  rcases clampNearZero_cases (c.second r.stop) he with ⟨b, b'⟩ | ⟨b, b'⟩ | ⟨b, b1, b'⟩
  · refine iff_of_true (mul_pos_of_neg_of_neg a' b').le (Or.inr fun x h1 h2 => ?_)
    rcases mono x h1 h2 with h | h <;> linarith [h.1, h.2]
  · refine iff_of_false (not_le.mpr (mul_neg_of_neg_of_pos a' b')) ?_
    rintro (h | h)
    · linarith [h r.start le_rfl hr]
    · linarith [h r.stop hr le_rfl]
  · refine iff_of_true (by rw [b', mul_zero]) (Or.inr fun x h1 h2 => ?_)
    rcases mono x h1 h2 with h | h <;> linarith [h.1, h.2]
  · refine iff_of_false (not_le.mpr (mul_neg_of_pos_of_neg a' b')) ?_
    rintro (h | h)
    · linarith [h r.stop hr le_rfl]
    · linarith [h r.start le_rfl hr]
  · refine iff_of_true (mul_pos a' b').le (Or.inl fun x h1 h2 => ?_)
    rcases mono x h1 h2 with h | h <;> linarith [h.1, h.2]
  · refine iff_of_true (by rw [b', mul_zero]) (Or.inl fun x h1 h2 => ?_)
    rcases mono x h1 h2 with h | h <;> linarith [h.1, h.2]
  all_goals
    rw [a', zero_mul]
  · refine iff_of_true le_rfl (Or.inr fun x h1 h2 => ?_)
    rcases mono x h1 h2 with h | h <;> linarith [h.1, h.2]
  · refine iff_of_true le_rfl (Or.inl fun x h1 h2 => ?_)
    rcases mono x h1 h2 with h | h <;> linarith [h.1, h.2]
  · refine iff_of_true le_rfl (Or.inl fun x h1 h2 => ?_)
    rcases mono x h1 h2 with h | h <;> linarith [h.1, h.2]

/-- C31, without the tolerance: when the answer is false the second derivative does change sign strictly
inside the range (it is negative at one point and positive at another). -/
theorem C31_not_uniform_sound (c : Cubic K) (r : Math.Range K) (hr : r.start ≤ r.stop)
    (h : c.uniformCurvature r = false) :
    (∃ x, r.start ≤ x ∧ x ≤ r.stop ∧ c.second x < 0) ∧ (∃ x, r.start ≤ x ∧ x ≤ r.stop ∧ 0 < c.second x) := by
  have hn : ¬ c.uniformCurvature r = true := by simp [h]
  rw [C31_uniform_curvature c r hr] at hn
  have he := c.epsilon_nonneg
  push Not at hn
  obtain ⟨⟨x, h1, h2, h3⟩, ⟨y, g1, g2, g3⟩⟩ := hn
  exact ⟨⟨x, h1, h2, by linarith⟩, ⟨y, g1, g2, by linarith⟩⟩

example : (⟨1, 0, 0, 0⟩ : Cubic ℚ).uniformCurvature ⟨-1, 1⟩ = false ∧
    (⟨1, 0, 0, 0⟩ : Cubic ℚ).uniformCurvature ⟨0, 1⟩ = true := by decide +kernel

/-- The tolerance in `C31_uniform_curvature` is really there: this cubic's second derivative is negative at -1
and positive at 1, by less than the tolerance, and `UniformCurvature` answers true. -/
theorem C31_tolerance_needed :
    ∃ (c : Cubic ℚ) (r : Math.Range ℚ), c.uniformCurvature r = true ∧
      c.second r.start < 0 ∧ 0 < c.second r.stop :=
  ⟨⟨1 / 1073741824, 0, 0, 1⟩, ⟨-1, 1⟩, by decide +kernel⟩

end Motive.Curve
