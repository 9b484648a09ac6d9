import Verif.Curve.DualCubic
import Verif.Curve.RootProps

/-!
# Property C32: the dual cubic mid node
-/

namespace Motive.Curve.Dual

open Quad

/-! ### Specification -/

/-- The cubic from the start of the segment to the mid node `(x, y, d)`. -/
noncomputable def firstHalf (i : CubicInit ℝ) (p : ℝ × ℝ × ℝ) : Cubic ℝ :=
  Cubic.init ⟨i.startY, i.startDerivative, p.2.1, p.2.2, p.1⟩

/-- The cubic from the mid node `(x, y, d)` to the end of the segment, with its own origin at the mid node. -/
noncomputable def secondHalf (i : CubicInit ℝ) (p : ℝ × ℝ × ℝ) : Cubic ℝ :=
  Cubic.init ⟨p.2.1, p.2.2, i.endY, i.endDerivative, i.widthX - p.1⟩

/-- The second derivative keeps one sign on `[0, w]`. -/
def OneSigned (c : Cubic ℝ) (w : ℝ) : Prop :=
  (∀ x, 0 ≤ x → x ≤ w → 0 ≤ c.second x) ∨ (∀ x, 0 ≤ x → x ≤ w → c.second x ≤ 0)

/-! ### Lemmas -/

theorem midPercent_bounds {a b : Node} {k : ℝ} (h : midPercent a b = some k) : 1 / 10 ≤ k ∧ k ≤ 9 / 10 := by
  unfold midPercent at h
  cases hr : validMidRange a b with
  | none => rw [hr] at h; simp at h
  | some r =>
    rw [hr] at h
    simp only [Option.bind_eq_bind, Option.bind_some, Option.some.injEq] at h
    subst h
    exact ⟨le_max_left _ _, max_le (by norm_num) (min_le_right _ _)⟩

theorem controlNodes_x (i : CubicInit ℝ) : (controlNodes i).1.x = 0 ∧ (controlNodes i).2.x = 1 ∧
    (controlNodes i).1.y = i.startY ∧ (controlNodes i).2.y = i.endY ∧
    (controlNodes i).1.s = i.startDerivative * i.widthX ∧ (controlNodes i).2.s = i.endDerivative * i.widthX := by
  simp [controlNodes]

theorem dual_some {i : CubicInit ℝ} {p : ℝ × ℝ × ℝ} (h : dualCubicMidNode i = some p) :
    ∃ k, midPercent (controlNodes i).1 (controlNodes i).2 = some k ∧ p.1 = k * i.widthX ∧
      p.2.1 = (midNode (controlNodes i).1 (controlNodes i).2 k).y ∧
      p.2.2 = (midNode (controlNodes i).1 (controlNodes i).2 k).s / i.widthX := by
  unfold dualCubicMidNode at h
  simp only at h
  cases hk : midPercent (controlNodes i).1 (controlNodes i).2 with
  | none => rw [hk] at h; simp at h
  | some k =>
    rw [hk] at h
    simp only [Option.bind_eq_bind, Option.bind_some, Option.some.injEq] at h
    subst h
    refine ⟨k, rfl, ?_, rfl, rfl⟩
    obtain ⟨hx0, hx1, -⟩ := controlNodes_x i
    simp [midNode, lerp, hx0, hx1]

/-- The second derivatives at the ends of the two halves. -/
theorem dual_seconds {i : CubicInit ℝ} (hw : 0 < i.widthX) {p : ℝ × ℝ × ℝ} {k : ℝ} (hk0 : 0 < k) (hk1 : k < 1)
    (h1 : p.1 = k * i.widthX) (h2 : p.2.1 = (midNode (controlNodes i).1 (controlNodes i).2 k).y)
    (h3 : p.2.2 = (midNode (controlNodes i).1 (controlNodes i).2 k).s / i.widthX) :
    (firstHalf i p).second 0 = (controlNodes i).1.w / i.widthX ^ 2 ∧
    (firstHalf i p).second p.1 =
      (startSpline (controlNodes i).1 (controlNodes i).2).eval k / (k * i.widthX ^ 2) ∧
    (secondHalf i p).second 0 =
      (endSpline (controlNodes i).1 (controlNodes i).2).eval k / ((1 - k) * i.widthX ^ 2) ∧
    (secondHalf i p).second (i.widthX - p.1) = (controlNodes i).2.w / i.widthX ^ 2 := by
  obtain ⟨-, -, hy0, hy1, hs0, hs1⟩ := controlNodes_x i
  obtain ⟨px, py, pd⟩ := p
  simp only at h1 h2 h3
  subst h1 h2 h3
  have hwne := hw.ne'
  have hkne := hk0.ne'
  have hj : 0 < 1 - k := by linarith
  have hjne := hj.ne'
  have hpos1 : 0 < k * i.widthX := mul_pos hk0 hw
  have hpos2 : 0 < i.widthX - k * i.widthX := by nlinarith
  have he : i.widthX - k * i.widthX = (1 - k) * i.widthX := by ring
  simp only [firstHalf, secondHalf, Cubic.init, Cubic.second, if_pos hpos1, if_pos hpos2, midNode, lerp, startSpline,
    endSpline, eval, hy0, hy1, hs0, hs1]
  rw [he]
  generalize (controlNodes i).1.w = w0
  generalize (controlNodes i).2.w = w1
  refine ⟨?_, ?_, ?_, ?_⟩ <;> field_simp <;> ring

theorem oneSigned_of_ends {c : Cubic ℝ} {w : ℝ} (hw : 0 < w) (h : 0 ≤ c.second 0 * c.second w) :
    OneSigned c w := by
  have key : ∀ x, w * c.second x = (w - x) * c.second 0 + x * c.second w := by
    intro x; simp only [Cubic.second]; ring
  rcases mul_nonneg_iff.mp h with ⟨a, b⟩ | ⟨a, b⟩
  · left; intro x h1 h2
    have := key x
    have : 0 ≤ w * c.second x := by
      rw [this]; exact add_nonneg (mul_nonneg (by linarith) a) (mul_nonneg h1 b)
    exact nonneg_of_mul_nonneg_right this hw
  · right; intro x h1 h2
    have := key x
    have : w * c.second x ≤ 0 := by
      rw [this]
      exact add_nonpos (mul_nonpos_of_nonneg_of_nonpos (by linarith) a) (mul_nonpos_of_nonneg_of_nonpos h1 b)
    by_contra hc
    nlinarith [mul_pos hw (not_le.mp hc)]

/-! ### C32 -/

/-- C32: the mid node lies strictly inside the segment, between 10% and 90% of its width.  The halves meet there
with equal value and slope, and keep the segment's values and slopes at its ends. -/
theorem C32_mid_inside {i : CubicInit ℝ} (hw : 0 < i.widthX) {p : ℝ × ℝ × ℝ} (h : dualCubicMidNode i = some p) :
    i.widthX / 10 ≤ p.1 ∧ p.1 ≤ 9 * i.widthX / 10 ∧
    (firstHalf i p).eval 0 = i.startY ∧ (firstHalf i p).deriv 0 = i.startDerivative ∧
    (firstHalf i p).eval p.1 = (secondHalf i p).eval 0 ∧ (firstHalf i p).deriv p.1 = (secondHalf i p).deriv 0 ∧
    (secondHalf i p).eval (i.widthX - p.1) = i.endY ∧
    (secondHalf i p).deriv (i.widthX - p.1) = i.endDerivative := by
  obtain ⟨k, hk, h1, -, -⟩ := dual_some h
  obtain ⟨b1, b2⟩ := midPercent_bounds hk
  have hx1 : i.widthX / 10 ≤ p.1 := by rw [h1]; nlinarith
  have hx2 : p.1 ≤ 9 * i.widthX / 10 := by rw [h1]; nlinarith
  have hp1 : 0 < p.1 := by linarith
  have hp2 : 0 < i.widthX - p.1 := by linarith
  have hn1 := hp1.ne'
  have hn2 := hp2.ne'
  refine ⟨hx1, hx2, ?_⟩
  simp only [firstHalf, secondHalf, Cubic.init, Cubic.eval, Cubic.deriv, if_pos hp1, if_pos hp2]
  refine ⟨by ring, by ring, ?_, ?_, ?_, ?_⟩ <;> field_simp <;> ring

/-- C32, curvature: when the two validity quadratics are clear of the root finder's tolerances, some split point
makes both halves one-signed, and the split that was chosen did not have to be clamped to the 10%-90% band, the
second derivative keeps one sign on each half.

Partial: when the split is clamped the claim is false, see `C32_curvature_fails_when_clamped`; with a validity
root exactly on a limit the code stops on an assertion, see `C32_assertion_fails`. -/
theorem C32_curvature_partial {i : CubicInit ℝ} (hw : 0 < i.widthX) {p : ℝ × ℝ × ℝ}
    (h : dualCubicMidNode i = some p) (hlo : i.widthX / 10 < p.1) (hhi : p.1 < 9 * i.widthX / 10)
    (hS : (startSpline (controlNodes i).1 (controlNodes i).2).WellConditioned)
    (hSc : (startSpline (controlNodes i).1 (controlNodes i).2).ClearOfLimits zeroToOne)
    (hE : (endSpline (controlNodes i).1 (controlNodes i).2).WellConditioned)
    (hEc : (endSpline (controlNodes i).1 (controlNodes i).2).ClearOfLimits zeroToOne)
    (hw0 : (controlNodes i).1.w ≠ 0) (hw1 : (controlNodes i).2.w ≠ 0)
    (hex : ∃ k, 0 ≤ k ∧ k ≤ 1 ∧
      0 ≤ (controlNodes i).1.w * (startSpline (controlNodes i).1 (controlNodes i).2).eval k ∧
      0 ≤ (controlNodes i).2.w * (endSpline (controlNodes i).1 (controlNodes i).2).eval k) :
    OneSigned (firstHalf i p) p.1 ∧ OneSigned (secondHalf i p) (i.widthX - p.1) := by
  obtain ⟨k, hk, h1, h2, h3⟩ := dual_some h
  obtain ⟨b1, b2⟩ := midPercent_bounds hk
  set a := (controlNodes i).1 with ha
  set b := (controlNodes i).2 with hb
  have hkl : 1 / 10 < k := by
    rw [h1] at hlo
    by_contra hc
    nlinarith [not_lt.mp hc]
  have hkh : k < 9 / 10 := by
    rw [h1] at hhi
    by_contra hc
    nlinarith [not_lt.mp hc]
  have hv : zeroToOne.valid := by simp [zeroToOne, Math.Range.valid]
  obtain ⟨-, sr, hsr, hsr1, -, hsr2⟩ := C30_ranges_matching_sign_partial hS hv hSc hw0
  obtain ⟨-, er, her, her1, -, her2⟩ := C30_ranges_matching_sign_partial hE hv hEc hw1
  have hsign : 0 ≤ a.w * (startSpline a b).eval k ∧ 0 ≤ b.w * (endSpline a b).eval k := by
    unfold midPercent validMidRange at hk
    simp only [hsr, her, Option.bind_eq_bind, Option.bind_some, Option.some.injEq] at hk
    obtain ⟨k0, hk00, hk01, hk0s, hk0e⟩ := hex
    have hk0c : zeroToOne.contains k0 := ⟨hk00, hk01⟩
    have hne : (Math.Range.intersectRanges sr er).1 ≠ [] := by
      have := (Math.Range.C18_intersect_ranges_points sr er k0).mpr
        ⟨(hsr2 k0 hk0c).mpr hk0s, (her2 k0 hk0c).mpr hk0e⟩
      obtain ⟨r, hr, -⟩ := this
      exact List.ne_nil_of_mem hr
    have hvalid : ∀ r ∈ (Math.Range.intersectRanges sr er).1, r.valid := by
      intro r hr
      rw [(Math.Range.C18_intersect_ranges sr er).1, List.mem_filter] at hr
      simpa using hr.2
    obtain ⟨hidx, -, -⟩ := Math.Range.C55_index_of_longest _ hne hvalid
    have hch : chooseRange sr er =
        (Math.Range.intersectRanges sr er).1[Math.Range.indexOfLongest (Math.Range.intersectRanges sr er).1] := by
      unfold chooseRange
      simp only
      rw [if_pos (List.length_pos_of_ne_nil hne), List.getElem?_eq_getElem hidx, Option.getD_some]
    have hmem : chooseRange sr er ∈ (Math.Range.intersectRanges sr er).1 := by
      rw [hch]; exact List.getElem_mem hidx
    have hcl := Math.Range.clamp_mem _ (hvalid _ hmem) (1 / 2)
    have hkeq : k = (chooseRange sr er).clamp (1 / 2) := by
      rw [← hk]
      rcases le_total ((chooseRange sr er).clamp (1 / 2)) (9 / 10) with g | g
      · rw [min_eq_left g]
        rcases le_total ((chooseRange sr er).clamp (1 / 2)) (1 / 10) with g' | g'
        · rw [min_eq_left g, max_eq_left g'] at hk; linarith
        · rw [max_eq_right g']
      · rw [min_eq_right g, max_eq_right (by norm_num)] at hk; linarith
    rw [← hkeq] at hcl
    have hkc : zeroToOne.contains k := ⟨by simp only [zeroToOne]; linarith, by simp only [zeroToOne]; linarith⟩
    obtain ⟨g1, g2⟩ := (Math.Range.C18_intersect_ranges_points sr er k).mp ⟨_, hmem, hcl⟩
    exact ⟨(hsr2 k hkc).mp g1, (her2 k hkc).mp g2⟩
  obtain ⟨e1, e2, e3, e4⟩ := dual_seconds hw (by linarith) (by linarith) h1 h2 h3
  have hw2 : 0 < i.widthX ^ 2 := by positivity
  have hp1 : 0 < p.1 := by linarith
  have hp2 : 0 < i.widthX - p.1 := by linarith
  constructor
  · apply oneSigned_of_ends hp1
    rw [e1, e2, div_mul_div_comm]
    exact div_nonneg hsign.1 (mul_pos hw2 (mul_pos (by linarith) hw2)).le
  · apply oneSigned_of_ends hp2
    rw [e3, e4, div_mul_div_comm, mul_comm ((endSpline _ _).eval k)]
    exact div_nonneg hsign.2 (mul_pos (mul_pos (by linarith) hw2) hw2).le

/-! ### Concrete cases -/

theorem exponentAsInt_lt {f : ℝ} {k : Int} (h : |f| < 2 ^ k) (hk : -127 < k) (hk2 : k ≤ 128) :
    exponentAsInt f < k := by
  unfold exponentAsInt
  split_ifs with g1 g2
  · exact hk
  · have hp : 0 < |f| := lt_of_lt_of_le (two_zpow_pos _) (not_lt.mp g1)
    exact (Int.lt_zpow_iff_log_lt (b := 2) (by norm_num) hp).mp (by exact_mod_cast h)
  · exfalso
    exact g2 (lt_of_lt_of_le h (zpow_le_zpow_right₀ (by norm_num) hk2))

theorem maxPowerOf2Scale_ge {f : ℝ} {k m : Int} (h : |f| < 2 ^ k) (hk : -127 < k) (hk2 : k ≤ 40) (hm : 125 ≤ m) :
    ∃ s, maxPowerOf2Scale f m = some s ∧ (2 : ℝ) ^ (85 : Int) ≤ s := by
  have b := exponentAsInt_bounds f
  have hlt := exponentAsInt_lt h hk (by omega)
  refine ⟨_, exponentFromInt_mid (i := min 127 (m - exponentAsInt f)) (by omega) (by omega), ?_⟩
  exact zpow_le_zpow_right₀ (by norm_num) (by omega)

/-- Normalisation of a quadratic of moderate size whose linear coefficient dominates its constant. -/
theorem normalized_moderate {q : Quad ℝ} {e g : Int} (h0 : |q.c0| ≤ |q.c1|) (h1 : |q.c1| < 2 ^ (20 : Int))
    (hc1 : 0 < |q.c1|)
    (he1 : (2 : ℝ) ^ e ≤ |q.c2| / |q.c1|) (he2 : |q.c2| / |q.c1| < 2 ^ (e + 1)) (hel : -20 ≤ e) (heh : e ≤ 20)
    (hg1 : (2 : ℝ) ^ g ≤ |q.c2 * 2 ^ (-e) * 2 ^ (-e)|) (hg2 : |q.c2 * 2 ^ (-e) * 2 ^ (-e)| < 2 ^ (g + 1))
    (hgl : -40 ≤ g) (hgh : g ≤ 40) :
    q.normalized = some ((q.scaleInXByReciprocal (2 ^ (-e))).scaleUp (2 ^ (-g)), 2 ^ (-e)) := by
  have hmx : max |q.c1| |q.c0| = |q.c1| := max_eq_left h0
  have hx : q.xScaleReciprocal = some (2 ^ (-e)) := by
    obtain ⟨m, hm, hm1⟩ := maxPowerOf2Scale_ge (f := |q.c1|) (k := 20) (m := 126) (by rw [abs_abs]; exact h1)
      (by norm_num) (by norm_num) (by norm_num)
    have hquo : |(|q.c2| / |q.c1|)| = |q.c2| / |q.c1| := abs_of_nonneg (by positivity)
    have hexp : exponentAsInt (|q.c2| / |q.c1|) = e :=
      exponentAsInt_eq (by rw [hquo]; exact he1) (by rw [hquo]; exact he2) (by omega) (by omega)
    have hin : invertableRange.contains (|q.c2| / |q.c1|) := by
      refine ⟨le_trans (zpow_le_zpow_right₀ (by norm_num) (by omega)) he1, he2.le.trans ?_⟩
      exact zpow_le_zpow_right₀ (by norm_num) (by omega)
    have hu : q.xScaleUnclamped = some (2 ^ (-e)) := by
      unfold xScaleUnclamped
      simp only [hmx]
      rw [if_neg hc1.ne', if_neg (not_not.mpr (by rw [hmx]; exact hin)), if_pos h0]
      unfold reciprocalExponent
      rw [hexp, exponentFromInt_mid (by omega) (by omega)]
    have hle : (2 : ℝ) ^ (-e) ≤ m := le_trans (zpow_le_zpow_right₀ (by norm_num) (by omega)) hm1
    simp only [xScaleReciprocal, hu, hm, Option.bind_eq_bind, Option.bind_some, min_eq_left hle]
  have hb1 : |q.c1 * 2 ^ (-e)| < 2 ^ (40 : Int) := by
    rw [abs_mul, abs_of_pos (two_zpow_pos (-e))]
    calc |q.c1| * 2 ^ (-e) < 2 ^ (20 : Int) * 2 ^ (-e) := mul_lt_mul_of_pos_right h1 (two_zpow_pos _)
      _ ≤ 2 ^ (20 : Int) * 2 ^ (20 : Int) :=
        mul_le_mul_of_nonneg_left (zpow_le_zpow_right₀ (by norm_num) (by omega)) (two_zpow_pos _).le
      _ = 2 ^ (40 : Int) := by norm_num
  have hb0 : |q.c0| < 2 ^ (40 : Int) :=
    lt_of_le_of_lt h0 (lt_of_lt_of_le h1 (zpow_le_zpow_right₀ (by norm_num) (by norm_num)))
  have hy : (q.scaleInXByReciprocal (2 ^ (-e))).yScale = some (2 ^ (-g)) := by
    obtain ⟨m0, hm0, hm01⟩ := maxPowerOf2Scale_ge (f := |q.c0|) (k := 40) (m := 125) (by rw [abs_abs]; exact hb0)
      (by norm_num) (by norm_num) (by norm_num)
    obtain ⟨m1, hm1, hm11⟩ := maxPowerOf2Scale_ge (f := |q.c1 * 2 ^ (-e)|) (k := 40) (m := 125)
      (by rw [abs_abs]; exact hb1) (by norm_num) (by norm_num) (by norm_num)
    have hcl : invertableRange.clamp |q.c2 * 2 ^ (-e) * 2 ^ (-e)| = |q.c2 * 2 ^ (-e) * 2 ^ (-e)| := by
      apply Math.Range.clamp_of_mem
      refine ⟨le_trans (zpow_le_zpow_right₀ (by norm_num) (by omega)) hg1, hg2.le.trans ?_⟩
      exact zpow_le_zpow_right₀ (by norm_num) (by omega)
    have hexp : exponentAsInt |q.c2 * 2 ^ (-e) * 2 ^ (-e)| = g :=
      exponentAsInt_eq (by rw [abs_abs]; exact hg1) (by rw [abs_abs]; exact hg2) (by omega) (by omega)
    have hr : reciprocalExponent (invertableRange.clamp |q.c2 * 2 ^ (-e) * 2 ^ (-e)|) = some (2 ^ (-g)) := by
      rw [hcl]; unfold reciprocalExponent; rw [hexp, exponentFromInt_mid (by omega) (by omega)]
    have hle : (2 : ℝ) ^ (-g) ≤ min m0 m1 :=
      le_min (le_trans (zpow_le_zpow_right₀ (by norm_num) (by omega)) hm01)
        (le_trans (zpow_le_zpow_right₀ (by norm_num) (by omega)) hm11)
    simp only [yScale, scaleInXByReciprocal, hr, hm0, hm1, Option.bind_eq_bind, Option.bind_some, min_eq_right hle]
  simp only [normalized, hx, hy, Option.bind_eq_bind, Option.bind_some]

theorem controlNodes_equal_steepness {y0 y1 s0 s1 : ℝ} (h : |s0| = |s1|) :
    controlNodes ⟨y0, s0, y1, s1, 1⟩ =
      (⟨0, y0, s0, 0⟩, ⟨1, y1, s1, -2 * ((s1 - s0) * (1 / 2) + 3 * (y1 - y0) - 3 * s1)⟩) := by
  have hst : ∀ r : ℝ, steepness (s0 * r) = steepness (s1 * r) := by
    intro r; unfold steepness; simp only [abs_mul, h]
  simp only [controlNodes, approximateMidPercent, mul_one, hst, sub_self, abs_zero, zero_div, le_refl, if_true]
  rw [min_eq_left (by norm_num)]
  simp only [lerp, extremeEnd, extremeStart]
  norm_num

/-- The assertion in `RangesMatchingSign` fails for a plain segment: from value 0 and slope -3 to value -1 and
slope 3 over width 1.  The end validity quadratic `-18 k^2 + 30 k - 12` has a root exactly at the limit 1. -/
theorem C32_assertion_fails : dualCubicMidNode ⟨0, -3, -1, 3, 1⟩ = none := by
  have hn : controlNodes ⟨0, -3, -1, 3, 1⟩ = (⟨0, 0, -3, 0⟩, ⟨1, -1, 3, 18⟩) := by
    rw [controlNodes_equal_steepness (by norm_num)]
    norm_num
  have hE : endSpline ⟨0, 0, -3, 0⟩ ⟨1, -1, 3, 18⟩ = ⟨-18, 30, -12⟩ := by
    simp only [endSpline]; norm_num
  have hnorm : (⟨-18, 30, -12⟩ : Quad ℝ).normalized = some (⟨-9 / 8, 15 / 16, -3 / 16⟩, 2) := by
    rw [normalized_moderate (e := -1) (g := 6)]
    · simp only [scaleInXByReciprocal, scaleUp]; norm_num
    all_goals norm_num [abs_of_pos, abs_of_neg]
  have hwell : (⟨-18, 30, -12⟩ : Quad ℝ).WellConditioned := by
    intro n xr h
    rw [hnorm] at h
    cases h
    right
    simp only [epsilon, maxCoeff, epsScale, discriminant]
    norm_num [abs_of_pos, abs_of_neg]
  obtain ⟨rs, h1, h2, h3⟩ := C30_roots_partial hwell
  have hr : ∀ x, x ∈ rs ↔ x = 2 / 3 ∨ x = 1 := by
    intro x
    rw [h3]
    simp only [eval]
    constructor
    · intro h
      have : (x - 2 / 3) * (x - 1) = 0 := by linear_combination (-1 / 18) * h
      rcases mul_eq_zero.mp this with h | h
      · left; linarith
      · right; linarith
    · rintro (rfl | rfl) <;> norm_num
  have hrs : rs = [2 / 3, 1] := by
    match rs, h2, hr with
    | [], _, hr => have := (hr 1).mpr (Or.inr rfl); simp at this
    | [a], _, hr =>
      have g1 := (hr 1).mpr (Or.inr rfl)
      have g2 := (hr (2 / 3)).mpr (Or.inl rfl)
      simp only [List.mem_singleton] at g1 g2
      exfalso; linarith
    | [a, b], hp, hr =>
      have hab : a < b := List.pairwise_pair.mp hp
      have ga := (hr a).mp (by simp)
      have gb := (hr b).mp (by simp)
      rcases ga with rfl | rfl <;> rcases gb with rfl | rfl
      · linarith
      · rfl
      · linarith
      · linarith
    | a :: b :: c :: l, hp, hr =>
      exfalso
      simp only [List.pairwise_cons, List.mem_cons] at hp
      obtain ⟨p1, p2, -⟩ := hp
      have q1 := p1 b (Or.inl rfl)
      have q2 := p2 c (Or.inl rfl)
      rcases (hr a).mp (by simp) with h | h <;> rcases (hr b).mp (by simp) with h' | h' <;>
        rcases (hr c).mp (by simp) with h'' | h'' <;> linarith
  have hin : (⟨-18, 30, -12⟩ : Quad ℝ).rootsInRange zeroToOne = some [2 / 3, 1] := by
    simp only [rootsInRange, h1, hrs, Option.bind_eq_bind, Option.bind_some, Math.Range.C18_values_in_range]
    have c1 : zeroToOne.clamp (2 / 3) = 2 / 3 := Math.Range.clamp_of_mem (by constructor <;> norm_num [zeroToOne])
    have c2 : zeroToOne.clamp 1 = 1 := Math.Range.clamp_of_mem (by constructor <;> norm_num [zeroToOne])
    have c0 : 0 ≤ zeroToOne.length * epsScale := by simp [zeroToOne, Math.Range.length, epsScale]
    simp [List.filter, Math.Range.distanceFrom, c1, c2, c0]
  have hrange : (⟨-18, 30, -12⟩ : Quad ℝ).rangesMatchingSign zeroToOne 18 = none := by
    simp only [rangesMatchingSign, hin, Option.bind_eq_bind, Option.bind_some, rangesForRoots, eval]
    norm_num [zeroToOne]
  have hmid : validMidRange ⟨0, 0, -3, 0⟩ ⟨1, -1, 3, 18⟩ = none := by
    unfold validMidRange
    rw [hE]
    simp only [hrange, Option.bind_eq_bind, Option.bind_none]
    cases (startSpline ⟨0, 0, -3, 0⟩ ⟨1, -1, 3, 18⟩).rangesMatchingSign zeroToOne 0 <;> rfl
  simp only [dualCubicMidNode, hn, midPercent, hmid, Option.bind_eq_bind, Option.bind_none]

/-- No root near the limits 0 and 1. -/
theorem clearOfLimits_unit {q : Quad ℝ} (h0 : ∀ x, -1 / 100 ≤ x → x ≤ 0 → q.eval x ≠ 0)
    (h1 : ∀ x, 1 ≤ x → x ≤ 101 / 100 → q.eval x ≠ 0) : q.ClearOfLimits zeroToOne := by
  intro x hx
  have hv : zeroToOne.valid := by simp [zeroToOne, Math.Range.valid]
  have heps : zeroToOne.length * epsScale = 1 / 4194304 := by simp [zeroToOne, Math.Range.length, epsScale]
  by_cases a : x < -1 / 100
  · right
    rw [heps]; unfold Math.Range.distanceFrom
    rw [Math.Range.clamp_of_lt hv (by simp only [zeroToOne]; linarith), abs_of_neg (by simp only [zeroToOne]; linarith)]
    simp only [zeroToOne]; linarith
  · by_cases b : x ≤ 0
    · exact absurd hx (h0 x (by linarith) b)
    · by_cases c : x < 1
      · left; exact ⟨not_le.mp b, c⟩
      · by_cases d : x ≤ 101 / 100
        · exact absurd hx (h1 x (by linarith) d)
        · right
          rw [heps]; unfold Math.Range.distanceFrom
          rw [Math.Range.clamp_of_gt hv (by simp only [zeroToOne]; linarith),
            abs_of_pos (by simp only [zeroToOne]; linarith)]
          simp only [zeroToOne]; linarith

/-- One range on each side. -/
theorem chooseRange_single {a b c : Math.Range ℝ} (h : a.intersect b = c) (hv : c.valid) :
    chooseRange [a] [b] = c := by
  have hi : Math.Range.intersectRanges [a] [b] = ([c], []) := by
    simp [Math.Range.intersectRanges, hv, h]
  have hlen : (-1 : ℝ) < c.length := by
    unfold Math.Range.valid at hv; unfold Math.Range.length; linarith
  unfold chooseRange
  rw [hi]
  simp [Math.Range.indexOfLongest, hlen]

/-- Opposite signs at 0 and 1: exactly one root between. -/
theorem single_root {q : Quad ℝ} (h : q.WellConditioned) (hc : q.ClearOfLimits zeroToOne)
    (hs : q.eval 0 * q.eval 1 < 0) :
    ∃ r, q.rootsInRange zeroToOne = some [r] ∧ q.eval r = 0 ∧ 0 ≤ r ∧ r ≤ 1 ∧
      ∀ x, 0 ≤ x → x ≤ 1 → q.eval x = 0 → x = r := by
  have hv : zeroToOne.valid := by simp [zeroToOne, Math.Range.valid]
  obtain ⟨rs, h1, h2, h3⟩ := rootsInRange_exact h hv hc
  simp only [zeroToOne, Math.Range.contains] at h3
  match rs, h1, h2, h3 with
  | [], _, _, h3 =>
    exfalso
    have := same_sign (q := q) (a := 0) (b := 1) (by norm_num) fun x a b c => by
      have := (h3 x).mpr ⟨c, a, b⟩
      simp at this
    rcases this with ⟨a, b⟩ | ⟨a, b⟩ <;> nlinarith
  | [r], h1, _, h3 =>
    obtain ⟨a, b, c⟩ := (h3 r).mp (by simp)
    exact ⟨r, h1, a, b, c, fun x x0 x1 hx => by simpa using (h3 x).mpr ⟨hx, x0, x1⟩⟩
  | a :: b :: l, _, hp, h3 =>
    exfalso
    have hab : a < b := by
      simp only [List.pairwise_cons, List.mem_cons] at hp
      exact hp.1 b (Or.inl rfl)
    obtain ⟨ha, a0, a1⟩ := (h3 a).mp (by simp)
    obtain ⟨hb, b0, b1⟩ := (h3 b).mp (by simp)
    have hf := factor hab ha hb
    rw [hf 0, hf 1] at hs
    have e : q.c2 * ((0 - a) * (0 - b)) * (q.c2 * ((1 - a) * (1 - b))) =
        q.c2 ^ 2 * ((a * b) * ((1 - a) * (1 - b))) := by ring
    rw [e] at hs
    have : 0 ≤ q.c2 ^ 2 * ((a * b) * ((1 - a) * (1 - b))) :=
      mul_nonneg (sq_nonneg _) (mul_nonneg (mul_nonneg a0 b0) (mul_nonneg (by linarith) (by linarith)))
    linarith

theorem root_between {q : Quad ℝ} {r a b : ℝ} (hu : ∀ x, 0 ≤ x → x ≤ 1 → q.eval x = 0 → x = r)
    (ha : 0 ≤ a) (hab : a ≤ b) (hb : b ≤ 1) (hs : q.eval a * q.eval b < 0) : a < r ∧ r < b := by
  have hex : ∃ x, a ≤ x ∧ x ≤ b ∧ q.eval x = 0 := by
    by_contra hc
    push Not at hc
    rcases same_sign hab hc with ⟨g1, g2⟩ | ⟨g1, g2⟩ <;> nlinarith
  obtain ⟨x, h1, h2, h3⟩ := hex
  have := hu x (ha.trans h1) (h2.trans hb) h3
  subst this
  constructor
  · refine lt_of_le_of_ne h1 fun h => ?_
    subst h; rw [h3, zero_mul] at hs; exact lt_irrefl _ hs
  · refine lt_of_le_of_ne h2 fun h => ?_
    subst h; rw [h3, mul_zero] at hs; exact lt_irrefl _ hs

/-- The segment from value 0, slope -1 to value 1, slope 16 over width 1. -/
noncomputable def steepInit : CubicInit ℝ := ⟨0, -1, 1, 16, 1⟩

theorem steep_controlNodes : controlNodes steepInit = (⟨0, 0, -1, 0⟩, ⟨1, 1, 16, 297⟩) := by
  have h1 : steepness (-1 * 1 * (1 / max |(1 : ℝ) - 0| (1 / 10))) = 0 := by
    unfold steepness
    rw [if_pos]
    norm_num
  have h2 : steepness (16 * 1 * (1 / max |(1 : ℝ) - 0| (1 / 10))) = 4 := by
    unfold steepness
    have e : |(16 * 1 * (1 / max |(1 : ℝ) - 0| (1 / 10)) : ℝ)| = 2 ^ (4 : ℕ) := by norm_num
    rw [if_neg (by rw [e]; norm_num), e, ← Real.rpow_natCast, Real.logb_rpow] <;> norm_num
  simp only [controlNodes, approximateMidPercent, steepInit, h1, h2]
  norm_num [lerp, extremeStart, extremeEnd]

/-- The claim that both halves have one-signed curvature is false when the split has to be clamped: this segment
is split at 90% of its width, and on the second half the second derivative goes from negative to positive.  The
segment does need splitting: its own second derivative changes sign. -/
theorem C32_curvature_fails_when_clamped :
    (Cubic.init steepInit).second 0 < 0 ∧ 0 < (Cubic.init steepInit).second 1 ∧
    ∃ p, dualCubicMidNode steepInit = some p ∧ p.1 = 9 / 10 ∧
      (secondHalf steepInit p).second 0 < 0 ∧ 0 < (secondHalf steepInit p).second (1 - p.1) := by
  refine ⟨by norm_num [Cubic.init, steepInit, Cubic.second], by norm_num [Cubic.init, steepInit, Cubic.second], ?_⟩
  have hn := steep_controlNodes
  have hE : endSpline ⟨0, 0, -1, 0⟩ ⟨1, 1, 16, 297⟩ = ⟨-297, 823, -504⟩ := by
    simp only [endSpline]; norm_num
  have hS : startSpline ⟨0, 0, -1, 0⟩ ⟨1, 1, 16, 297⟩ = ⟨297, -526, 241⟩ := by
    simp only [startSpline]; norm_num
  have hEw : (⟨-297, 823, -504⟩ : Quad ℝ).WellConditioned := by
    intro n xr h
    rw [normalized_moderate (e := -2) (g := 12)] at h
    · cases h
      right
      simp only [epsilon, maxCoeff, epsScale, discriminant, scaleInXByReciprocal, scaleUp]
      norm_num [abs_of_pos, abs_of_neg]
    all_goals norm_num [abs_of_pos, abs_of_neg]
  have hSw : (⟨297, -526, 241⟩ : Quad ℝ).WellConditioned := by
    intro n xr h
    rw [normalized_moderate (e := -1) (g := 10)] at h
    · cases h
      right
      simp only [epsilon, maxCoeff, epsScale, discriminant, scaleInXByReciprocal, scaleUp]
      norm_num [abs_of_pos, abs_of_neg]
    all_goals norm_num [abs_of_pos, abs_of_neg]
  have hSno : ∀ x, (⟨297, -526, 241⟩ : Quad ℝ).eval x ≠ 0 := by
    intro x hx
    simp only [eval] at hx
    nlinarith [sq_nonneg (297 * x - 263)]
  have hv : zeroToOne.valid := by simp [zeroToOne, Math.Range.valid]
  have hSr : (⟨297, -526, 241⟩ : Quad ℝ).rangesMatchingSign zeroToOne 0 = some [zeroToOne] := by
    obtain ⟨rs, h1, -, h3⟩ := rootsInRange_exact hSw hv fun x hx => absurd hx (hSno x)
    have : rs = [] := List.eq_nil_iff_forall_not_mem.mpr fun x hx => hSno x ((h3 x).mp hx).1
    subst this
    simp [rangesMatchingSign, h1, rangesForRoots]
  have hEc : (⟨-297, 823, -504⟩ : Quad ℝ).ClearOfLimits zeroToOne := by
    apply clearOfLimits_unit
    · intro x h1 h2 h; simp only [eval] at h; nlinarith
    · intro x h1 h2 h; simp only [eval] at h; nlinarith
  obtain ⟨r, hr, -, -, -, hu⟩ := single_root hEw hEc (by norm_num [eval])
  have hrb := root_between hu (a := 9 / 10) (b := 1) (by norm_num) (by norm_num) (by norm_num) (by norm_num [eval])
  have hEr : (⟨-297, 823, -504⟩ : Quad ℝ).rangesMatchingSign zeroToOne 297 = some [⟨r, 1⟩] := by
    simp only [rangesMatchingSign, hr, Option.bind_eq_bind, Option.bind_some, rangesForRoots, eval]
    norm_num [zeroToOne]
  have hmid : midPercent ⟨0, 0, -1, 0⟩ ⟨1, 1, 16, 297⟩ = some (9 / 10) := by
    have hi : (Math.Range.mk (0 : ℝ) 1).intersect ⟨r, 1⟩ = ⟨r, 1⟩ := by
      simp only [Math.Range.intersect, min_self]
      rw [max_eq_right (by linarith)]
    have hiv : (Math.Range.mk r 1).valid := by simp only [Math.Range.valid]; linarith
    have hch : chooseRange [zeroToOne] [⟨r, 1⟩] = ⟨r, 1⟩ := chooseRange_single hi hiv
    have hcl : (Math.Range.mk r 1).clamp (1 / 2) = r := Math.Range.clamp_of_lt hiv (by simp only; linarith)
    simp only [midPercent, validMidRange, hE, hS, hEr, hSr, Option.bind_eq_bind, Option.bind_some, hch, hcl]
    rw [min_eq_right hrb.1.le, max_eq_right (by norm_num)]
  refine ⟨_, by simp only [dualCubicMidNode, hn, hmid, Option.bind_eq_bind, Option.bind_some]; rfl, ?_, ?_, ?_⟩
  · simp only [midNode, lerp, steepInit]; norm_num
  · norm_num [midNode, lerp, steepInit, secondHalf, Cubic.init, Cubic.second]
  · norm_num [midNode, lerp, steepInit, secondHalf, Cubic.init, Cubic.second]

/-- The segment from value 0, slope 1 to value 1, slope 4 over width 1: all the hypotheses of
`C32_curvature_partial` hold of it. -/
noncomputable def mildInit : CubicInit ℝ := ⟨0, 1, 1, 4, 1⟩

theorem mild_controlNodes : controlNodes mildInit = (⟨0, 0, 1, -9 / 14⟩, ⟨1, 1, 4, 23 / 2⟩) := by
  have h1 : steepness (1 * 1 * (1 / max |(1 : ℝ) - 0| (1 / 10))) = 0 := by
    unfold steepness
    rw [if_pos]
    norm_num
  have h2 : steepness (4 * 1 * (1 / max |(1 : ℝ) - 0| (1 / 10))) = 2 := by
    unfold steepness
    have e : |(4 * 1 * (1 / max |(1 : ℝ) - 0| (1 / 10)) : ℝ)| = 2 ^ (2 : ℕ) := by norm_num
    rw [if_neg (by rw [e]; norm_num), e, ← Real.rpow_natCast, Real.logb_rpow] <;> norm_num
  simp only [controlNodes, approximateMidPercent, mildInit, h1, h2]
  norm_num [lerp, extremeStart, extremeEnd]

theorem mild_hypotheses :
    0 < mildInit.widthX ∧
    (∃ p, dualCubicMidNode mildInit = some p ∧ mildInit.widthX / 10 < p.1 ∧ p.1 < 9 * mildInit.widthX / 10) ∧
    (startSpline (controlNodes mildInit).1 (controlNodes mildInit).2).WellConditioned ∧
    (startSpline (controlNodes mildInit).1 (controlNodes mildInit).2).ClearOfLimits zeroToOne ∧
    (endSpline (controlNodes mildInit).1 (controlNodes mildInit).2).WellConditioned ∧
    (endSpline (controlNodes mildInit).1 (controlNodes mildInit).2).ClearOfLimits zeroToOne ∧
    (controlNodes mildInit).1.w ≠ 0 ∧ (controlNodes mildInit).2.w ≠ 0 ∧
    ∃ k, 0 ≤ k ∧ k ≤ 1 ∧
      0 ≤ (controlNodes mildInit).1.w * (startSpline (controlNodes mildInit).1 (controlNodes mildInit).2).eval k ∧
      0 ≤ (controlNodes mildInit).2.w * (endSpline (controlNodes mildInit).1 (controlNodes mildInit).2).eval k := by
  have hn := mild_controlNodes
  have hE : endSpline ⟨0, 0, 1, -9 / 14⟩ ⟨1, 1, 4, 23 / 2⟩ = ⟨-85 / 7, 45 / 2, -5⟩ := by
    simp only [endSpline]; norm_num
  have hS : startSpline ⟨0, 0, 1, -9 / 14⟩ ⟨1, 1, 4, 23 / 2⟩ = ⟨85 / 7, -145 / 14, -1 / 2⟩ := by
    simp only [startSpline]; norm_num
  have hEw : (⟨-85 / 7, 45 / 2, -5⟩ : Quad ℝ).WellConditioned := by
    intro n xr h
    rw [normalized_moderate (e := -1) (g := 5)] at h
    · cases h
      right
      simp only [epsilon, maxCoeff, epsScale, discriminant, scaleInXByReciprocal, scaleUp]
      norm_num [abs_of_pos, abs_of_neg]
    all_goals norm_num [abs_of_pos, abs_of_neg]
  have hSw : (⟨85 / 7, -145 / 14, -1 / 2⟩ : Quad ℝ).WellConditioned := by
    intro n xr h
    rw [normalized_moderate (e := 0) (g := 3)] at h
    · cases h
      right
      simp only [epsilon, maxCoeff, epsScale, discriminant, scaleInXByReciprocal, scaleUp]
      norm_num [abs_of_pos, abs_of_neg]
    all_goals norm_num [abs_of_pos, abs_of_neg]
  have hSc : (⟨85 / 7, -145 / 14, -1 / 2⟩ : Quad ℝ).ClearOfLimits zeroToOne := by
    apply clearOfLimits_unit
    · intro x h1 h2 h; simp only [eval] at h; nlinarith
    · intro x h1 h2 h; simp only [eval] at h; nlinarith
  have hEc : (⟨-85 / 7, 45 / 2, -5⟩ : Quad ℝ).ClearOfLimits zeroToOne := by
    apply clearOfLimits_unit
    · intro x h1 h2 h; simp only [eval] at h; nlinarith
    · intro x h1 h2 h; simp only [eval] at h; nlinarith
  obtain ⟨r, hr, -, -, -, hu⟩ := single_root hSw hSc (by norm_num [eval])
  have hrb := root_between hu (a := 1 / 2) (b := 1) (by norm_num) (by norm_num) (by norm_num) (by norm_num [eval])
  obtain ⟨t, ht, -, -, -, hut⟩ := single_root hEw hEc (by norm_num [eval])
  have htb := root_between hut (a := 0) (b := 1 / 2) (by norm_num) (by norm_num) (by norm_num) (by norm_num [eval])
  have hSr : (⟨85 / 7, -145 / 14, -1 / 2⟩ : Quad ℝ).rangesMatchingSign zeroToOne (-9 / 14) = some [⟨0, r⟩] := by
    simp only [rangesMatchingSign, hr, Option.bind_eq_bind, Option.bind_some, rangesForRoots, eval]
    norm_num [zeroToOne]
  have hEr : (⟨-85 / 7, 45 / 2, -5⟩ : Quad ℝ).rangesMatchingSign zeroToOne (23 / 2) = some [⟨t, 1⟩] := by
    simp only [rangesMatchingSign, ht, Option.bind_eq_bind, Option.bind_some, rangesForRoots, eval]
    norm_num [zeroToOne]
  have hmid : midPercent ⟨0, 0, 1, -9 / 14⟩ ⟨1, 1, 4, 23 / 2⟩ = some (1 / 2) := by
    have hi : (Math.Range.mk (0 : ℝ) r).intersect ⟨t, 1⟩ = ⟨t, r⟩ := by
      simp only [Math.Range.intersect]
      rw [max_eq_right (by linarith), min_eq_left (by linarith)]
    have hch := chooseRange_single hi (by simp only [Math.Range.valid]; linarith)
    have hcl : (Math.Range.mk t r).clamp (1 / 2) = 1 / 2 :=
      Math.Range.clamp_of_mem ⟨by simp only; linarith, by simp only; linarith⟩
    simp only [midPercent, validMidRange, hE, hS, hEr, hSr, Option.bind_eq_bind, Option.bind_some, hch, hcl]
    norm_num
  rw [hn]
  simp only [hE, hS]
  have hd : dualCubicMidNode mildInit = some
      ((midNode ⟨0, 0, 1, -9 / 14⟩ ⟨1, 1, 4, 23 / 2⟩ (1 / 2)).x * mildInit.widthX,
       (midNode ⟨0, 0, 1, -9 / 14⟩ ⟨1, 1, 4, 23 / 2⟩ (1 / 2)).y,
       (midNode ⟨0, 0, 1, -9 / 14⟩ ⟨1, 1, 4, 23 / 2⟩ (1 / 2)).s / mildInit.widthX) := by
    simp only [dualCubicMidNode, hn, hmid, Option.bind_eq_bind, Option.bind_some]
  refine ⟨by norm_num [mildInit], ⟨_, hd, ?_, ?_⟩, hSw, hSc, hEw, hEc, by norm_num, by norm_num, 1 / 2, by norm_num, by norm_num,
    ?_, ?_⟩
  · norm_num [midNode, lerp, mildInit]
  · norm_num [midNode, lerp, mildInit]
  · norm_num [eval]
  · norm_num [eval]

end Motive.Curve.Dual
