import Verif.Curve.RootProps
/-!
# C30: scaling inside the root finder

Quadratics without a linear term are always clear of the tolerance bands; with a small linear term the scaling can push
the quadratic term into them, and the result is far from any root.
-/

namespace Motive.Curve.Quad

theorem exponentAsInt_mem {f : ℝ} (h1 : (2 : ℝ) ^ (-126 : Int) ≤ |f|) (h2 : |f| < 2 ^ (128 : Int)) :
    (2 : ℝ) ^ exponentAsInt f ≤ |f| ∧ |f| < 2 ^ (exponentAsInt f + 1) := by
  have hp : 0 < |f| := lt_of_lt_of_le (two_zpow_pos _) h1
  unfold exponentAsInt
  rw [if_neg (not_lt.mpr h1), if_pos h2]
  exact ⟨(Int.zpow_le_iff_le_log (b := 2) (by norm_num) hp).mpr le_rfl |> fun h => by exact_mod_cast h,
    by exact_mod_cast (Int.lt_zpow_iff_log_lt (b := 2) (by norm_num) hp).mpr (by omega)⟩

theorem zpow_lt_of_lt {a b : Int} (h : (2 : ℝ) ^ a < 2 ^ b) : a < b :=
  (zpow_lt_zpow_iff_right₀ (by norm_num : (1 : ℝ) < 2)).mp h

theorem tdiv_two (e : Int) : ∃ k, (-e).tdiv 2 = k ∧ -1 ≤ 2 * k + e ∧ 2 * k + e ≤ 1 := by
  refine ⟨_, rfl, ?_, ?_⟩ <;>
  · rcases Int.le_total 0 (-e) with h | h
    · rw [Int.tdiv_eq_ediv_of_nonneg h]; omega
    · rw [← neg_neg (-e), Int.neg_tdiv, Int.tdiv_eq_ediv_of_nonneg (by omega)]; omega

/-- A quadratic without linear term, with coefficients of reasonable size, is clear of the tolerance bands. -/
theorem wellConditioned_pure {q : Quad ℝ} (h1 : q.c1 = 0) (l2 : (2 : ℝ) ^ (-60 : Int) ≤ |q.c2|)
    (u2 : |q.c2| ≤ 2 ^ (60 : Int)) (l0 : (2 : ℝ) ^ (-60 : Int) ≤ |q.c0|) (u0 : |q.c0| ≤ 2 ^ (60 : Int)) :
    q.WellConditioned := by
  have two1 : (1 : ℝ) < 2 := by norm_num
  have two0 : (2 : ℝ) ≠ 0 := by norm_num
  have p2 : 0 < |q.c2| := lt_of_lt_of_le (two_zpow_pos _) l2
  have p0 : 0 < |q.c0| := lt_of_lt_of_le (two_zpow_pos _) l0
  -- the quotient that drives the x scale
  set rho := |q.c2| / |q.c0| with hrho
  have prho : 0 < rho := by positivity
  have rl : (2 : ℝ) ^ (-120 : Int) ≤ rho := by
    rw [hrho, le_div_iff₀ p0]
    calc (2 : ℝ) ^ (-120 : Int) * |q.c0| ≤ 2 ^ (-120 : Int) * 2 ^ (60 : Int) :=
          mul_le_mul_of_nonneg_left u0 (two_zpow_pos _).le
      _ = 2 ^ (-60 : Int) := by rw [← zpow_add₀ two0]; norm_num
      _ ≤ _ := l2
  have ru : rho ≤ 2 ^ (120 : Int) := by
    rw [hrho, div_le_iff₀ p0]
    calc |q.c2| ≤ 2 ^ (60 : Int) := u2
      _ = 2 ^ (120 : Int) * 2 ^ (-60 : Int) := by rw [← zpow_add₀ two0]; norm_num
      _ ≤ _ := mul_le_mul_of_nonneg_left l0 (two_zpow_pos _).le
  have habs : |rho| = rho := abs_of_pos prho
  obtain ⟨el, eu⟩ := exponentAsInt_mem (f := rho)
    (by rw [habs]; exact le_trans (zpow_le_zpow_right₀ two1.le (by norm_num)) rl)
    (by rw [habs]; exact lt_of_le_of_lt ru (zpow_lt_zpow_right₀ two1 (by norm_num)))
  rw [habs] at el eu
  set e := exponentAsInt rho with he
  have e1 : -121 < e := by
    have := zpow_lt_of_lt (lt_of_le_of_lt rl eu); omega
  have e2 : e < 121 := zpow_lt_of_lt (lt_of_le_of_lt (le_trans el ru) (zpow_lt_zpow_right₀ two1 (by norm_num)))
  obtain ⟨k, hk, k1, k2⟩ := tdiv_two e
  have e0 : exponentAsInt 0 = -127 := by
    unfold exponentAsInt; rw [if_pos]; rw [abs_zero]; exact two_zpow_pos _
  have hmax : ∀ m : Int, 0 ≤ m → maxPowerOf2Scale 0 m = some (2 ^ (127 : Int)) := by
    intro m hm
    unfold maxPowerOf2Scale
    rw [e0, min_eq_left (by omega), exponentFromInt_mid (by norm_num) (by norm_num)]
  have hx : q.xScaleReciprocal = some (2 ^ k) := by
    have hu : q.xScaleUnclamped = some (2 ^ k) := by
      unfold xScaleUnclamped
      simp only [h1, abs_zero, max_eq_right p0.le]
      rw [if_neg p0.ne', if_neg, if_neg (not_le.mpr p0)]
      · unfold sqrtReciprocalExponent
        rw [← hrho, ← he, hk]
        exact exponentFromInt_mid (by omega) (by omega)
      · rw [not_not, h1, abs_zero, max_eq_right p0.le]
        exact ⟨le_trans (zpow_le_zpow_right₀ two1.le (by norm_num : (-126 : Int) ≤ -120)) rl,
          le_trans ru (zpow_le_zpow_right₀ two1.le (by norm_num : (120 : Int) ≤ 126))⟩
    simp only [xScaleReciprocal, hu, h1, abs_zero, hmax 126 (by norm_num), Option.bind_eq_bind, Option.bind_some]
    rw [min_eq_left (zpow_le_zpow_right₀ two1.le (by omega))]
  -- the x-scaled quadratic term
  set X := |q.c2| * 2 ^ k * 2 ^ k with hX
  have hXr : X = rho * 2 ^ (2 * k) * |q.c0| := by
    rw [hX, hrho, two_mul, zpow_add₀ two0]; field_simp
  have fl : (2 : ℝ) ^ (-1 : Int) ≤ rho * 2 ^ (2 * k) := by
    calc (2 : ℝ) ^ (-1 : Int) ≤ 2 ^ (e + 2 * k) := zpow_le_zpow_right₀ two1.le (by omega)
      _ = 2 ^ e * 2 ^ (2 * k) := zpow_add₀ two0 _ _
      _ ≤ _ := mul_le_mul_of_nonneg_right el (two_zpow_pos _).le
  have fu : rho * 2 ^ (2 * k) < 2 ^ (2 : Int) := by
    calc rho * 2 ^ (2 * k) < 2 ^ (e + 1) * 2 ^ (2 * k) := mul_lt_mul_of_pos_right eu (two_zpow_pos _)
      _ = 2 ^ (e + 1 + 2 * k) := (zpow_add₀ two0 _ _).symm
      _ ≤ _ := zpow_le_zpow_right₀ two1.le (by omega)
  have Xl : (2 : ℝ) ^ (-61 : Int) ≤ X := by
    rw [hXr]
    calc (2 : ℝ) ^ (-61 : Int) = 2 ^ (-1 : Int) * 2 ^ (-60 : Int) := by rw [← zpow_add₀ two0]; norm_num
      _ ≤ _ := mul_le_mul fl l0 (two_zpow_pos _).le (le_trans (two_zpow_pos _).le fl)
  have Xu : X < 2 ^ (62 : Int) := by
    rw [hXr]
    calc rho * 2 ^ (2 * k) * |q.c0| < 2 ^ (2 : Int) * |q.c0| := mul_lt_mul_of_pos_right fu p0
      _ ≤ 2 ^ (2 : Int) * 2 ^ (60 : Int) := mul_le_mul_of_nonneg_left u0 (two_zpow_pos _).le
      _ = 2 ^ (62 : Int) := by rw [← zpow_add₀ two0]; norm_num
  have pX : 0 < X := lt_of_lt_of_le (two_zpow_pos _) Xl
  have hXabs : |q.c2 * 2 ^ k * 2 ^ k| = X := by
    rw [abs_mul, abs_mul, abs_of_pos (two_zpow_pos k)]
  obtain ⟨gl, gu⟩ := exponentAsInt_mem (f := X)
    (by rw [abs_of_pos pX]; exact le_trans (zpow_le_zpow_right₀ two1.le (by norm_num)) Xl)
    (by rw [abs_of_pos pX]; exact lt_trans Xu (zpow_lt_zpow_right₀ two1 (by norm_num)))
  rw [abs_of_pos pX] at gl gu
  set g := exponentAsInt X with hg
  have g1 : -62 < g := by have := zpow_lt_of_lt (lt_of_le_of_lt Xl gu); omega
  have g2 : g < 62 := zpow_lt_of_lt (lt_of_le_of_lt gl Xu)
  have hc0e : exponentAsInt |q.c0| ≤ 60 := by
    have := (exponentAsInt_mem (f := |q.c0|)
      (by rw [abs_abs]; exact le_trans (zpow_le_zpow_right₀ two1.le (by norm_num)) l0)
      (by rw [abs_abs]; exact lt_of_le_of_lt u0 (zpow_lt_zpow_right₀ two1 (by norm_num)))).1
    rw [abs_abs] at this
    have := zpow_lt_of_lt (lt_of_le_of_lt (le_trans this u0)
      (zpow_lt_zpow_right₀ two1 (by norm_num) : (2 : ℝ) ^ (60 : Int) < 2 ^ (61 : Int)))
    omega
  have hy : (q.scaleInXByReciprocal (2 ^ k)).yScale = some (2 ^ (-g)) := by
    have hcl : invertableRange.clamp X = X := Math.Range.clamp_of_mem
      ⟨le_trans (zpow_le_zpow_right₀ two1.le (by norm_num)) Xl,
        (lt_trans Xu (zpow_lt_zpow_right₀ two1 (by norm_num))).le⟩
    have hr : reciprocalExponent (invertableRange.clamp X) = some (2 ^ (-g)) := by
      rw [hcl]; unfold reciprocalExponent; rw [← hg]
      exact exponentFromInt_mid (by omega) (by omega)
    have hb := exponentAsInt_bounds |q.c0|
    have hm0 : maxPowerOf2Scale |q.c0| 125 = some (2 ^ (min 127 (125 - exponentAsInt |q.c0|))) :=
      exponentFromInt_mid (by omega) (by omega)
    simp only [yScale, scaleInXByReciprocal, hXabs, hr, hm0, h1, zero_mul, abs_zero, hmax 125 (by norm_num),
      Option.bind_eq_bind, Option.bind_some]
    rw [min_eq_right]
    exact le_min (zpow_le_zpow_right₀ two1.le (by omega)) (zpow_le_zpow_right₀ two1.le (by omega))
  intro n xr hn
  have hnn : q.normalized = some ((q.scaleInXByReciprocal (2 ^ k)).scaleUp (2 ^ (-g)), 2 ^ k) := by
    simp only [normalized, hx, hy, Option.bind_eq_bind, Option.bind_some]
  rw [hnn] at hn
  cases hn
  -- the normalised coefficients
  have a2 : |q.c2 * 2 ^ k * 2 ^ k * 2 ^ (-g)| = X * 2 ^ (-g) := by
    rw [abs_mul, hXabs, abs_of_pos (two_zpow_pos _)]
  have b2l : 1 ≤ X * 2 ^ (-g) := by
    rw [zpow_neg, ← div_eq_mul_inv, le_div_iff₀ (two_zpow_pos _), one_mul]; exact gl
  have b2u : X * 2 ^ (-g) < 2 := by
    rw [zpow_neg, ← div_eq_mul_inv, div_lt_iff₀ (two_zpow_pos _)]
    rw [zpow_add₀ two0, zpow_one] at gu; linarith
  have a0 : |q.c0 * 2 ^ (-g)| = |q.c0| * 2 ^ (-g) := by rw [abs_mul, abs_of_pos (two_zpow_pos _)]
  have hrel : X * 2 ^ (-g) = rho * 2 ^ (2 * k) * (|q.c0| * 2 ^ (-g)) := by rw [hXr]; ring
  have pz : 0 < |q.c0| * 2 ^ (-g) := mul_pos p0 (two_zpow_pos _)
  have b0l : 1 / 4 < |q.c0| * 2 ^ (-g) := by
    have : (2 : ℝ) ^ (2 : Int) = 4 := by norm_num
    rw [this] at fu
    nlinarith
  have b0u : |q.c0| * 2 ^ (-g) < 4 := by
    have : (2 : ℝ) ^ (-1 : Int) = 1 / 2 := by norm_num
    rw [this] at fl
    nlinarith
  have hmc : ((q.scaleInXByReciprocal (2 ^ k)).scaleUp (2 ^ (-g))).maxCoeff < 4 := by
    simp only [maxCoeff, scaleUp, scaleInXByReciprocal, h1, zero_mul, abs_zero, a2, a0]
    exact max_lt (max_lt (by linarith) (by norm_num)) b0u
  have hmc0 : 0 ≤ ((q.scaleInXByReciprocal (2 ^ k)).scaleUp (2 ^ (-g))).maxCoeff :=
    le_trans (abs_nonneg _) (le_max_right _ _)
  right
  refine ⟨?_, ?_, Or.inr ?_⟩
  · intro hz
    have : |((q.scaleInXByReciprocal (2 ^ k)).scaleUp (2 ^ (-g))).c2| = X * 2 ^ (-g) := a2
    rw [hz, abs_zero] at this
    linarith
  · have : |((q.scaleInXByReciprocal (2 ^ k)).scaleUp (2 ^ (-g))).c2| = X * 2 ^ (-g) := a2
    rw [this]
    unfold epsilon epsScale
    linarith
  · have : |((q.scaleInXByReciprocal (2 ^ k)).scaleUp (2 ^ (-g))).discriminant| =
        4 * (X * 2 ^ (-g)) * (|q.c0| * 2 ^ (-g)) := by
      have h4 : |(-4 : ℝ)| = 4 := by rw [abs_neg, abs_of_pos (by norm_num)]
      rw [← a2, ← a0, ← h4, ← abs_mul, ← abs_mul]
      simp only [discriminant, scaleUp, scaleInXByReciprocal, h1, zero_mul]
      congr 1; ring
    rw [this]
    have h1' : 1 < 4 * (X * 2 ^ (-g)) * (|q.c0| * 2 ^ (-g)) := by nlinarith
    unfold epsilon epsScale
    linarith

/-- `x^2 / 2 - 1 / 4` is clear of the tolerance bands. -/
example : (⟨1 / 2, 0, -1 / 4⟩ : Quad ℝ).WellConditioned :=
  wellConditioned_pure rfl (by norm_num [abs_of_pos]) (by norm_num [abs_of_pos]) (by norm_num [abs_of_neg])
    (by norm_num [abs_of_neg])

/-- Exactness fails badly, not only by rounding: `x^2 + 2^-30 x - 2^-30` has its two roots within `2^-14` of zero, but
`Roots` reports none, because scaling `x` to match the linear term makes the constant term so large that the
quadratic and linear terms are both taken for zero. -/
theorem C30_roots_misscaled :
    (⟨1, 1 / 2 ^ 30, -(1 / 2 ^ 30)⟩ : Quad ℝ).roots = some [] ∧
    (∀ x : ℝ, (⟨1, 1 / 2 ^ 30, -(1 / 2 ^ 30)⟩ : Quad ℝ).eval x = 0 → |x| < 1 / 2 ^ 14) ∧
    ∃ x y : ℝ, x < y ∧ (⟨1, 1 / 2 ^ 30, -(1 / 2 ^ 30)⟩ : Quad ℝ).eval x = 0 ∧
      (⟨1, 1 / 2 ^ 30, -(1 / 2 ^ 30)⟩ : Quad ℝ).eval y = 0 := by
  have z30 : (2 : ℝ) ^ (30 : Int) = 2 ^ 30 := by norm_cast
  have zm30 : (2 : ℝ) ^ (-30 : Int) = 1 / 2 ^ 30 := by rw [zpow_neg, z30, one_div]
  refine ⟨?_, ?_, ?_⟩
  · have ea : ∀ k : Int, -126 ≤ k → k ≤ 127 → exponentAsInt ((2 : ℝ) ^ k) = k := by
      intro k h1 h2
      apply exponentAsInt_eq _ _ h1 h2
      · rw [abs_of_pos (two_zpow_pos _)]
      · rw [abs_of_pos (two_zpow_pos _)]; exact zpow_lt_zpow_right₀ (by norm_num) (by omega)
    have mp : ∀ k m : Int, -126 ≤ k → k ≤ 127 → 0 ≤ min 127 (m - k) →
        maxPowerOf2Scale ((2 : ℝ) ^ k) m = some (2 ^ min 127 (m - k)) := by
      intro k m h1 h2 h3
      unfold maxPowerOf2Scale
      rw [ea k h1 h2, exponentFromInt_mid (by omega) (by omega)]
    have inv : ∀ k : Int, -126 ≤ k → k ≤ 126 → invertableRange.contains ((2 : ℝ) ^ k) := fun k h1 h2 =>
      ⟨zpow_le_zpow_right₀ (by norm_num) h1, zpow_le_zpow_right₀ (by norm_num) h2⟩
    rw [← zm30]
    have hx : (⟨1, 2 ^ (-30 : Int), -(2 ^ (-30 : Int))⟩ : Quad ℝ).xScaleReciprocal = some (2 ^ (-30 : Int)) := by
      have hu : (⟨1, 2 ^ (-30 : Int), -(2 ^ (-30 : Int))⟩ : Quad ℝ).xScaleUnclamped = some (2 ^ (-30 : Int)) := by
        have hq : (1 : ℝ) / 2 ^ (-30 : Int) = 2 ^ (30 : Int) := by rw [zpow_neg, one_div, inv_inv]
        unfold xScaleUnclamped
        simp only [abs_neg, abs_of_pos (two_zpow_pos (-30)), max_self, abs_one, hq]
        rw [if_neg (two_zpow_pos _).ne', if_neg, if_pos le_rfl]
        swap
        · rw [abs_neg, abs_of_pos (two_zpow_pos (-30)), max_self, abs_one, hq, not_not]
          exact inv 30 (by norm_num) (by norm_num)
        unfold reciprocalExponent
        rw [ea 30 (by norm_num) (by norm_num), exponentFromInt_mid (by norm_num) (by norm_num)]
      simp only [xScaleReciprocal, hu, abs_of_pos (two_zpow_pos (-30)), mp (-30) 126 (by norm_num) (by norm_num) (by norm_num),
        Option.bind_eq_bind, Option.bind_some]
      rw [min_eq_left (zpow_le_zpow_right₀ (by norm_num) (by norm_num))]
    have hs : (⟨1, 2 ^ (-30 : Int), -(2 ^ (-30 : Int))⟩ : Quad ℝ).scaleInXByReciprocal (2 ^ (-30 : Int)) =
        ⟨2 ^ (-60 : Int), 2 ^ (-60 : Int), -(2 ^ (-30 : Int))⟩ := by
      have : (2 : ℝ) ^ (-30 : Int) * 2 ^ (-30 : Int) = 2 ^ (-60 : Int) := by
        rw [← zpow_add₀ (by norm_num : (2 : ℝ) ≠ 0)]; norm_num
      simp only [scaleInXByReciprocal, one_mul, this]
    have hy : (⟨2 ^ (-60 : Int), 2 ^ (-60 : Int), -(2 ^ (-30 : Int))⟩ : Quad ℝ).yScale = some (2 ^ (60 : Int)) := by
      simp only [yScale, abs_neg, abs_of_pos (two_zpow_pos _), mp (-30) 125 (by norm_num) (by norm_num) (by norm_num),
        mp (-60) 125 (by norm_num) (by norm_num) (by norm_num),
        Math.Range.clamp_of_mem (inv (-60) (by norm_num) (by norm_num)), reciprocalExponent, ea (-60) (by norm_num) (by norm_num),
        neg_neg, exponentFromInt_mid (show (-126 : Int) ≤ 60 by norm_num) (show (60 : Int) ≤ 127 by norm_num),
        Option.bind_eq_bind, Option.bind_some]
      rw [min_eq_right]
      exact le_min (zpow_le_zpow_right₀ (by norm_num) (by norm_num)) (zpow_le_zpow_right₀ (by norm_num) (by norm_num))
    have hn : (⟨2 ^ (-60 : Int), 2 ^ (-60 : Int), -(2 ^ (-30 : Int))⟩ : Quad ℝ).scaleUp (2 ^ (60 : Int)) =
        ⟨1, 1, -(2 ^ 30)⟩ := by
      have h1 : (2 : ℝ) ^ (-60 : Int) * 2 ^ (60 : Int) = 1 := by
        rw [← zpow_add₀ (by norm_num : (2 : ℝ) ≠ 0)]; norm_num
      have h2 : (2 : ℝ) ^ (-30 : Int) * 2 ^ (60 : Int) = 2 ^ 30 := by
        rw [← zpow_add₀ (by norm_num : (2 : ℝ) ≠ 0), ← z30]; norm_num
      simp only [scaleUp, h1, neg_mul, h2]
    have heps : (⟨1, 1, -(2 ^ 30)⟩ : Quad ℝ).epsilon = 256 := by
      simp only [epsilon, maxCoeff, epsScale, abs_neg, abs_one, max_self]
      rw [abs_of_pos (by positivity), max_eq_right (by norm_num)]; norm_num
    have hr : (⟨1, 1, -(2 ^ 30)⟩ : Quad ℝ).rootsWithoutNormalizing = some [] := by
      unfold rootsWithoutNormalizing
      simp only [heps, abs_one]
      norm_num
    simp only [roots, normalized, hx, hs, hy, hn, hr, Option.bind_eq_bind, Option.bind_some, List.map_nil]
  · intro x hx
    simp only [eval] at hx
    rw [abs_lt]
    constructor <;> by_contra hc <;> push Not at hc <;> norm_num at hx hc <;> nlinarith
  · have hd : (0 : ℝ) < 1 / 2 ^ 60 + 4 / 2 ^ 30 := by positivity
    set r := Real.sqrt (1 / 2 ^ 60 + 4 / 2 ^ 30) with hr
    have hr0 : 0 < r := Real.sqrt_pos.mpr hd
    have hr2 : r * r = 1 / 2 ^ 60 + 4 / 2 ^ 30 := Real.mul_self_sqrt hd.le
    refine ⟨(-(1 / 2 ^ 30) - r) / 2, (-(1 / 2 ^ 30) + r) / 2, by linarith, ?_, ?_⟩ <;>
    · simp only [eval]; linear_combination (1 / 4) * hr2

end Motive.Curve.Quad
