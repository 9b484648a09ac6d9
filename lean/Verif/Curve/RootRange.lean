import Verif.Curve.RootScale
/-!
# C30: quadratics with roots on both sides of zero

If the leading and the constant coefficient have opposite signs and the sizes of the coefficients are reasonable in
proportion, the root finder is exact.
-/

namespace Motive.Curve.Quad

theorem exponentAsInt_le {f : ℝ} {m : Int} (h : |f| < 2 ^ (m + 1)) (hm : -127 ≤ m) (hm2 : m ≤ 127) :
    exponentAsInt f ≤ m := by
  by_cases h1 : |f| < 2 ^ (-126 : Int)
  · unfold exponentAsInt; rw [if_pos h1]; exact hm
  · have h2 := (exponentAsInt_mem (f := f) (not_lt.mp h1)
      (lt_of_lt_of_le h (zpow_le_zpow_right₀ (by norm_num) (by omega)))).1
    have := zpow_lt_of_lt (lt_of_le_of_lt h2 h)
    omega

/-- The normalised quadratic, if the scale of the x axis is known and the sizes are reasonable. -/
theorem normalized_of {q : Quad ℝ} {k g : Int} (hx : q.xScaleReciprocal = some (2 ^ k))
    (hl : (2 : ℝ) ^ g ≤ |q.c2| * 2 ^ k * 2 ^ k) (hu : |q.c2| * 2 ^ k * 2 ^ k < 2 ^ (g + 1))
    (hg1 : -100 ≤ g) (hg2 : g ≤ 100) (h0 : |q.c0| < 2 ^ (g + 26)) (h1 : |q.c1 * 2 ^ k| < 2 ^ (g + 26)) :
    q.normalized = some ((q.scaleInXByReciprocal (2 ^ k)).scaleUp (2 ^ (-g)), 2 ^ k) := by
  have two1 : (1 : ℝ) < 2 := by norm_num
  have pX : 0 < |q.c2| * 2 ^ k * 2 ^ k := lt_of_lt_of_le (two_zpow_pos _) hl
  have hXabs : |q.c2 * 2 ^ k * 2 ^ k| = |q.c2| * 2 ^ k * 2 ^ k := by
    rw [abs_mul, abs_mul, abs_of_pos (two_zpow_pos k)]
  have he : exponentAsInt (|q.c2| * 2 ^ k * 2 ^ k) = g :=
    exponentAsInt_eq (by rw [abs_of_pos pX]; exact hl) (by rw [abs_of_pos pX]; exact hu) (by omega) (by omega)
  have hy : (q.scaleInXByReciprocal (2 ^ k)).yScale = some (2 ^ (-g)) := by
    have hcl : invertableRange.clamp (|q.c2| * 2 ^ k * 2 ^ k) = |q.c2| * 2 ^ k * 2 ^ k := Math.Range.clamp_of_mem
      ⟨le_trans (zpow_le_zpow_right₀ two1.le (by omega)) hl,
        le_trans hu.le (zpow_le_zpow_right₀ two1.le (by omega))⟩
    have hr : reciprocalExponent (invertableRange.clamp (|q.c2| * 2 ^ k * 2 ^ k)) = some (2 ^ (-g)) := by
      rw [hcl]; unfold reciprocalExponent; rw [he]
      exact exponentFromInt_mid (by omega) (by omega)
    have key : ∀ f : ℝ, |f| < 2 ^ (g + 26) →
        ∃ j : Int, maxPowerOf2Scale |f| 125 = some (2 ^ j) ∧ -g ≤ j := by
      intro f hf
      have hb := exponentAsInt_bounds |f|
      have hle : exponentAsInt |f| ≤ max (-127) (g + 25) := by
        refine exponentAsInt_le ?_ (by omega) (by omega)
        rw [abs_abs]
        exact lt_of_lt_of_le hf (zpow_le_zpow_right₀ two1.le (by omega))
      exact ⟨min 127 (125 - exponentAsInt |f|), exponentFromInt_mid (by omega) (by omega), by omega⟩
    obtain ⟨j0, m0, l0⟩ := key q.c0 h0
    obtain ⟨j1, m1, l1⟩ := key (q.c1 * 2 ^ k) h1
    simp only [yScale, scaleInXByReciprocal, hXabs, hr, m0, m1, Option.bind_eq_bind, Option.bind_some]
    rw [min_eq_right]
    exact le_min (zpow_le_zpow_right₀ two1.le l0) (zpow_le_zpow_right₀ two1.le l1)
  simp only [normalized, hx, hy, Option.bind_eq_bind, Option.bind_some]

/-- Sizes of the coefficients that keep a normalised quadratic clear of the tolerance bands. -/
theorem separated_of {n : Quad ℝ} (h2 : 1 ≤ |n.c2|) (h2' : |n.c2| < 2) (hs : n.c2 * n.c0 ≤ 0)
    (h1 : |n.c1| ≤ 2 ^ 21) (h0 : |n.c0| ≤ 2 ^ 21) (h : 1 / 4 ≤ |n.c0| ∨ 1 / 2 ≤ |n.c1|) : n.Separated := by
  have hmc : n.maxCoeff ≤ 2 ^ 21 := by
    unfold maxCoeff
    exact max_le (max_le (by norm_num; linarith) h1) h0
  have hmc' : n.maxCoeff ≤ 2 + |n.c1| + |n.c0| := by
    unfold maxCoeff
    have := abs_nonneg n.c1
    have := abs_nonneg n.c0
    exact max_le (max_le (by linarith) (by linarith)) (by linarith)
  have hd : n.c1 ^ 2 + 4 * |n.c0| ≤ n.discriminant := by
    have : n.discriminant = n.c1 ^ 2 + 4 * (|n.c2| * |n.c0|) := by
      rw [← abs_mul, abs_of_nonpos hs]; unfold discriminant; ring
    rw [this]
    nlinarith [abs_nonneg n.c0]
  right
  refine ⟨fun hz => ?_, ?_, Or.inr ?_⟩
  · rw [hz, abs_zero] at h2; linarith
  · unfold epsilon epsScale
    norm_num at hmc ⊢; linarith
  · refine lt_of_lt_of_le ?_ (hd.trans (le_abs_self _))
    unfold epsilon epsScale
    have hsq : n.c1 ^ 2 = |n.c1| ^ 2 := (sq_abs _).symm
    rcases h with h | h
    · norm_num at hmc
      nlinarith [sq_nonneg n.c1]
    · rw [hsq]
      nlinarith [abs_nonneg n.c0]

/-- Sizes that are reasonable in proportion. `big` and `small` are for a constant term that is larger, or not larger,
than the linear one: these are scaled differently. -/
structure Proportioned (q : Quad ℝ) : Prop where
  /-- opposite signs -/
  signs : q.c2 * q.c0 ≤ 0
  /-- the leading coefficient is not zero -/
  lead : q.c2 ≠ 0
  /-- the constant term is the larger one -/
  big : |q.c1| < |q.c0| → (2 : ℝ) ^ (-90 : Int) ≤ |q.c0| ∧ |q.c0| ≤ 2 ^ (60 : Int) ∧
    (2 : ℝ) ^ (-120 : Int) * |q.c0| ≤ |q.c2| ∧ |q.c2| ≤ 2 ^ (120 : Int) * |q.c0| ∧
    q.c1 ^ 2 ≤ 2 ^ 38 * (|q.c0| * |q.c2|)
  /-- the linear term is the larger one -/
  small : |q.c0| ≤ |q.c1| → (2 : ℝ) ^ (-120 : Int) * |q.c1| ≤ |q.c2| ∧ |q.c2| ≤ 2 ^ (120 : Int) * |q.c1| ∧
    (2 : ℝ) ^ (-90 : Int) * |q.c2| ≤ q.c1 ^ 2 ∧ q.c1 ^ 2 ≤ 2 ^ (88 : Int) * |q.c2| ∧
    |q.c0| * |q.c2| ≤ 2 ^ 20 * q.c1 ^ 2

theorem exists_exponent {x : ℝ} (hx : 0 < x) : ∃ g : Int, (2 : ℝ) ^ g ≤ x ∧ x < 2 ^ (g + 1) :=
  ⟨Int.log 2 x, (Int.zpow_le_iff_le_log (b := 2) (by norm_num) hx).mpr le_rfl |> fun h => by exact_mod_cast h,
    by exact_mod_cast (Int.lt_zpow_iff_log_lt (b := 2) (by norm_num) hx).mpr (by omega)⟩

/-- The last step of both cases: sizes relative to the scaled leading coefficient `X`. -/
theorem wellConditioned_of_scaled {q : Quad ℝ} {k : Int} (hs : q.c2 * q.c0 ≤ 0)
    (hx : q.xScaleReciprocal = some (2 ^ k)) (hXl : (2 : ℝ) ^ (-99 : Int) ≤ |q.c2| * 2 ^ k * 2 ^ k)
    (hXu : |q.c2| * 2 ^ k * 2 ^ k ≤ 2 ^ (99 : Int)) (h0 : |q.c0| ≤ 2 ^ 20 * (|q.c2| * 2 ^ k * 2 ^ k))
    (h1 : |q.c1 * 2 ^ k| ≤ 2 ^ 20 * (|q.c2| * 2 ^ k * 2 ^ k))
    (h : |q.c2| * 2 ^ k * 2 ^ k ≤ 4 * |q.c0| ∨ |q.c2| * 2 ^ k * 2 ^ k ≤ 2 * |q.c1 * 2 ^ k|) :
    q.WellConditioned := by
  have two1 : (1 : ℝ) < 2 := by norm_num
  have two0 : (2 : ℝ) ≠ 0 := by norm_num
  set X := |q.c2| * 2 ^ k * 2 ^ k with hX
  have pX : 0 < X := lt_of_lt_of_le (two_zpow_pos _) hXl
  obtain ⟨g, gl, gu⟩ := exists_exponent pX
  have g1 : -100 ≤ g := by have := zpow_lt_of_lt (lt_of_le_of_lt hXl gu); omega
  have g2 : g ≤ 99 := by
    have := zpow_lt_of_lt (lt_of_le_of_lt (gl.trans hXu) (zpow_lt_zpow_right₀ two1 (by norm_num : (99 : Int) < 100)))
    omega
  have big : 2 ^ 20 * X < 2 ^ (g + 26) := by
    have e : (2 : ℝ) ^ (g + 26) = 2 ^ 25 * 2 ^ (g + 1) := by
      rw [show g + 26 = 25 + (g + 1) by ring, zpow_add₀ two0 25 (g + 1)]; norm_num
    rw [e]
    nlinarith [two_zpow_pos (g + 1)]
  have hn := normalized_of hx gl gu g1 (by omega) (lt_of_le_of_lt h0 big) (lt_of_le_of_lt h1 big)
  intro n xr hn'
  rw [hn] at hn'
  cases hn'
  have pg : 0 < (2 : ℝ) ^ (-g) := two_zpow_pos _
  have b2l : 1 ≤ X * 2 ^ (-g) := by
    rw [zpow_neg, ← div_eq_mul_inv, le_div_iff₀ (two_zpow_pos _), one_mul]; exact gl
  have b2u : X * 2 ^ (-g) < 2 := by
    rw [zpow_neg, ← div_eq_mul_inv, div_lt_iff₀ (two_zpow_pos _)]
    rw [zpow_add₀ two0, zpow_one] at gu; linarith
  have a2 : |q.c2 * 2 ^ k * 2 ^ k * 2 ^ (-g)| = X * 2 ^ (-g) := by
    rw [abs_mul, abs_mul, abs_mul, abs_of_pos (two_zpow_pos k), abs_of_pos pg]
  have a0 : |q.c0 * 2 ^ (-g)| = |q.c0| * 2 ^ (-g) := by rw [abs_mul, abs_of_pos pg]
  have a1 : |q.c1 * 2 ^ k * 2 ^ (-g)| = |q.c1 * 2 ^ k| * 2 ^ (-g) := by rw [abs_mul, abs_of_pos pg]
  have m0 := mul_le_mul_of_nonneg_right h0 pg.le
  have m1 := mul_le_mul_of_nonneg_right h1 pg.le
  refine separated_of ?_ ?_ ?_ ?_ ?_ ?_ <;> simp only [scaleUp, scaleInXByReciprocal]
  · rw [a2]; exact b2l
  · rw [a2]; exact b2u
  · have : q.c2 * 2 ^ k * 2 ^ k * 2 ^ (-g) * (q.c0 * 2 ^ (-g)) =
        q.c2 * q.c0 * ((2 ^ k * 2 ^ k) * (2 ^ (-g) * 2 ^ (-g))) := by ring
    rw [this]
    have pk := two_zpow_pos k
    exact mul_nonpos_of_nonpos_of_nonneg hs (mul_pos (mul_pos pk pk) (mul_pos pg pg)).le
  · rw [a1]; nlinarith
  · rw [a0]; nlinarith
  · rw [a0, a1]
    rcases h with h | h
    · left
      have := mul_le_mul_of_nonneg_right h pg.le
      linarith
    · right
      have := mul_le_mul_of_nonneg_right h pg.le
      linarith

/-- C30 for quadratics with roots on both sides of zero: coefficients that are reasonable in proportion keep clear of
the tolerance bands. -/
theorem wellConditioned_proportioned {q : Quad ℝ} (hq : q.Proportioned) : q.WellConditioned := by
  have two1 : (1 : ℝ) < 2 := by norm_num
  have two0 : (2 : ℝ) ≠ 0 := by norm_num
  have p2 : 0 < |q.c2| := abs_pos.mpr hq.lead
  by_cases hc : |q.c1| < |q.c0|
  · obtain ⟨l0, u0, l2, u2, h1⟩ := hq.big hc
    have p0 : 0 < |q.c0| := lt_of_lt_of_le (two_zpow_pos _) l0
    set rho := |q.c2| / |q.c0| with hrho
    have prho : 0 < rho := by positivity
    have rl : (2 : ℝ) ^ (-120 : Int) ≤ rho := by rw [hrho, le_div_iff₀ p0]; exact l2
    have ru : rho ≤ 2 ^ (120 : Int) := by rw [hrho, div_le_iff₀ p0]; exact u2
    have habs : |rho| = rho := abs_of_pos prho
    obtain ⟨el, eu⟩ := exponentAsInt_mem (f := rho)
      (by rw [habs]; exact le_trans (zpow_le_zpow_right₀ two1.le (by norm_num)) rl)
      (by rw [habs]; exact lt_of_le_of_lt ru (zpow_lt_zpow_right₀ two1 (by norm_num)))
    rw [habs] at el eu
    set e := exponentAsInt rho with he
    have e1 : -121 < e := by
      have := zpow_lt_of_lt (lt_of_le_of_lt rl eu); omega
    have e2 : e < 121 := zpow_lt_of_lt (lt_of_le_of_lt (le_trans el ru) (zpow_lt_zpow_right₀ two1 (by norm_num)))
    obtain ⟨k, hk, k1, k2⟩ := tdiv_two e
    have hx : q.xScaleReciprocal = some (2 ^ k) := by
      have hcmp : max |q.c1| |q.c0| = |q.c0| := max_eq_right hc.le
      have hu : q.xScaleUnclamped = some (2 ^ k) := by
        unfold xScaleUnclamped
        simp only [hcmp]
        rw [if_neg p0.ne', if_neg, if_neg (not_le.mpr hc)]
        · unfold sqrtReciprocalExponent
          rw [← hrho, ← he, hk]
          exact exponentFromInt_mid (by omega) (by omega)
        · rw [not_not, hcmp]
          exact ⟨le_trans (zpow_le_zpow_right₀ two1.le (by norm_num : (-126 : Int) ≤ -120)) rl,
            le_trans ru (zpow_le_zpow_right₀ two1.le (by norm_num : (120 : Int) ≤ 126))⟩
      have hb := exponentAsInt_bounds |q.c1|
      have hle : exponentAsInt |q.c1| ≤ 60 := by
        refine exponentAsInt_le ?_ (by norm_num) (by norm_num)
        rw [abs_abs]
        exact lt_of_lt_of_le hc (u0.trans (zpow_le_zpow_right₀ two1.le (by norm_num)))
      have hm : maxPowerOf2Scale |q.c1| 126 = some (2 ^ min 127 (126 - exponentAsInt |q.c1|)) :=
        exponentFromInt_mid (by omega) (by omega)
      simp only [xScaleReciprocal, hu, hm, Option.bind_eq_bind, Option.bind_some]
      rw [min_eq_left (zpow_le_zpow_right₀ two1.le (by omega))]
    have hXr : |q.c2| * 2 ^ k * 2 ^ k = rho * 2 ^ (2 * k) * |q.c0| := by
      rw [hrho, two_mul, zpow_add₀ two0]; field_simp
    have fl : 1 / 2 ≤ rho * 2 ^ (2 * k) := by
      calc (1 : ℝ) / 2 = 2 ^ (-1 : Int) := by norm_num
        _ ≤ 2 ^ (e + 2 * k) := zpow_le_zpow_right₀ two1.le (by omega)
        _ = 2 ^ e * 2 ^ (2 * k) := zpow_add₀ two0 _ _
        _ ≤ _ := mul_le_mul_of_nonneg_right el (two_zpow_pos _).le
    have fu : rho * 2 ^ (2 * k) < 4 := by
      calc rho * 2 ^ (2 * k) < 2 ^ (e + 1) * 2 ^ (2 * k) := mul_lt_mul_of_pos_right eu (two_zpow_pos _)
        _ = 2 ^ (e + 1 + 2 * k) := (zpow_add₀ two0 _ _).symm
        _ ≤ 2 ^ (2 : Int) := zpow_le_zpow_right₀ two1.le (by omega)
        _ = 4 := by norm_num
    have h1' : |q.c1 * 2 ^ k| ≤ 2 ^ 20 * (|q.c2| * 2 ^ k * 2 ^ k) := by
      have hb : 0 ≤ 2 ^ 20 * (|q.c2| * 2 ^ k * 2 ^ k) :=
        mul_nonneg (by norm_num) (mul_nonneg (mul_nonneg p2.le (two_zpow_pos k).le) (two_zpow_pos k).le)
      refine abs_le_of_sq_le_sq ?_ hb
      have hz : 0 < (2 : ℝ) ^ k := two_zpow_pos k
      have e3 : (q.c1 * 2 ^ k) ^ 2 = q.c1 ^ 2 * (2 ^ k * 2 ^ k) := by ring
      have h5 : |q.c0| ≤ 2 * (|q.c2| * 2 ^ k * 2 ^ k) := by rw [hXr]; nlinarith
      rw [e3]
      calc q.c1 ^ 2 * (2 ^ k * 2 ^ k) ≤ 2 ^ 38 * (|q.c0| * |q.c2|) * (2 ^ k * 2 ^ k) :=
            mul_le_mul_of_nonneg_right h1 (by positivity)
        _ = 2 ^ 38 * |q.c0| * (|q.c2| * 2 ^ k * 2 ^ k) := by ring
        _ ≤ 2 ^ 38 * (2 * (|q.c2| * 2 ^ k * 2 ^ k)) * (|q.c2| * 2 ^ k * 2 ^ k) := by
            have : 0 ≤ |q.c2| * 2 ^ k * 2 ^ k := by positivity
            exact mul_le_mul_of_nonneg_right (mul_le_mul_of_nonneg_left h5 (by norm_num)) this
        _ ≤ (2 ^ 20 * (|q.c2| * 2 ^ k * 2 ^ k)) ^ 2 := by
            have : 0 ≤ (|q.c2| * 2 ^ k * 2 ^ k) ^ 2 := sq_nonneg _
            nlinarith
    refine wellConditioned_of_scaled hq.signs hx ?_ ?_ ?_ h1' (Or.inl ?_)
    · rw [hXr]
      calc (2 : ℝ) ^ (-99 : Int) ≤ 1 / 2 * 2 ^ (-90 : Int) := by norm_num
        _ ≤ _ := mul_le_mul fl l0 (two_zpow_pos _).le (by linarith)
    · rw [hXr]
      calc rho * 2 ^ (2 * k) * |q.c0| ≤ 4 * 2 ^ (60 : Int) := mul_le_mul fu.le u0 p0.le (by norm_num)
        _ ≤ _ := by norm_num
    · rw [hXr]; nlinarith
    · rw [hXr]; nlinarith
  · rw [not_lt] at hc
    obtain ⟨l2, u2, l1, u1, h0⟩ := hq.small hc
    have p1 : 0 < |q.c1| := by
      by_contra hz
      have : |q.c1| = 0 := le_antisymm (not_lt.mp hz) (abs_nonneg _)
      rw [this, mul_zero] at u2; linarith
    set rho := |q.c2| / |q.c1| with hrho
    have prho : 0 < rho := by positivity
    have rl : (2 : ℝ) ^ (-120 : Int) ≤ rho := by rw [hrho, le_div_iff₀ p1]; exact l2
    have ru : rho ≤ 2 ^ (120 : Int) := by rw [hrho, div_le_iff₀ p1]; exact u2
    have habs : |rho| = rho := abs_of_pos prho
    obtain ⟨el, eu⟩ := exponentAsInt_mem (f := rho)
      (by rw [habs]; exact le_trans (zpow_le_zpow_right₀ two1.le (by norm_num)) rl)
      (by rw [habs]; exact lt_of_le_of_lt ru (zpow_lt_zpow_right₀ two1 (by norm_num)))
    rw [habs] at el eu
    set e := exponentAsInt rho with he
    have e1 : -121 < e := by
      have := zpow_lt_of_lt (lt_of_le_of_lt rl eu); omega
    have e2 : e < 121 := zpow_lt_of_lt (lt_of_le_of_lt (le_trans el ru) (zpow_lt_zpow_right₀ two1 (by norm_num)))
    have fz : 0 < (2 : ℝ) ^ (-e) := two_zpow_pos _
    have fl : 1 ≤ rho * 2 ^ (-e) := by
      rw [zpow_neg, ← div_eq_mul_inv, le_div_iff₀ (two_zpow_pos _), one_mul]; exact el
    have fu : rho * 2 ^ (-e) < 2 := by
      rw [zpow_neg, ← div_eq_mul_inv, div_lt_iff₀ (two_zpow_pos _)]
      rw [zpow_add₀ two0, zpow_one] at eu; linarith
    have hXr : |q.c2| * 2 ^ (-e) * 2 ^ (-e) = rho * 2 ^ (-e) * (|q.c1| * 2 ^ (-e)) := by
      rw [hrho]; field_simp
    have hXs : (|q.c2| * 2 ^ (-e) * 2 ^ (-e)) * |q.c2| = (rho * 2 ^ (-e)) ^ 2 * q.c1 ^ 2 := by
      rw [hrho, ← sq_abs q.c1]; field_simp
    have hsq : q.c1 ^ 2 ≤ (rho * 2 ^ (-e)) ^ 2 * q.c1 ^ 2 :=
      le_mul_of_one_le_left (sq_nonneg _) (one_le_pow₀ fl)
    have hXl : (2 : ℝ) ^ (-90 : Int) ≤ |q.c2| * 2 ^ (-e) * 2 ^ (-e) := by
      refine le_of_mul_le_mul_right ?_ p2
      rw [hXs]
      exact l1.trans hsq
    have hXu : |q.c2| * 2 ^ (-e) * 2 ^ (-e) ≤ 2 ^ (90 : Int) := by
      refine le_of_mul_le_mul_right ?_ p2
      rw [hXs]
      have e4 : (2 : ℝ) ^ (90 : Int) = 4 * 2 ^ (88 : Int) := by norm_num
      have : (rho * 2 ^ (-e)) ^ 2 ≤ 4 := by nlinarith
      rw [e4]
      nlinarith [sq_nonneg q.c1]
    have hx : q.xScaleReciprocal = some (2 ^ (-e)) := by
      have hcmp : max |q.c1| |q.c0| = |q.c1| := max_eq_left hc
      have hu : q.xScaleUnclamped = some (2 ^ (-e)) := by
        unfold xScaleUnclamped
        simp only [hcmp]
        rw [if_neg p1.ne', if_neg, if_pos hc]
        · unfold reciprocalExponent
          rw [← hrho, ← he]
          exact exponentFromInt_mid (by omega) (by omega)
        · rw [not_not, hcmp]
          exact ⟨le_trans (zpow_le_zpow_right₀ two1.le (by norm_num : (-126 : Int) ≤ -120)) rl,
            le_trans ru (zpow_le_zpow_right₀ two1.le (by norm_num : (120 : Int) ≤ 126))⟩
      have hb := exponentAsInt_bounds |q.c1|
      have hle : exponentAsInt |q.c1| ≤ max (-127) (90 + e) := by
        have hb2 : |q.c1| < 2 ^ (90 + e + 1) := by
          have h5 : |q.c1| * 2 ^ (-e) ≤ 2 ^ (90 : Int) := by
            refine le_trans ?_ hXu
            rw [hXr]
            nlinarith [mul_pos p1 fz]
          rw [zpow_neg, ← div_eq_mul_inv, div_le_iff₀ (two_zpow_pos _), ← zpow_add₀ two0] at h5
          exact lt_of_le_of_lt h5 (zpow_lt_zpow_right₀ two1 (by omega))
        by_cases hbig : 90 + e ≤ 127
        · refine exponentAsInt_le ?_ (by omega) (by omega)
          rw [abs_abs]
          exact lt_of_lt_of_le hb2 (zpow_le_zpow_right₀ two1.le (by omega))
        · omega
      have hm : maxPowerOf2Scale |q.c1| 126 = some (2 ^ min 127 (126 - exponentAsInt |q.c1|)) :=
        exponentFromInt_mid (by omega) (by omega)
      simp only [xScaleReciprocal, hu, hm, Option.bind_eq_bind, Option.bind_some]
      rw [min_eq_left (zpow_le_zpow_right₀ two1.le (by omega))]
    have a1 : |q.c1 * 2 ^ (-e)| = |q.c1| * 2 ^ (-e) := by rw [abs_mul, abs_of_pos fz]
    have p1e : 0 < |q.c1| * 2 ^ (-e) := mul_pos p1 fz
    refine wellConditioned_of_scaled hq.signs hx ?_ ?_ ?_ ?_ (Or.inr ?_)
    · exact le_trans (zpow_le_zpow_right₀ two1.le (by norm_num)) hXl
    · exact hXu.trans (zpow_le_zpow_right₀ two1.le (by norm_num))
    · refine le_of_mul_le_mul_right ?_ p2
      rw [mul_assoc, hXs]
      exact h0.trans (mul_le_mul_of_nonneg_left hsq (by norm_num))
    · rw [a1, hXr]; nlinarith
    · rw [a1, hXr]; nlinarith

/-- A falling parabola through 1/8 at 0 with slope 1/4. -/
example : (⟨-1, 1 / 4, 1 / 8⟩ : Quad ℝ).WellConditioned :=
  wellConditioned_proportioned ⟨by norm_num, by norm_num, by norm_num [abs_of_pos], by norm_num [abs_of_pos]⟩

end Motive.Curve.Quad
