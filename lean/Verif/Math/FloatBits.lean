import Verif.Curve.RootProps

/-!
# The exponent helpers of float.h at the level of bit patterns (C53)

`float` is the IEEE 754 32-bit format, which the code asserts (float.cpp:20-22).  `value` is the specification of
that format; the model functions work on the 32-bit pattern as the C++ does through its union.
-/

namespace Motive.Math.FloatBits

/-! ### Specification: the number a bit pattern denotes -/

/-- The 8-bit exponent field. -/
def expField (b : BitVec 32) : Nat := b.toNat / 2 ^ 23 % 2 ^ 8
/-- The 23-bit fraction field. -/
def frac (b : BitVec 32) : Nat := b.toNat % 2 ^ 23
/-- The sign. -/
noncomputable def sign (b : BitVec 32) : ℝ := if b.toNat < 2 ^ 31 then 1 else -1

/-- The real number a bit pattern denotes; `none` for the infinities and NaNs. -/
noncomputable def value (b : BitVec 32) : Option ℝ :=
  if expField b = 255 then none
  else if expField b = 0 then some (sign b * (frac b * 2 ^ (-149 : Int)))
  else some (sign b * ((1 + frac b / 2 ^ 23) * 2 ^ ((expField b : Int) - 127)))

/-! ### Model -/

/-- `ExponentAsInt` (float.h:60-64). -/
def exponentAsInt (b : BitVec 32) : Int := (((b >>> 23) &&& 0xFF#32).toNat : Int) - 127

/-- `ExponentFromInt` (float.h:71-75); the argument is a C++ `int`, whose low bits are used. -/
def exponentFromInt (i : Int) : BitVec 32 := (BitVec.ofInt 32 (i + 127) &&& 0xFF#32) <<< 23

/-- `ReciprocalExponent` (float.h:86-88). -/
def reciprocalExponent (b : BitVec 32) : BitVec 32 := exponentFromInt (-exponentAsInt b)

/-- `SqrtReciprocalExponent` (float.h:96-98); C++ division truncates toward zero. -/
def sqrtReciprocalExponent (b : BitVec 32) : BitVec 32 := exponentFromInt ((-exponentAsInt b).tdiv 2)

/-- `MaxPowerOf2Scale` (float.h:102-105). -/
def maxPowerOf2Scale (b : BitVec 32) (maxExponent : Int) : BitVec 32 :=
  exponentFromInt (min 127 (maxExponent - exponentAsInt b))

/-! ### Proofs -/

theorem exponentAsInt_field (b : BitVec 32) : exponentAsInt b = (expField b : Int) - 127 := by
  unfold exponentAsInt expField
  congr 2
  rw [BitVec.toNat_and, BitVec.toNat_ushiftRight, Nat.shiftRight_eq_div_pow]
  have : (0xFF#32).toNat = 2 ^ 8 - 1 := by decide
  rw [this, Nat.and_two_pow_sub_one_eq_mod]

theorem exponentFromInt_toNat (i : Int) : (exponentFromInt i).toNat = ((i + 127) % 256).toNat * 2 ^ 23 := by
  unfold exponentFromInt
  rw [BitVec.toNat_shiftLeft, BitVec.toNat_and]
  have h255 : (0xFF#32).toNat = 2 ^ 8 - 1 := by decide
  rw [h255, Nat.and_two_pow_sub_one_eq_mod, BitVec.toNat_ofInt, Nat.shiftLeft_eq]
  norm_num
  omega

theorem expField_exponentFromInt (i : Int) : (expField (exponentFromInt i) : Int) = (i + 127) % 256 := by
  unfold expField
  rw [exponentFromInt_toNat]
  omega

theorem frac_exponentFromInt (i : Int) : frac (exponentFromInt i) = 0 := by
  unfold frac
  rw [exponentFromInt_toNat]
  omega

theorem sign_exponentFromInt (i : Int) : sign (exponentFromInt i) = 1 := by
  unfold sign
  rw [exponentFromInt_toNat, if_pos]
  omega

theorem abs_sign (b : BitVec 32) : |sign b| = 1 := by
  unfold sign; split_ifs <;> simp

theorem frac_lt (b : BitVec 32) : (frac b : ℝ) < 2 ^ 23 := by
  have : frac b < 2 ^ 23 := Nat.mod_lt _ (by norm_num)
  exact_mod_cast this

/-- C53: `ExponentAsInt` is `floor(log2 |f|)` for every normal number, -127 for zero and denormals, 128 for
infinities and NaNs. -/
theorem C53_exponent_as_int (b : BitVec 32) :
    (value b = none → exponentAsInt b = 128) ∧
    ∀ v, value b = some v →
      (|v| < 2 ^ (-126 : Int) → exponentAsInt b = -127) ∧
      (2 ^ (-126 : Int) ≤ |v| → (2 : ℝ) ^ exponentAsInt b ≤ |v| ∧ |v| < 2 ^ (exponentAsInt b + 1) ∧
        -126 ≤ exponentAsInt b ∧ exponentAsInt b ≤ 127) := by
  rw [exponentAsInt_field]
  have hlt : expField b < 256 := Nat.mod_lt _ (by norm_num)
  have hf := frac_lt b
  have hf0 : (0 : ℝ) ≤ frac b := Nat.cast_nonneg _
  unfold value
  by_cases h1 : expField b = 255
  · rw [if_pos h1, h1]
    exact ⟨fun _ => by norm_num, fun v h => by simp at h⟩
  · rw [if_neg h1]
    by_cases h2 : expField b = 0
    · rw [if_pos h2, h2]
      refine ⟨fun h => by simp at h, fun v h => ?_⟩
      simp only [Option.some.injEq] at h
      have habs : |v| = frac b * 2 ^ (-149 : Int) := by
        rw [← h, abs_mul, abs_sign, one_mul, abs_of_nonneg]
        exact mul_nonneg hf0 (Curve.two_zpow_pos _).le
      have hlt' : |v| < 2 ^ (-126 : Int) := by
        rw [habs]
        calc (frac b : ℝ) * 2 ^ (-149 : Int) < 2 ^ 23 * 2 ^ (-149 : Int) :=
              mul_lt_mul_of_pos_right hf (Curve.two_zpow_pos _)
          _ = 2 ^ (-126 : Int) := by
              rw [← zpow_natCast, ← zpow_add₀ (by norm_num)]; norm_num
      exact ⟨fun _ => by norm_num, fun hc => absurd hlt' (not_lt.mpr hc)⟩
    · rw [if_neg h2]
      refine ⟨fun h => by simp at h, fun v h => ?_⟩
      simp only [Option.some.injEq] at h
      set e : Int := (expField b : Int) - 127 with he
      have hm1 : (1 : ℝ) ≤ 1 + frac b / 2 ^ 23 := by
        have : (0 : ℝ) ≤ frac b / 2 ^ 23 := by positivity
        linarith
      have hm2 : (1 + frac b / 2 ^ 23 : ℝ) < 2 := by
        have : (frac b : ℝ) / 2 ^ 23 < 1 := by rw [div_lt_one (by positivity)]; exact hf
        linarith
      have habs : |v| = (1 + frac b / 2 ^ 23) * 2 ^ e := by
        rw [← h, abs_mul, abs_sign, one_mul, abs_of_nonneg]
        exact mul_nonneg (by linarith) (Curve.two_zpow_pos _).le
      have hp := Curve.two_zpow_pos e
      have hlo : (2 : ℝ) ^ e ≤ |v| := by rw [habs]; nlinarith
      have hhi : |v| < 2 ^ (e + 1) := by
        rw [habs, zpow_add₀ (by norm_num), zpow_one]; nlinarith
      refine ⟨fun hc => ?_, fun _ => ⟨hlo, hhi, by omega, by omega⟩⟩
      exfalso
      have : (2 : ℝ) ^ (-126 : Int) ≤ 2 ^ e := zpow_le_zpow_right₀ (by norm_num) (by omega)
      linarith

/-- The bit-level function agrees with the one used in the model of root finding, on every finite float. -/
theorem C53_model_agrees (b : BitVec 32) {v : ℝ} (h : value b = some v) :
    Curve.exponentAsInt v = exponentAsInt b := by
  obtain ⟨h1, h2⟩ := (C53_exponent_as_int b).2 v h
  by_cases hc : |v| < 2 ^ (-126 : Int)
  · rw [h1 hc]; unfold Curve.exponentAsInt; rw [if_pos hc]
  · obtain ⟨a, b', c, d⟩ := h2 (not_lt.mp hc)
    exact Curve.exponentAsInt_eq a b' c d

/-- C53: `ExponentFromInt(i)` is 2^i for every normal exponent, 0 for -127, infinity for 128; and it is inverted
by `ExponentAsInt` on that whole range. -/
theorem C53_exponent_from_int (i : Int) :
    (-126 ≤ i → i ≤ 127 → value (exponentFromInt i) = some (2 ^ i)) ∧
    (i = -127 → value (exponentFromInt i) = some 0) ∧
    (i = 128 → exponentFromInt i = 0x7F800000#32 ∧ value (exponentFromInt i) = none) ∧
    (-127 ≤ i → i ≤ 128 → exponentAsInt (exponentFromInt i) = i) := by
  have hE := expField_exponentFromInt i
  have hF := frac_exponentFromInt i
  have hS := sign_exponentFromInt i
  refine ⟨fun h1 h2 => ?_, fun h => ?_, fun h => ?_, fun h1 h2 => ?_⟩
  · unfold value
    have hn : (expField (exponentFromInt i) : Int) = i + 127 := by rw [hE]; omega
    rw [if_neg (by omega), if_neg (by omega), hF, hS, hn]
    simp
  · unfold value
    rw [if_neg (by omega), if_pos (by omega), hF]
    simp
  · subst h
    exact ⟨by decide, by unfold value; rw [if_pos (by omega)]⟩
  · rw [exponentAsInt_field, hE]; omega

/-- C53: the reciprocal of a float whose exponent is invertible is the power of two that brings it to `[1, 2)`. -/
theorem C53_reciprocal (b : BitVec 32) {v : ℝ} (h : value b = some v) (h1 : 2 ^ (-126 : Int) ≤ |v|)
    (h2 : |v| < 2 ^ (127 : Int)) :
    ∃ (r : ℝ) (k : Int), value (reciprocalExponent b) = some r ∧ r = 2 ^ k ∧ 1 ≤ r * |v| ∧ r * |v| < 2 := by
  obtain ⟨a, c, d, e⟩ := ((C53_exponent_as_int b).2 v h).2 h1
  have hle : exponentAsInt b ≤ 126 := by
    by_contra hc
    have : (2 : ℝ) ^ (127 : Int) ≤ 2 ^ exponentAsInt b := zpow_le_zpow_right₀ (by norm_num) (by omega)
    linarith
  have hp := Curve.two_zpow_pos (exponentAsInt b)
  refine ⟨2 ^ (-exponentAsInt b), -exponentAsInt b, (C53_exponent_from_int _).1 (by omega) (by omega), rfl, ?_, ?_⟩
  · rw [zpow_neg, inv_mul_eq_div, le_div_iff₀ hp]; linarith
  · rw [zpow_neg, inv_mul_eq_div, div_lt_iff₀ hp]
    rw [zpow_add₀ (by norm_num), zpow_one] at c
    linarith

/-- C53: `MaxPowerOf2Scale(f, m)` is a power of two that keeps `f` below 2^(m+1), that is with exponent at most
`m`; unless it is already the largest power of two a float can hold, twice as much would not. -/
theorem C53_max_power (b : BitVec 32) {v : ℝ} (h : value b = some v) (m : Int) (hm : 1 ≤ m) (hm2 : m ≤ 127) :
    ∃ (r : ℝ) (k : Int), value (maxPowerOf2Scale b m) = some r ∧ r = 2 ^ k ∧ r * |v| < 2 ^ (m + 1) ∧
      (r = 2 ^ (127 : Int) ∨ 2 ^ (m + 1) ≤ 2 * r * |v|) := by
  obtain ⟨g1, g2⟩ := (C53_exponent_as_int b).2 v h
  by_cases hc : |v| < 2 ^ (-126 : Int)
  · refine ⟨2 ^ (127 : Int), 127, ?_, rfl, ?_, Or.inl rfl⟩
    · unfold maxPowerOf2Scale
      rw [g1 hc, min_eq_left (by omega)]
      exact (C53_exponent_from_int _).1 (by omega) (by omega)
    · calc (2 : ℝ) ^ (127 : Int) * |v| < 2 ^ (127 : Int) * 2 ^ (-126 : Int) :=
            mul_lt_mul_of_pos_left hc (Curve.two_zpow_pos _)
        _ = 2 ^ (1 : Int) := by rw [← zpow_add₀ (by norm_num)]; norm_num
        _ ≤ 2 ^ (m + 1) := zpow_le_zpow_right₀ (by norm_num) (by omega)
  · obtain ⟨a, c, d, e⟩ := g2 (not_lt.mp hc)
    set E := exponentAsInt b with hE
    refine ⟨2 ^ (min 127 (m - E)), min 127 (m - E), (C53_exponent_from_int _).1 (by omega) (by omega), rfl, ?_, ?_⟩
    · calc (2 : ℝ) ^ (min 127 (m - E)) * |v| < 2 ^ (min 127 (m - E)) * 2 ^ (E + 1) :=
            mul_lt_mul_of_pos_left c (Curve.two_zpow_pos _)
        _ = 2 ^ (min 127 (m - E) + (E + 1)) := by rw [← zpow_add₀ (by norm_num)]
        _ ≤ 2 ^ (m + 1) := zpow_le_zpow_right₀ (by norm_num) (by omega)
    · rcases le_total (127 : Int) (m - E) with hl | hl
      · left; rw [min_eq_left hl]
      · right
        rw [min_eq_right hl]
        calc (2 : ℝ) ^ (m + 1) = 2 * 2 ^ (m - E) * 2 ^ E := by
              rw [show m + 1 = 1 + (m - E) + E by ring, zpow_add₀ (by norm_num), zpow_add₀ (by norm_num), zpow_one]
          _ ≤ 2 * 2 ^ (m - E) * |v| :=
              mul_le_mul_of_nonneg_left a (mul_nonneg (by norm_num) (Curve.two_zpow_pos _).le)

/-- C53: `SqrtReciprocalExponent` is the power of two whose square, rounded toward 1 when the exponent is odd,
is the reciprocal of the exponent part: `r^2 * |f|` lies in `[1/2, 4)`; and in `[1, 4)` for `|f| ≥ 1`,
`[1/2, 2)` below. -/
theorem C53_sqrt_reciprocal (b : BitVec 32) {v : ℝ} (h : value b = some v) (h1 : 2 ^ (-126 : Int) ≤ |v|) :
    ∃ (r : ℝ) (k : Int), value (sqrtReciprocalExponent b) = some r ∧ r = 2 ^ k ∧
      (1 ≤ |v| → r ≤ 1 ∧ 1 ≤ r ^ 2 * |v| ∧ r ^ 2 * |v| < 4) ∧
      (|v| < 1 → 1 ≤ r ∧ 1 / 2 ≤ r ^ 2 * |v| ∧ r ^ 2 * |v| < 2) := by
  obtain ⟨a, c, d, e⟩ := ((C53_exponent_as_int b).2 v h).2 h1
  set E := exponentAsInt b with hE
  have hp := Curve.two_zpow_pos E
  set k := (-E).tdiv 2 with hk
  have hkE : (0 ≤ E → k = -(E / 2)) ∧ (E < 0 → k = (-E) / 2) := by
    constructor
    · intro h0; rw [hk, Int.neg_tdiv, Int.tdiv_eq_ediv_of_nonneg h0]
    · intro h0; rw [hk, Int.tdiv_eq_ediv_of_nonneg (by omega)]
  have hk1 : -126 ≤ k ∧ k ≤ 127 := by
    rcases le_or_gt 0 E with h0 | h0
    · have := hkE.1 h0; omega
    · have := hkE.2 h0; omega
  have hsq : ∀ j : Int, ((2 : ℝ) ^ j) ^ 2 = 2 ^ (j + j) := by
    intro j; rw [sq, zpow_add₀ (by norm_num)]
  have hlo : (2 : ℝ) ^ (k + k + E) ≤ (2 ^ k) ^ 2 * |v| := by
    rw [hsq, zpow_add₀ (by norm_num)]
    exact mul_le_mul_of_nonneg_left a (Curve.two_zpow_pos _).le
  have hhi : ((2 : ℝ) ^ k) ^ 2 * |v| < 2 ^ (k + k + E + 1) := by
    rw [hsq, add_assoc (k + k), zpow_add₀ (by norm_num) (k + k)]
    exact mul_lt_mul_of_pos_left c (Curve.two_zpow_pos _)
  refine ⟨2 ^ k, k, (C53_exponent_from_int _).1 hk1.1 hk1.2, rfl, fun hv => ?_, fun hv => ?_⟩
  · have h0 : 0 ≤ E := by
      by_contra hc
      have : (2 : ℝ) ^ (E + 1) ≤ 2 ^ (0 : Int) := zpow_le_zpow_right₀ (by norm_num) (by omega)
      rw [zpow_zero] at this; linarith
    have hk' := hkE.1 h0
    refine ⟨zpow_le_one_of_nonpos₀ (by norm_num) (by omega), le_trans ?_ hlo, lt_of_lt_of_le hhi ?_⟩
    · exact one_le_zpow₀ (by norm_num) (by omega)
    · calc (2 : ℝ) ^ (k + k + E + 1) ≤ 2 ^ (2 : Int) := zpow_le_zpow_right₀ (by norm_num) (by omega)
        _ = 4 := by norm_num
  · have h0 : E < 0 := by
      by_contra hc
      have : (2 : ℝ) ^ (0 : Int) ≤ 2 ^ E := zpow_le_zpow_right₀ (by norm_num) (by omega)
      rw [zpow_zero] at this; linarith
    have hk' := hkE.2 h0
    refine ⟨one_le_zpow₀ (by norm_num) (by omega), le_trans ?_ hlo, lt_of_lt_of_le hhi ?_⟩
    · calc (1 / 2 : ℝ) = 2 ^ (-1 : Int) := by norm_num
        _ ≤ 2 ^ (k + k + E) := zpow_le_zpow_right₀ (by norm_num) (by omega)
    · calc (2 : ℝ) ^ (k + k + E + 1) ≤ 2 ^ (1 : Int) := zpow_le_zpow_right₀ (by norm_num) (by omega)
        _ = 2 := by norm_num

/-- 1.5f meets the hypotheses. -/
example : value 0x3FC00000#32 = some (3 / 2) ∧ 2 ^ (-126 : Int) ≤ |(3 / 2 : ℝ)| ∧ |(3 / 2 : ℝ)| < 2 ^ (127 : Int) := by
  have hE : expField 0x3FC00000#32 = 127 := by decide
  have hF : frac 0x3FC00000#32 = 4194304 := by decide
  have hS : sign 0x3FC00000#32 = 1 := by unfold sign; rw [if_pos]; decide
  refine ⟨?_, ?_, ?_⟩
  · unfold value
    rw [if_neg (by omega), if_neg (by omega), hE, hF, hS]; norm_num
  · refine le_trans (zpow_le_one_of_nonpos₀ (by norm_num) (by norm_num)) ?_; norm_num
  · calc |(3 / 2 : ℝ)| < 2 ^ (1 : Int) := by norm_num
      _ ≤ 2 ^ (127 : Int) := zpow_le_zpow_right₀ (by norm_num) (by norm_num)

/-- The header says `SqrtReciprocalExponent(8.0)` is `sqrt(1/8)` rounded down to a power of two.  It returns 1/2,
which is above `sqrt(1/8)`. -/
theorem C53_sqrt_not_rounded_down :
    value (sqrtReciprocalExponent 0x41000000#32) = some (2 ^ (-1 : Int)) ∧
    value 0x41000000#32 = some 8 ∧ Real.sqrt (1 / 8) < 2 ^ (-1 : Int) := by
  have h1 : sqrtReciprocalExponent 0x41000000#32 = exponentFromInt (-1) := by decide
  refine ⟨by rw [h1]; exact (C53_exponent_from_int _).1 (by norm_num) (by norm_num), ?_, ?_⟩
  · have hE : expField 0x41000000#32 = 130 := by decide
    have hF : frac 0x41000000#32 = 0 := by decide
    have hS : sign 0x41000000#32 = 1 := by unfold sign; rw [if_pos]; decide
    unfold value
    rw [if_neg (by omega), if_neg (by omega), hE, hF, hS]; norm_num
  · rw [Real.sqrt_lt' (by norm_num)]; norm_num

end Motive.Math.FloatBits
