import Verif.Float.Angle

/-!
# `WrapAngle`, `FromRadians`, `operator*=`, `operator/=` and `Clamp` of `Angle` in single precision (C82)
-/

namespace Motive.Float.Angle

variable {rnd rd : ℚ → ℚ} {G : Fmt}

/-- The formats that the arithmetic after `floor` may use: `float` and `double` are such. -/
structure Wide (G : Fmt) : Prop where
  prec : 24 ≤ G.p
  least : G.emin ≤ -125 - G.p

theorem wide_f32 : Wide f32 := ⟨by norm_num [f32], by norm_num [f32]⟩
theorem wide_f64 : Wide f64 := ⟨by norm_num [f64], by norm_num [f64]⟩
theorem Wide.p_le (h : Wide G) : f32.p ≤ G.p := h.prec
theorem Wide.emin_le (h : Wide G) : G.emin ≤ f32.emin := by
  have h1 := h.prec
  have h2 := h.least
  have : f32.emin = -149 := rfl
  omega

theorem zpow_two_mul (j : ℤ) : (2 : ℚ) ^ (j + 1) = 2 * 2 ^ j := by
  rw [zpow_split]; ring

/-- The number of turns, computed in `float`, is off only where the quotient is next to an integer. -/
theorem wrap_turns (h : Nearest f32 rnd) {x : ℚ} {j : ℤ} (h4 : 4 ≤ j) (hx : |x| ≤ 2 ^ j) :
    |(⌊rnd (x / kTwoPi)⌋ : ℚ)| ≤ 2 ^ (j - 2) ∧
    -(kTwoPi + 2 ^ (j - 24)) ≤ x - ((⌊rnd (x / kTwoPi)⌋ : ℚ) + 1) * kTwoPi ∧
    x - ((⌊rnd (x / kTwoPi)⌋ : ℚ) + 1) * kTwoPi ≤ 2 ^ (j - 24) := by
  have hpos : (0 : ℚ) < kTwoPi := by norm_num [kTwoPi]
  have h4' : (4 : ℚ) ≤ kTwoPi := by norm_num [kTwoPi]
  have h8 : kTwoPi ≤ 8 := by norm_num [kTwoPi]
  have e4 : (2 : ℚ) ^ j = 4 * 2 ^ (j - 2) := by
    have : j = (j - 2) + 1 + 1 := by ring
    conv_lhs => rw [this, zpow_two_mul, zpow_two_mul]
    ring
  have e27 : (2 : ℚ) ^ (j - 24) = 8 * 2 ^ (j - 27) := by
    have : j - 24 = (j - 27) + 1 + 1 + 1 := by ring
    conv_lhs => rw [this, zpow_two_mul, zpow_two_mul, zpow_two_mul]
    ring
  have hP := two_zpow_pos (j - 2)
  have hQ := two_zpow_pos (j - 27)
  have hq : |x / kTwoPi| ≤ 2 ^ (j - 2) := by
    rw [abs_div, abs_of_pos hpos, div_le_iff₀ hpos]
    nlinarith
  have herr := h.err (x := x / kTwoPi) (k := j - 2) (by norm_num [f32]; omega) hq
  have e : j - 2 - (f32.p : ℤ) - 1 = j - 27 := by norm_num [f32]; ring
  rw [e, abs_le] at herr
  have hm : f32.Mem (2 ^ (j - 2)) := mem_zpow (by norm_num [f32]; omega)
  obtain ⟨d, hd⟩ : ∃ d : ℕ, j - 2 = d := ⟨(j - 2).toNat, by omega⟩
  rw [abs_le] at hq
  have hr1 := h.ge_of_ge (mem_neg hm) hq.1
  have hr2 := h.le_of_le hm hq.2
  have hf1 := Int.floor_le (rnd (x / kTwoPi))
  have hf2 := Int.lt_floor_add_one (rnd (x / kTwoPi))
  have hxq : x = x / kTwoPi * kTwoPi := by field_simp
  refine ⟨?_, ?_, ?_⟩
  · rw [abs_le]
    refine ⟨?_, hf1.trans hr2⟩
    rw [hd, zpow_natCast] at hr1 ⊢
    have : (-2 ^ d : ℤ) ≤ ⌊rnd (x / kTwoPi)⌋ := by
      rw [Int.le_floor]; push_cast; exact hr1
    exact_mod_cast this
  · have : x / kTwoPi - ((⌊rnd (x / kTwoPi)⌋ : ℚ) + 1) ≥ -(1 + 2 ^ (j - 27)) := by linarith [herr.2]
    have h5 : x - ((⌊rnd (x / kTwoPi)⌋ : ℚ) + 1) * kTwoPi = (x / kTwoPi - ((⌊rnd (x / kTwoPi)⌋ : ℚ) + 1)) * kTwoPi := by
      rw [sub_mul, ← hxq]
    rw [h5, e27]
    nlinarith
  · have : x / kTwoPi - ((⌊rnd (x / kTwoPi)⌋ : ℚ) + 1) ≤ 2 ^ (j - 27) := by linarith [herr.1]
    have h5 : x - ((⌊rnd (x / kTwoPi)⌋ : ℚ) + 1) * kTwoPi = (x / kTwoPi - ((⌊rnd (x / kTwoPi)⌋ : ℚ) + 1)) * kTwoPi := by
      rw [sub_mul, ← hxq]
    rw [h5, e27]
    nlinarith

/-- The value before the last correction. -/
theorem wrap_reduced (h : Nearest f32 rnd) (hd : Nearest G rd) (hG : Wide G) {x : ℚ} {j : ℤ}
    (h4 : 4 ≤ j) (h24 : j ≤ 24) (hx : |x| ≤ 2 ^ j) :
    ∃ (z : ℤ) (a : ℚ), a = rnd (rd (x - rd (rd ((⌊rnd (x / kTwoPi)⌋ : ℚ) + 1) * kTwoPi))) ∧ f32.Mem a ∧
      -9 ≤ a ∧ a ≤ 2 ∧ |a - (x + z * kTwoPi)| ≤ 2 ^ (j - 24) + 1 / 2 ^ 20 := by
  obtain ⟨hn, hlo, hhi⟩ := wrap_turns h h4 hx
  have hp := hG.prec
  have he := hG.least
  set n : ℤ := ⌊rnd (x / kTwoPi)⌋ with hndef
  have hT4 : (6 : ℚ) < kTwoPi := by norm_num [kTwoPi]
  have hT8 : kTwoPi < 63 / 10 := by norm_num [kTwoPi]
  have hJ : (2 : ℚ) ^ (j - 24) ≤ 1 := by
    have := zpow_le_zpow_right₀ (a := (2 : ℚ)) (by norm_num) (show j - 24 ≤ 0 by omega)
    simpa using this
  have hJ0 := two_zpow_pos (j - 24)
  have hP22 : (2 : ℚ) ^ (j - 2) ≤ 2 ^ (22 : ℤ) := zpow_le_zpow_right₀ (by norm_num) (by omega)
  have hP2 : (4 : ℚ) ≤ 2 ^ (j - 2) := by
    have := zpow_le_zpow_right₀ (a := (2 : ℚ)) (by norm_num) (show (2 : ℤ) ≤ j - 2 by omega)
    norm_num at this ⊢; exact this
  -- the whole number of turns is exact
  have hrd1 : rd ((n : ℚ) + 1) = n + 1 := by
    have : ((n : ℚ) + 1) = ((n + 1 : ℤ) : ℚ) := by push_cast; ring
    rw [this]
    refine hd.exact (mem_int ?_ (by omega))
    have h1 : |(n : ℚ)| ≤ 2 ^ 22 := hn.trans (by norm_num at hP22 ⊢; exact hP22)
    have h1' : |n| ≤ 2 ^ 22 := by exact_mod_cast h1
    have h2 : (2 : ℤ) ^ 24 ≤ 2 ^ G.p := pow_le_pow_right₀ (by norm_num) hp
    refine le_trans ?_ h2
    rw [abs_le] at h1' ⊢
    omega
  rw [hrd1]
  -- error of the product
  have hprod : |rd (((n : ℚ) + 1) * kTwoPi) - ((n : ℚ) + 1) * kTwoPi| ≤ 2 ^ (j - 24) := by
    have hb : |((n : ℚ) + 1) * kTwoPi| ≤ 2 ^ (j + 1) := by
      have e8 : (2 : ℚ) ^ (j + 1) = 8 * 2 ^ (j - 2) := by
        have : j + 1 = (j - 2) + 1 + 1 + 1 := by ring
        rw [this, zpow_two_mul, zpow_two_mul, zpow_two_mul]; ring
      rw [abs_mul, abs_of_pos (show (0 : ℚ) < kTwoPi by linarith), e8]
      have h1 : |(n : ℚ) + 1| ≤ 2 ^ (j - 2) + 1 := (abs_add_le _ _).trans (by rw [abs_one]; linarith)
      have h0 := abs_nonneg ((n : ℚ) + 1)
      nlinarith
    have := hd.err (k := j + 1) (by omega) hb
    refine this.trans (zpow_le_zpow_right₀ (by norm_num) ?_)
    omega
  set p := rd (((n : ℚ) + 1) * kTwoPi) with hpdef
  rw [abs_le] at hprod
  have hd1 : -(kTwoPi + 2 * 2 ^ (j - 24)) ≤ x - p := by linarith [hprod.2]
  have hd2 : x - p ≤ 2 * 2 ^ (j - 24) := by linarith [hprod.1]
  have m2 : f32.Mem 2 := by have := mem_int (F := f32) (n := 2) (by norm_num [f32]) (by norm_num [f32]); simpa using this
  have m9 : f32.Mem (-9) := by
    have := mem_int (F := f32) (n := -9) (by norm_num [f32]) (by norm_num [f32]); simpa using this
  have g2 : G.Mem 2 := mem_wider hG.p_le hG.emin_le m2
  have g9 : G.Mem (-9) := mem_wider hG.p_le hG.emin_le m9
  have r1 := hd.ge_of_ge g9 (x := x - p) (by linarith)
  have r2 := hd.le_of_le g2 (x := x - p) (by linarith)
  have s1 := h.ge_of_ge m9 r1
  have s2 := h.le_of_le m2 r2
  have er := hd.err (x := x - p) (k := 4) (by omega) (by rw [abs_le]; norm_num; constructor <;> linarith)
  have er' : |rd (x - p) - (x - p)| ≤ 1 / 2 ^ 21 := by
    refine er.trans ?_
    have : (2 : ℚ) ^ (4 - (G.p : ℤ) - 1) ≤ 2 ^ (-21 : ℤ) := zpow_le_zpow_right₀ (by norm_num) (by omega)
    refine this.trans (by norm_num)
  have es := h.err (x := rd (x - p)) (k := 4) (by norm_num [f32]) (by rw [abs_le]; norm_num; constructor <;> linarith)
  have es' : |rnd (rd (x - p)) - rd (x - p)| ≤ 1 / 2 ^ 21 := by
    refine es.trans ?_
    norm_num [f32]
  refine ⟨-(n + 1), _, rfl, h.mem _, s1, s2, ?_⟩
  rw [abs_le] at er' es' ⊢
  push_cast
  constructor <;> norm_num at er' es' ⊢ <;> linarith [hprod.1, hprod.2, er'.1, er'.2, es'.1, es'.2]

/-- `WrapAngle` for magnitudes up to `2 ^ 24`. -/
theorem wrapAngle_spec (h : Nearest f32 rnd) (hd : Nearest G rd) (hG : Wide G) {x : ℚ} {j : ℤ}
    (h4 : 4 ≤ j) (h24 : j ≤ 24) (hx : |x| ≤ 2 ^ j) :
    IsAngle (wrapAngle rnd rd x) ∧ CongruentWithin (2 ^ (j - 24) + 1 / 2 ^ 20) (wrapAngle rnd rd x) x := by
  obtain ⟨z, a, ha, hm, h9, h2, herr⟩ := wrap_reduced h hd hG h4 h24 hx
  have hpi : (3 : ℚ) < kPi := by norm_num [kPi]
  unfold wrapAngle
  rw [← ha]
  by_cases hc : a ≤ -kPi
  · simp only [if_pos hc]
    have hmm : f32.Mem (a + kTwoPi) := by
      have := sterbenz mem_kTwoPi (mem_neg hm) (by rw [kTwoPi_eq]; linarith) (by rw [kTwoPi_eq]; linarith)
      rwa [sub_neg_eq_add, add_comm] at this
    rw [h.exact hmm]
    refine ⟨⟨hmm, ?_, ?_⟩, z + 1, ?_⟩
    · refine le_trans (show kMinUniqueAngle ≤ -9 + kTwoPi by norm_num [kMinUniqueAngle, kTwoPi]) (by linarith)
    · rw [kTwoPi_eq]; linarith
    · have : a + kTwoPi - (x + ((z + 1 : ℤ) : ℚ) * kTwoPi) = a - (x + z * kTwoPi) := by push_cast; ring
      rw [this]; exact herr
  · simp only [if_neg hc]
    push Not at hc
    exact ⟨⟨hm, no_float_between hm hc, by linarith⟩, z, herr⟩

/-- **C82**: `FromRadians` succeeds for every float up to `2 ^ 24` in magnitude, in single precision and whether the
turns are computed in `float` or in `double`.  The result is a valid angle; it is congruent modulo `kTwoPi` to the
argument up to an error proportional to the magnitude: `2 ^ (j-24) + 2 ^ -20` for arguments up to `2 ^ j`. -/
theorem C82_from_radians (h : Nearest f32 rnd) (hd : Nearest G rd) (hG : Wide G) {x : ℚ} {j : ℤ}
    (h4 : 4 ≤ j) (h24 : j ≤ 24) (hx : |x| ≤ 2 ^ j) :
    ∃ r, fromRadians rnd rd x = some r ∧ IsAngle r ∧ CongruentWithin (2 ^ (j - 24) + 1 / 2 ^ 20) r x := by
  obtain ⟨h1, h2⟩ := wrapAngle_spec h hd hG h4 h24 hx
  exact ⟨_, by rw [fromRadians, mk, if_pos h1.2], h1, h2⟩

/-- The rounded product or quotient is small enough for `WrapAngle`. -/
theorem rnd_scaled (h : Nearest f32 rnd) {y : ℚ} {j : ℤ} (h4 : 4 ≤ j) (hy : |y| ≤ 2 ^ j) :
    |rnd y| ≤ 2 ^ j ∧ |rnd y - y| ≤ 2 ^ (j - 25) := by
  have hm : f32.Mem (2 ^ j) := mem_zpow (by norm_num [f32]; omega)
  have herr := h.err (k := j) (by norm_num [f32]; omega) hy
  have e : j - (f32.p : ℤ) - 1 = j - 25 := by norm_num [f32]; ring
  rw [e] at herr
  rw [abs_le] at hy
  exact ⟨abs_le.mpr ⟨h.ge_of_ge (mem_neg hm) hy.1, h.le_of_le hm hy.2⟩, herr⟩

/-- **C82**: scaled and divided angles are valid angles, congruent to the exact product or quotient up to the same kind
of error, as long as that is at most `2 ^ 24`. -/
theorem C82_scale (h : Nearest f32 rnd) (hd : Nearest G rd) (hG : Wide G) {a r : ℚ} {j : ℤ}
    (h4 : 4 ≤ j) (h24 : j ≤ 24) :
    (|a * r| ≤ 2 ^ j → IsAngle (mul rnd rd a r) ∧ CongruentWithin (2 ^ (j - 23) + 1 / 2 ^ 20) (mul rnd rd a r) (a * r)) ∧
    (r ≠ 0 → |a / r| ≤ 2 ^ j → ∃ q, div rnd rd a r = some q ∧ IsAngle q ∧
      CongruentWithin (2 ^ (j - 23) + 1 / 2 ^ 20) q (a / r)) := by
  have key : ∀ y : ℚ, |y| ≤ 2 ^ j → IsAngle (wrapAngle rnd rd (rnd y)) ∧
      CongruentWithin (2 ^ (j - 23) + 1 / 2 ^ 20) (wrapAngle rnd rd (rnd y)) y := by
    intro y hy
    obtain ⟨h1, h2⟩ := rnd_scaled h h4 hy
    obtain ⟨h3, k, h5⟩ := wrapAngle_spec h hd hG h4 h24 h1
    refine ⟨h3, k, ?_⟩
    have e1 : (2 : ℚ) ^ (j - 24) = 2 * 2 ^ (j - 25) := by rw [← zpow_two_mul]; congr 1; ring
    have e2 : (2 : ℚ) ^ (j - 23) = 2 * 2 ^ (j - 24) := by rw [← zpow_two_mul]; congr 1; ring
    have h0 := two_zpow_pos (j - 25)
    have : wrapAngle rnd rd (rnd y) - (y + k * kTwoPi) =
        (wrapAngle rnd rd (rnd y) - (rnd y + k * kTwoPi)) + (rnd y - y) := by ring
    rw [this]
    refine (abs_add_le _ _).trans ?_
    linarith
  refine ⟨fun hy => key _ hy, fun hr hy => ?_⟩
  obtain ⟨h1, h2⟩ := key _ hy
  exact ⟨_, by rw [div, if_neg hr], h1, h2⟩

/-- **C82**: `FromDegrees` likewise: 360 degrees are a turn of `kTwoPi`, up to the same kind of error. -/
theorem C82_from_degrees (h : Nearest f32 rnd) (hd : Nearest G rd) (hG : Wide G) {d : ℚ} {j : ℤ}
    (h4 : 4 ≤ j) (h24 : j ≤ 24) (hx : |d| ≤ 2 ^ (j + 5)) :
    ∃ r, fromDegrees rnd rd d = some r ∧ IsAngle r ∧ CongruentWithin (2 ^ (j - 23) + 1 / 2 ^ 20) r (d / 360 * kTwoPi) := by
  have e5 : (2 : ℚ) ^ (j + 5) = 2 ^ 5 * 2 ^ j := by rw [zpow_split, mul_comm]; norm_num
  have e25 : (2 : ℚ) ^ j = 2 ^ 25 * 2 ^ (j - 25) := by
    rw [← zpow_natCast, ← zpow_split]; congr 1; push_cast; ring
  have hpos := two_zpow_pos (j - 25)
  rw [e5] at hx
  have hy : |d * kDegreesToRadians| ≤ 2 ^ j := by
    rw [abs_mul, abs_of_pos (show (0 : ℚ) < kDegreesToRadians by norm_num [kDegreesToRadians])]
    have : |d| * kDegreesToRadians ≤ 2 ^ 5 * 2 ^ j * (1 / 2 ^ 5) :=
      mul_le_mul hx (by norm_num [kDegreesToRadians]) (by norm_num [kDegreesToRadians]) (by positivity)
    linarith
  obtain ⟨h1, h2⟩ := rnd_scaled h h4 hy
  obtain ⟨r, h3, h5, k, h6⟩ := C82_from_radians h hd hG h4 h24 h1
  refine ⟨r, h3, h5, k, ?_⟩
  have e1 : (2 : ℚ) ^ (j - 24) = 2 * 2 ^ (j - 25) := by rw [← zpow_two_mul]; congr 1; ring
  have e2 : (2 : ℚ) ^ (j - 23) = 2 * 2 ^ (j - 24) := by rw [← zpow_two_mul]; congr 1; ring
  have h7 : |d * kDegreesToRadians - d / 360 * kTwoPi| ≤ 2 ^ (j - 25) := by
    have e : d * kDegreesToRadians - d / 360 * kTwoPi = d * (kDegreesToRadians - kTwoPi / 360) := by ring
    rw [e, abs_mul]
    have hk : |kDegreesToRadians - kTwoPi / 360| ≤ 1 / 2 ^ 30 := by
      rw [abs_le]; norm_num [kDegreesToRadians, kTwoPi]
    have : |d| * |kDegreesToRadians - kTwoPi / 360| ≤ 2 ^ 5 * 2 ^ j * (1 / 2 ^ 30) :=
      mul_le_mul hx hk (abs_nonneg _) (by positivity)
    rw [e25] at this
    linarith
  have e : r - (d / 360 * kTwoPi + k * kTwoPi) = (r - (rnd (d * kDegreesToRadians) + k * kTwoPi)) +
      (rnd (d * kDegreesToRadians) - d * kDegreesToRadians) + (d * kDegreesToRadians - d / 360 * kTwoPi) := by ring
  rw [e]
  refine (abs_add_le _ _).trans ((add_le_add ((abs_add_le _ _).trans (add_le_add h6 h2)) h7).trans ?_)
  rw [e2, e1]
  linarith

/-- **C82**: `FromRadians` is not the identity on valid angles, and multiplying by 1 is not either: the small angle
`2 ^ -30` becomes 0, because it is first moved a turn down. -/
theorem C82_small_angle_lost (h : Nearest f32 rnd) (hd : Nearest G rd) (hG : Wide G) :
    IsAngle (1 / 2 ^ 30) ∧ fromRadians rnd rd (1 / 2 ^ 30) = some 0 ∧ mul rnd rd (1 / 2 ^ 30) 1 = 0 := by
  have a1 : IsAngle (1 / 2 ^ 30) := ⟨⟨1, -30, by norm_num [f32], by norm_num [f32], by norm_num⟩,
    by norm_num [Valid, kMinUniqueAngle, kPi]⟩
  have hfl : ⌊rnd (1 / 2 ^ 30 / kTwoPi)⌋ = 0 := by
    rw [Int.floor_eq_zero_iff]
    have hm : f32.Mem (1 / 2 ^ 30) := a1.1
    have h1 := h.ge_of_ge mem_zero (x := 1 / 2 ^ 30 / kTwoPi) (by norm_num [kTwoPi])
    have h2 := h.le_of_le hm (x := 1 / 2 ^ 30 / kTwoPi) (by norm_num [kTwoPi])
    exact ⟨h1, lt_of_le_of_lt h2 (by norm_num)⟩
  have gT : G.Mem kTwoPi := mem_wider hG.p_le hG.emin_le mem_kTwoPi
  have g1 : rd ((0 : ℚ) + 1) = 1 := by
    have : ((0 : ℚ) + 1) = ((1 : ℤ) : ℚ) := by norm_num
    rw [this]
    have h2 : G.Mem ((1 : ℤ) : ℚ) :=
      mem_int (by rw [abs_one]; exact one_le_pow₀ (by norm_num)) (by have := hG.least; omega)
    rw [hd.exact h2]; norm_num
  have hw : wrapAngle rnd rd (1 / 2 ^ 30) = 0 := by
    unfold wrapAngle
    rw [hfl, Int.cast_zero, g1, one_mul, hd.exact gT]
    have hn := hd.near (1 / 2 ^ 30 - kTwoPi) (-kTwoPi) (mem_neg gT)
    have e : -kTwoPi - (1 / 2 ^ 30 - kTwoPi) = -(1 / 2 ^ 30) := by ring
    rw [e, abs_neg, abs_of_pos (show (0 : ℚ) < 1 / 2 ^ 30 by norm_num), abs_le] at hn
    have hr : rnd (rd (1 / 2 ^ 30 - kTwoPi)) = -kTwoPi := by
      have := h.eq_of_close (x := rd (1 / 2 ^ 30 - kTwoPi)) (n := -13176795) (e := -21) (by norm_num [f32])
        (by norm_num [f32]) (Or.inr (by norm_num [f32])) (by
          rw [abs_lt]
          unfold kTwoPi at hn ⊢
          push_cast
          constructor <;> norm_num at hn ⊢ <;> linarith [hn.1, hn.2])
      rw [this]; norm_num [kTwoPi]
    rw [hr]
    have hc : -kTwoPi ≤ -kPi := by norm_num [kTwoPi, kPi]
    simp only [if_pos hc, neg_add_cancel, h.zero]
  refine ⟨a1, ?_, ?_⟩
  · rw [fromRadians, hw, mk, if_pos isAngle_zero.2]
  · rw [mul, mul_one, h.exact a1.1, hw]

/-- **C82**: `FromRadians` does not wrap every float: for `1e9` its assertion fails, whether the turns are computed in
`float` or in `double`. -/
theorem C82_large_fails (h : Nearest f32 rnd) (hd : Nearest f32 rd ∨ Nearest f64 rd) :
    f32.Mem 1000000000 ∧ fromRadians rnd rd 1000000000 = none := by
  have hq : rnd (1000000000 / kTwoPi) = 159154944 := by
    have := h.eq_of_close (x := 1000000000 / kTwoPi) (n := 9947184) (e := 4) (by norm_num [f32])
      (by norm_num [f32]) (Or.inr (by norm_num [f32])) (by rw [abs_lt]; unfold kTwoPi; constructor <;> norm_num)
    rw [this]; norm_num
  have hfl : ⌊rnd (1000000000 / kTwoPi)⌋ = 159154944 := by rw [hq]; norm_num
  refine ⟨⟨1953125, 9, by norm_num [f32], by norm_num [f32], by norm_num⟩, ?_⟩
  have mint : ∀ n : ℤ, |n| ≤ 2 ^ 24 → f32.Mem n := fun n hn => mem_int hn (by norm_num [f32])
  have key : ∀ a, a = rnd (rd (1000000000 - rd (rd (((159154944 : ℤ) : ℚ) + 1) * kTwoPi))) → a ≤ -39 →
      fromRadians rnd rd 1000000000 = none := by
    intro a ha hle
    unfold fromRadians wrapAngle mk
    rw [hfl, ← ha]
    have hc : a ≤ -kPi := hle.trans (by norm_num [kPi])
    simp only [if_pos hc]
    rw [if_neg]
    intro hv
    have h1 := hv.1
    have h2 := h.le_of_le (mint (-32) (by norm_num)) (x := a + kTwoPi) (by
      refine le_trans (add_le_add_left hle kTwoPi) ?_
      norm_num [kTwoPi])
    have h3 := h1.trans h2
    norm_num [kMinUniqueAngle] at h3
  rcases hd with hd | hd
  · have e1 : rd (((159154944 : ℤ) : ℚ) + 1) = 159154944 := by
      have := hd.eq_of_close (x := ((159154944 : ℤ) : ℚ) + 1) (n := 9947184) (e := 4) (by norm_num [f32])
        (by norm_num [f32]) (Or.inr (by norm_num [f32])) (by rw [abs_lt]; constructor <;> norm_num)
      rw [this]; norm_num
    have e2 : rd (159154944 * kTwoPi) = 1000000064 := by
      have := hd.eq_of_close (x := 159154944 * kTwoPi) (n := 15625001) (e := 6) (by norm_num [f32])
        (by norm_num [f32]) (Or.inr (by norm_num [f32])) (by rw [abs_lt]; unfold kTwoPi; constructor <;> norm_num)
      rw [this]; norm_num
    have e3 : rd (1000000000 - 1000000064) = -64 := by
      have h64 : (1000000000 - 1000000064 : ℚ) = ((-64 : ℤ) : ℚ) := by norm_num
      rw [h64, hd.exact (mint (-64) (by norm_num))]; norm_num
    have e4 : rnd (-64) = -64 := by
      have := h.exact (mint (-64) (by norm_num))
      norm_num at this; exact this
    refine key (-64) ?_ (by norm_num)
    rw [e1, e2, e3, e4]
  · have e1 : rd (((159154944 : ℤ) : ℚ) + 1) = 159154945 := by
      have hh : ((159154944 : ℤ) : ℚ) + 1 = ((159154945 : ℤ) : ℚ) := by norm_num
      rw [hh, hd.exact (mem_int (by norm_num [f64]) (by norm_num [f64]))]; norm_num
    have e2 : rd (159154945 * kTwoPi) = 159154945 * kTwoPi :=
      hd.exact ⟨2097152083501275, -21, by norm_num [f64], by norm_num [f64], by norm_num [kTwoPi]⟩
    have e3 : rd (1000000000 - 159154945 * kTwoPi) = 1000000000 - 159154945 * kTwoPi :=
      hd.exact ⟨-83501275, -21, by norm_num [f64], by norm_num [f64], by norm_num [kTwoPi]⟩
    refine key _ ?_ (h.le_of_le (mint (-39) (by norm_num)) (x := 1000000000 - 159154945 * kTwoPi) ?_)
    · rw [e1, e2, e3]
    · norm_num [kTwoPi]

/-- **C82**: `Clamp` succeeds on every angle, center and `max_diff >= 0`: the result is a valid angle that is the center
plus a difference of at most `max_diff`, up to `2 ^ -22`; if the difference between angle and center is within
`max_diff`, the result is the angle up to `2 ^ -21`. -/
theorem C82_clamp (h : Nearest f32 rnd) {a center maxDiff : ℚ} (ha : IsAngle a) (hc : IsAngle center)
    (hm : IsAngle maxDiff) (h0 : 0 ≤ maxDiff) :
    ∃ r, clamp rnd a center maxDiff = some r ∧ IsAngle r ∧
      (∃ c, |c| ≤ maxDiff ∧ CongruentWithin (1 / 2 ^ 22) r (center + c)) ∧
      (∀ d, sub rnd a center = some d → |d| ≤ maxDiff → CongruentWithin (1 / 2 ^ 21) r a) := by
  obtain ⟨d, hd, hda, hdc, -⟩ := (C81_add_sub h ha hc).2
  have hcl : IsAngle (max (-maxDiff) (min d maxDiff)) := by
    refine ⟨?_, ?_, ?_⟩
    · rcases max_choice (-maxDiff) (min d maxDiff) with e | e <;> rw [e]
      · exact mem_neg hm.1
      · rcases min_choice d maxDiff with e | e <;> rw [e]
        · exact hda.1
        · exact hm.1
    · refine le_trans ?_ (le_max_right _ _)
      refine le_min hda.2.1 (le_trans (by norm_num [kMinUniqueAngle]) h0)
    · refine max_le ?_ ((min_le_right _ _).trans hm.2.2)
      refine le_trans (by linarith) (show (0 : ℚ) ≤ kPi by norm_num [kPi])
  obtain ⟨r, hr, hra, hrc, -⟩ := (C81_add_sub h hc hcl).1
  refine ⟨r, ?_, hra, ⟨_, ?_, hrc⟩, ?_⟩
  · unfold clamp
    rw [if_pos ⟨h0, hm.2.2⟩, hd]
    simp only [Option.bind_eq_bind, Option.bind_some]
    rw [mk, if_pos hcl.2, Option.bind_some, hr]
  · rw [abs_le]
    exact ⟨le_max_left _ _, max_le (by linarith) (min_le_right _ _)⟩
  · intro d' hd' hle
    rw [hd] at hd'
    injection hd' with hd'
    subst hd'
    rw [abs_le] at hle
    have e : max (-maxDiff) (min d maxDiff) = d := by
      rw [min_eq_left hle.2, max_eq_right hle.1]
    rw [e] at hrc
    obtain ⟨k, hk⟩ := hrc
    obtain ⟨l, hl⟩ := hdc
    refine ⟨k + l, ?_⟩
    have : r - (a + ((k + l : ℤ) : ℚ) * kTwoPi) =
        (r - (center + d + k * kTwoPi)) + (d - (a - center + l * kTwoPi)) := by push_cast; ring
    rw [this]
    refine (abs_add_le _ _).trans ((add_le_add hk hl).trans (by norm_num))

/-- **C82**: an angle within `max_diff` of the center is not always returned unchanged, in spite of the comment at the
end of `Clamp` ("if no clamping happened, we're left with *this"): `2 ^ -30` clamped to within `kPi` of 1 is 0. -/
theorem C82_clamp_changes (h : Nearest f32 rnd) :
    ∃ d, sub rnd (1 / 2 ^ 30) 1 = some d ∧ |d| ≤ kPi ∧ clamp rnd (1 / 2 ^ 30) 1 kPi = some 0 := by
  obtain ⟨a1, a2, a3, -, -⟩ := C81_not_associative h
  have hself : ∀ x, IsAngle x → modWithinThreePi rnd x = some x := by
    intro x hx
    have := (C81_laws h hx).2.1
    rwa [add, add_zero, h.exact hx.1] at this
  have e1 : rnd (1 / 2 ^ 30 - 1) = -1 := by
    have hlo := h.ge_of_ge a3.1 (show (-1 : ℚ) ≤ 1 / 2 ^ 30 - 1 by norm_num)
    have hn := h.near (1 / 2 ^ 30 - 1) (-1) a3.1
    have e : (-1 : ℚ) - (1 / 2 ^ 30 - 1) = -(1 / 2 ^ 30) := by ring
    rw [e, abs_neg, abs_of_pos (show (0 : ℚ) < 1 / 2 ^ 30 by norm_num), abs_le] at hn
    by_contra hne
    have hgt : -1 < rnd (1 / 2 ^ 30 - 1) := lt_of_le_of_ne hlo (Ne.symm hne)
    have hub : rnd (1 / 2 ^ 30 - 1) ≤ -1 + 1 / 2 ^ 29 := by
      have := hn.2
      norm_num at this ⊢; linarith
    obtain ⟨n, hn'⟩ := multiple_of_large (k := -1) (h.mem (1 / 2 ^ 30 - 1)) (by
      rw [abs_of_neg (lt_of_le_of_lt hub (by norm_num))]; norm_num at hub ⊢; linarith)
    rw [hn'] at hgt hub
    norm_num at hgt hub
    have h1 : (-16777216 : ℚ) < n := by linarith
    have h1' : (-16777216 : ℤ) < n := by exact_mod_cast h1
    have h2 : (n : ℚ) < -16777215 := by linarith
    have h2' : n < (-16777215 : ℤ) := by exact_mod_cast h2
    omega
  have hs : sub rnd (1 / 2 ^ 30) 1 = some (-1) := by rw [sub, e1, hself _ a3]
  refine ⟨-1, hs, by norm_num [kPi], ?_⟩
  have hcl : max (-kPi) (min (-1) kPi) = -1 := by
    rw [min_eq_left (by norm_num [kPi]), max_eq_right (by norm_num [kPi])]
  unfold clamp
  rw [if_pos ⟨by norm_num [kPi], le_rfl⟩, hs]
  simp only [Option.bind_eq_bind, Option.bind_some]
  rw [hcl, mk, if_pos a3.2, Option.bind_some, add, add_neg_cancel, h.zero, hself 0 isAngle_zero]

/-- The hypotheses hold for the IEEE rounding functions of `float` and `double`, and for example for 100 radians. -/
example : Nearest f32 (rne f32) ∧ Nearest f64 (rne f64) ∧ NearestEven f32 (rne f32) ∧
    ∃ r, fromRadians (rne f32) (rne f64) 100 = some r ∧ IsAngle r ∧ CongruentWithin (2 ^ (-17 : ℤ) + 1 / 2 ^ 20) r 100 :=
  ⟨rne_nearest _, rne_nearest _, rne_even _ (by norm_num [f32]),
    C82_from_radians (rne_nearest f32) (rne_nearest f64) wide_f64 (j := 7) (by norm_num) (by norm_num) (by norm_num)⟩

end Motive.Float.Angle
