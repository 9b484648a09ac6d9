import Verif.Float.Basic
import Mathlib.Analysis.Real.Pi.Bounds

/-!
# `Angle` in single precision (C81)

`Verif/Math/Angle.lean` models `Angle` (include/motive/math/angle.h) in exact arithmetic.  Here every operation is
rounded as the code rounds it, and the constants are the floats of the source.  `rnd` is the rounding to `float`.
`WrapAngle` calls an unqualified `floor`, which is the `float` overload or the `double` function of the C library,
depending on the headers; `rd` is the rounding of the arithmetic after it, and the theorems hold for both.

Not modelled: overflow, NaN, the sign of zero, fused multiply-add, and x87 excess precision.
-/

namespace Motive.Float.Angle

/-! ### Model -/

/-- `kPi`, `kMaxUniqueAngle` (angle.h:53, 60). -/
def kPi : ℚ := 13176795 / 2 ^ 22
/-- `kTwoPi` (angle.h:54). -/
def kTwoPi : ℚ := 13176795 / 2 ^ 21
/-- `kThreePi` (angle.h:55). -/
def kThreePi : ℚ := 9882596 / 2 ^ 20
/-- `kDegreesToRadians` (angle.h:58). -/
def kDegreesToRadians : ℚ := 9370165 / 2 ^ 29
/-- `kMinUniqueAngle` (angle.h:73), the literal `-3.1415925f`. -/
def kMinUniqueAngle : ℚ := -(13176794 / 2 ^ 22)

/-- `IsAngleInRange` / `IsValid` (angle.h:404-406, 313). -/
def Valid (a : ℚ) : Prop := kMinUniqueAngle ≤ a ∧ a ≤ kPi
instance (a : ℚ) : Decidable (Valid a) := inferInstanceAs (Decidable (_ ∧ _))

/-- `Angle(float)` (angle.h:106) with its assertion. -/
def mk (a : ℚ) : Option ℚ := if Valid a then some a else none

section Model
variable (rnd rd : ℚ → ℚ)

/-- `ModWithinThreePi` (angle.h:432-440) with its two assertions. -/
def modWithinThreePi (angle : ℚ) : Option ℚ :=
  if -kThreePi < angle ∧ angle < kThreePi then
    let above := if angle < kMinUniqueAngle then rnd (angle + kTwoPi) else angle
    let below := if kPi < above then rnd (above - kTwoPi) else above
    if Valid below then some below else none
  else none

/-- `ModIfNegativePi` (angle.h:442-445). -/
def modIfNegativePi (angle : ℚ) : ℚ := if angle < kMinUniqueAngle then kPi else angle

/-- `WrapAngle` (angle.h:322-328). -/
def wrapAngle (angle : ℚ) : ℚ :=
  let angle := rnd (rd (angle - rd (rd ((⌊rnd (angle / kTwoPi)⌋ : ℚ) + 1) * kTwoPi)))
  if angle ≤ -kPi then rnd (angle + kTwoPi) else angle

/-- `operator+=`, `operator+` (angle.h:117-120, 447-450). -/
def add (a b : ℚ) : Option ℚ := modWithinThreePi rnd (rnd (a + b))
/-- `operator-=`, `operator-` (angle.h:123-126, 452-455). -/
def sub (a b : ℚ) : Option ℚ := modWithinThreePi rnd (rnd (a - b))
/-- unary `operator-` (angle.h:141). -/
def neg (a : ℚ) : Option ℚ := mk (modIfNegativePi (-a))
/-- `Abs` (angle.h:109). -/
def abs (a : ℚ) : Option ℚ := mk |a|
/-- `operator*=` (angle.h:129-132); the result is stored without a check. -/
def mul (a r : ℚ) : ℚ := wrapAngle rnd rd (rnd (a * r))
/-- `operator/=` (angle.h:135-138); division by zero gives an infinity or a NaN, which is outside of the model. -/
def div (a r : ℚ) : Option ℚ := if r = 0 then none else some (wrapAngle rnd rd (rnd (a / r)))
/-- `FromWithinThreePi` (angle.h:336-338). -/
def fromWithinThreePi (a : ℚ) : Option ℚ := (modWithinThreePi rnd a).bind mk
/-- `FromRadians` (angle.h:341-343). -/
def fromRadians (a : ℚ) : Option ℚ := mk (wrapAngle rnd rd a)
/-- `FromDegrees` (angle.h:346-348). -/
def fromDegrees (d : ℚ) : Option ℚ := fromRadians rnd rd (rnd (d * kDegreesToRadians))

/-- `Clamp` (angle.h:494-508) with its assertion; `mathfu::Clamp(x, lo, hi) = max(lo, min(x, hi))`. -/
def clamp (a center maxDiff : ℚ) : Option ℚ :=
  if 0 ≤ maxDiff ∧ maxDiff ≤ kPi then do
    let diff ← sub rnd a center
    let diffClamped ← mk (max (-maxDiff) (min diff maxDiff))
    add rnd center diffClamped
  else none

end Model

/-! ### The constants -/

theorem mem_kPi : f32.Mem kPi := ⟨13176795, -22, by norm_num [f32], by norm_num [f32], by norm_num [kPi]⟩
theorem mem_kTwoPi : f32.Mem kTwoPi := ⟨13176795, -21, by norm_num [f32], by norm_num [f32], by norm_num [kTwoPi]⟩
theorem mem_kThreePi : f32.Mem kThreePi :=
  ⟨9882596, -20, by norm_num [f32], by norm_num [f32], by norm_num [kThreePi]⟩
theorem mem_kMin : f32.Mem kMinUniqueAngle :=
  ⟨-13176794, -22, by norm_num [f32], by norm_num [f32], by norm_num [kMinUniqueAngle]⟩

/-- Floats of magnitude at least 2 are multiples of `2 ^ -22`. -/
theorem multiple_of_large {x : ℚ} (hx : f32.Mem x) {k : ℤ} (h : 2 ^ k ≤ |x|) :
    ∃ n : ℤ, x = n * 2 ^ (k - 23) := by
  obtain ⟨m, e, hm, he, rfl⟩ := hx
  have hle : k - 23 ≤ e := by
    by_contra hc
    push Not at hc
    have hm' : |(m : ℚ)| < 2 ^ 24 := by
      have h3 : ((|m| : ℤ) : ℚ) < ((2 ^ 24 : ℤ) : ℚ) := by exact_mod_cast hm
      push_cast at h3; exact h3
    rw [abs_mul, abs_of_pos (two_zpow_pos e)] at h
    have h2 : (2 : ℚ) ^ e ≤ 2 ^ (k - 24) := zpow_le_zpow_right₀ (by norm_num) (by omega)
    have h3 : (2 : ℚ) ^ k = 2 ^ 24 * 2 ^ (k - 24) := by
      have : k = 24 + (k - 24) := by ring
      conv_lhs => rw [this, zpow_split]
      norm_num
    have h4 := two_zpow_pos e
    have h5 : |(m : ℚ)| * 2 ^ e < 2 ^ 24 * 2 ^ (k - 24) := mul_lt_mul hm' h2 h4 (by norm_num)
    linarith
  obtain ⟨n, hn⟩ := rescale m hle
  exact ⟨n, hn⟩

/-- There is no float strictly between `-kPi` and `kMinUniqueAngle`. -/
theorem no_float_between {x : ℚ} (hx : f32.Mem x) (h : -kPi < x) : kMinUniqueAngle ≤ x := by
  by_contra hc
  push Not at hc
  have habs : (2 : ℚ) ^ (1 : ℤ) ≤ |x| := by
    rw [abs_of_neg (by unfold kMinUniqueAngle at hc; linarith)]
    unfold kMinUniqueAngle at hc
    norm_num at hc ⊢; linarith
  obtain ⟨n, rfl⟩ := multiple_of_large hx habs
  unfold kMinUniqueAngle at hc
  unfold kPi at h
  norm_num at h hc
  have h1 : (-13176795 : ℚ) < n := by linarith
  have h2 : (n : ℚ) < -13176794 := by linarith
  have h1' : (-13176795 : ℤ) < n := by exact_mod_cast h1
  have h2' : n < -13176794 := by exact_mod_cast h2
  omega

/-- The next float after `kMinUniqueAngle` downwards is `-kPi`. -/
theorem le_neg_pi {x : ℚ} (hx : f32.Mem x) (h : x < kMinUniqueAngle) : x ≤ -kPi := by
  by_contra hc
  push Not at hc
  exact absurd (no_float_between hx hc) (not_le.mpr h)

/-- `kTwoPi` is twice `kPi`. -/
theorem kTwoPi_eq : kTwoPi = 2 * kPi := by norm_num [kTwoPi, kPi]

/-! ### Wrapping without division -/

variable {rnd rd : ℚ → ℚ}

/-- Adding or subtracting `kTwoPi` is exact where `ModWithinThreePi` does it, and its assertions hold. -/
theorem modWithinThreePi_spec (h : Nearest f32 rnd) {x : ℚ} (hx : f32.Mem x) (hlo : -kThreePi < x)
    (hhi : x < kThreePi) : ∃ r k : ℚ, modWithinThreePi rnd x = some r ∧ f32.Mem r ∧ Valid r ∧
      (k = 0 ∨ k = 1 ∨ k = -1) ∧ r = x + k * kTwoPi ∧ (Valid x → r = x) := by
  have hmin : kMinUniqueAngle = -kPi + 1 / 2 ^ 22 := by norm_num [kMinUniqueAngle, kPi]
  have h3 : kThreePi = 3 * kPi - 1 / 2 ^ 22 := by norm_num [kThreePi, kPi]
  have hpi : (3 : ℚ) < kPi := by norm_num [kPi]
  unfold modWithinThreePi
  rw [if_pos ⟨hlo, hhi⟩]
  by_cases h1 : x < kMinUniqueAngle
  · have h1' := le_neg_pi hx h1
    have hm : f32.Mem (x + kTwoPi) := by
      have := sterbenz mem_kTwoPi (mem_neg hx) (by rw [kTwoPi_eq]; linarith) (by rw [kTwoPi_eq]; linarith)
      rwa [sub_neg_eq_add, add_comm] at this
    have e1 : rnd (x + kTwoPi) = x + kTwoPi := h.exact hm
    have hv : Valid (x + kTwoPi) := by
      constructor <;> rw [kTwoPi_eq] <;> linarith
    simp only [if_pos h1, e1]
    rw [if_neg (not_lt.mpr hv.2), if_pos hv]
    refine ⟨_, 1, rfl, hm, hv, by norm_num, by ring, fun hx' => absurd hx'.1 (not_le.mpr h1)⟩
  · push Not at h1
    simp only [if_neg (not_lt.mpr h1)]
    by_cases h2 : kPi < x
    · have hm : f32.Mem (x - kTwoPi) :=
        sterbenz hx mem_kTwoPi (by rw [kTwoPi_eq]; linarith) (by rw [kTwoPi_eq]; linarith)
      have e1 : rnd (x - kTwoPi) = x - kTwoPi := h.exact hm
      have hv : Valid (x - kTwoPi) := by
        refine ⟨no_float_between hm ?_, ?_⟩ <;> rw [kTwoPi_eq] <;> linarith
      simp only [if_pos h2, e1]
      rw [if_pos hv]
      exact ⟨_, -1, rfl, hm, hv, by norm_num, by ring, fun hx' => absurd hx'.2 (not_le.mpr h2)⟩
    · push Not at h2
      have hv : Valid x := ⟨h1, h2⟩
      simp only [if_neg (not_lt.mpr h2)]
      rw [if_pos hv]
      exact ⟨x, 0, rfl, hx, hv, by norm_num, by ring, fun _ => rfl⟩

/-- The rounded sum of two valid angles is within the bounds of `ModWithinThreePi`, and within `2 ^ -22` of the sum. -/
theorem sum_bounds (h : Nearest f32 rnd) {s : ℚ} (hlo : -(2 * kPi) ≤ s) (hhi : s ≤ 2 * kPi) :
    f32.Mem (rnd s) ∧ -kThreePi < rnd s ∧ rnd s < kThreePi ∧ |rnd s - s| ≤ 1 / 2 ^ 22 := by
  have h3 : kThreePi = 3 * kPi - 1 / 2 ^ 22 := by norm_num [kThreePi, kPi]
  have hpi : (3 : ℚ) < kPi := by norm_num [kPi]
  have hpi' : kPi < 4 := by norm_num [kPi]
  have m2 : f32.Mem (2 * kPi) := by rw [← kTwoPi_eq]; exact mem_kTwoPi
  refine ⟨h.mem s, ?_, ?_, ?_⟩
  · have := h.ge_of_ge (mem_neg m2) hlo
    linarith
  · have := h.le_of_le m2 hhi
    linarith
  · have := h.err (x := s) (k := 3) (by norm_num [f32]) (by rw [abs_le]; norm_num; constructor <;> linarith)
    norm_num [f32] at this ⊢
    exact this

theorem valid_bounds {a : ℚ} (h : Valid a) : -kPi < a ∧ a ≤ kPi :=
  ⟨lt_of_lt_of_le (by norm_num [kPi, kMinUniqueAngle]) h.1, h.2⟩

/-! ### Statements -/

/-- A float that is a valid angle. -/
def IsAngle (a : ℚ) : Prop := f32.Mem a ∧ Valid a

/-- `a` and `b` differ by a whole number of turns of `kTwoPi`, up to `eps`. -/
def CongruentWithin (eps a b : ℚ) : Prop := ∃ k : ℤ, |a - (b + k * kTwoPi)| ≤ eps

theorem wrapped_sum (h : Nearest f32 rnd) {s : ℚ} (hlo : -(2 * kPi) ≤ s) (hhi : s ≤ 2 * kPi) :
    ∃ r, modWithinThreePi rnd (rnd s) = some r ∧ IsAngle r ∧ CongruentWithin (1 / 2 ^ 22) r s ∧
      CongruentWithin 0 r (rnd s) ∧ (Valid (rnd s) → r = rnd s) := by
  obtain ⟨hm, h1, h2, h3⟩ := sum_bounds h hlo hhi
  obtain ⟨r, k, hr, hmr, hv, hk, he, hs⟩ := modWithinThreePi_spec h hm h1 h2
  obtain ⟨z, hz⟩ : ∃ z : ℤ, (z : ℚ) = k := by
    rcases hk with rfl | rfl | rfl
    · exact ⟨0, by norm_num⟩
    · exact ⟨1, by norm_num⟩
    · exact ⟨-1, by norm_num⟩
  refine ⟨r, hr, ⟨hmr, hv⟩, ⟨z, ?_⟩, ⟨z, ?_⟩, hs⟩
  · rw [he, hz]
    have : rnd s + k * kTwoPi - (s + k * kTwoPi) = rnd s - s := by ring
    rw [this]; exact h3
  · rw [he, hz]; simp

/-- **C81**: in single precision, with any rounding to nearest, sums and differences of angles are angles: no
assertion fails, the result is a float in `[kMinUniqueAngle, kPi]`, and it is congruent modulo `kTwoPi` to the sum or
difference up to `2 ^ -22`, which is the error of the one rounded addition; the wrapping itself adds no error. -/
theorem C81_add_sub (h : Nearest f32 rnd) {a b : ℚ} (ha : IsAngle a) (hb : IsAngle b) :
    (∃ r, add rnd a b = some r ∧ IsAngle r ∧ CongruentWithin (1 / 2 ^ 22) r (a + b) ∧
      CongruentWithin 0 r (rnd (a + b))) ∧
    (∃ r, sub rnd a b = some r ∧ IsAngle r ∧ CongruentWithin (1 / 2 ^ 22) r (a - b) ∧
      CongruentWithin 0 r (rnd (a - b))) := by
  obtain ⟨a1, a2⟩ := valid_bounds ha.2
  obtain ⟨b1, b2⟩ := valid_bounds hb.2
  constructor
  · obtain ⟨r, h1, h2, h3, h4, -⟩ := wrapped_sum h (s := a + b) (by linarith) (by linarith)
    exact ⟨r, h1, h2, h3, h4⟩
  · obtain ⟨r, h1, h2, h3, h4, -⟩ := wrapped_sum h (s := a - b) (by linarith) (by linarith)
    exact ⟨r, h1, h2, h3, h4⟩

theorem isAngle_zero : IsAngle 0 := ⟨mem_zero, by norm_num [Valid, kMinUniqueAngle, kPi]⟩
theorem isAngle_pi : IsAngle kPi := ⟨mem_kPi, by norm_num [Valid, kMinUniqueAngle, kPi]⟩
theorem isAngle_min : IsAngle kMinUniqueAngle := ⟨mem_kMin, by norm_num [Valid, kMinUniqueAngle, kPi]⟩

theorem neg_spec {a : ℚ} (ha : IsAngle a) : ∃ r, neg a = some r ∧ IsAngle r ∧ (r = -a ∨ (a = kPi ∧ r = kPi)) := by
  unfold neg modIfNegativePi
  by_cases h : -a < kMinUniqueAngle
  · rw [if_pos h]
    have h1 := le_neg_pi (mem_neg ha.1) h
    have h2 : a = kPi := le_antisymm ha.2.2 (by linarith)
    refine ⟨kPi, by rw [mk, if_pos isAngle_pi.2], isAngle_pi, Or.inr ⟨h2, rfl⟩⟩
  · rw [if_neg h]
    push Not at h
    have hv : Valid (-a) := ⟨h, by have := (valid_bounds ha.2).1; linarith⟩
    exact ⟨-a, by rw [mk, if_pos hv], ⟨mem_neg ha.1, hv⟩, Or.inl rfl⟩

/-- **C81**: the laws that survive rounding: addition commutes, 0 is neutral, an angle minus itself is 0, adding the
negated angle is subtraction, negation is its own inverse, `Abs` succeeds. -/
theorem C81_laws (h : Nearest f32 rnd) {a : ℚ} (ha : IsAngle a) :
    (∀ b, add rnd a b = add rnd b a) ∧ add rnd a 0 = some a ∧ sub rnd a 0 = some a ∧ sub rnd a a = some 0 ∧
    (∃ n, neg a = some n ∧ IsAngle n ∧ neg n = some a ∧ add rnd a n = some 0) ∧
    abs a = some |a| ∧ IsAngle |a| ∧ fromWithinThreePi rnd a = some a := by
  have hself : ∀ x, IsAngle x → modWithinThreePi rnd x = some x := by
    intro x hx
    obtain ⟨x1, x2⟩ := valid_bounds hx.2
    have h3 : kThreePi = 3 * kPi - 1 / 2 ^ 22 := by norm_num [kThreePi, kPi]
    have hpi : (3 : ℚ) < kPi := by norm_num [kPi]
    obtain ⟨r, k, hr, -, -, -, -, hs⟩ := modWithinThreePi_spec h hx.1 (by linarith) (by linarith)
    rw [hr, hs hx.2]
  have habs : IsAngle |a| := by
    obtain ⟨x1, x2⟩ := valid_bounds ha.2
    refine ⟨mem_abs ha.1, ?_, abs_le.mpr ⟨x1.le, x2⟩⟩
    exact le_trans (by norm_num [kMinUniqueAngle]) (abs_nonneg a)
  refine ⟨fun b => by rw [add, add, add_comm], ?_, ?_, ?_, ?_, ?_, habs, ?_⟩
  · rw [add, add_zero, h.exact ha.1, hself a ha]
  · rw [sub, sub_zero, h.exact ha.1, hself a ha]
  · rw [sub, sub_self, h.zero, hself 0 isAngle_zero]
  · obtain ⟨n, hn, hna, hc⟩ := neg_spec ha
    refine ⟨n, hn, hna, ?_, ?_⟩
    · rcases hc with rfl | ⟨h1, rfl⟩
      · obtain ⟨m, hm, hma, hc⟩ := neg_spec hna
        rcases hc with rfl | ⟨h2, h3⟩
        · rw [hm, neg_neg]
        · exfalso
          have := (valid_bounds ha.2).1
          linarith
      · rw [h1] at hn; rw [hn, h1]
    · rcases hc with rfl | ⟨h1, rfl⟩
      · rw [add, add_neg_cancel, h.zero, hself 0 isAngle_zero]
      · subst h1
        have : kPi + kPi = kTwoPi := by rw [kTwoPi_eq]; ring
        rw [add, this, h.exact mem_kTwoPi]
        have e0 : rnd (kTwoPi - kTwoPi) = 0 := by rw [sub_self]; exact h.zero
        unfold modWithinThreePi
        rw [if_pos (by norm_num [kThreePi, kTwoPi])]
        have hn : ¬ kTwoPi < kMinUniqueAngle := by norm_num [kTwoPi, kMinUniqueAngle]
        have hp : kPi < kTwoPi := by norm_num [kPi, kTwoPi]
        simp only [if_neg hn, if_pos hp, e0]
        rw [if_pos isAngle_zero.2]
  · rw [abs, mk, if_pos habs.2]
  · rw [fromWithinThreePi, hself a ha, Option.bind_some, mk, if_pos ha.2]

/-- **C81**: the constants.  `kPi` is the float nearest to π: floats near it are `2 ^ -22` apart, and it is within half
of that.  `kMinUniqueAngle` is the float after `-kPi`.  A turn of `kTwoPi` is twice `kPi` and within `2 ^ -22` of a
full turn. -/
theorem C81_constants : f32.Mem kPi ∧ |(kPi : ℝ) - Real.pi| < 1 / 2 ^ 23 ∧ |(kTwoPi : ℝ) - 2 * Real.pi| < 1 / 2 ^ 22 ∧
    (∀ x, f32.Mem x → -kPi < x → kMinUniqueAngle ≤ x) ∧ -kPi < kMinUniqueAngle ∧
    (∀ x, f32.Mem x → (Valid x ↔ -kPi < x ∧ x ≤ kPi)) := by
  have h1 := Real.pi_gt_d20
  have h2 := Real.pi_lt_d20
  refine ⟨mem_kPi, ?_, ?_, fun x hx h => no_float_between hx h, by norm_num [kPi, kMinUniqueAngle],
    fun x hx => ⟨valid_bounds, fun h => ⟨no_float_between hx h.1, h.2⟩⟩⟩
  · rw [abs_lt]
    unfold kPi
    push_cast
    constructor <;> norm_num <;> linarith
  · rw [abs_lt]
    unfold kTwoPi
    push_cast
    constructor <;> norm_num <;> linarith

/-- Two floats have a rounded difference of 0 only if they are equal (subnormal numbers are used). -/
theorem rnd_sub_ne_zero (h : Nearest f32 rnd) {a b : ℚ} (ha : f32.Mem a) (hb : f32.Mem b) (hr : rnd (a - b) = 0) :
    a = b := by
  obtain ⟨m, e, -, he, rfl⟩ := ha
  obtain ⟨n, f, -, hf, rfl⟩ := hb
  obtain ⟨k, hk⟩ := rescale m he
  obtain ⟨l, hl⟩ := rescale n hf
  rw [hk, hl, ← sub_mul] at hr
  rw [hk, hl]
  by_contra hne
  have hkl : k ≠ l := fun hc => hne (by rw [hc])
  have hpos := two_zpow_pos f32.emin
  have hm1 := mem_zpow (F := f32) (e := f32.emin) le_rfl
  rcases lt_or_gt_of_ne hkl with hlt | hlt
  · have h1 : ((k : ℚ) - l) * 2 ^ f32.emin ≤ -2 ^ f32.emin := by
      have : (k : ℚ) - l ≤ -1 := by
        have : k - l ≤ -1 := by omega
        exact_mod_cast this
      nlinarith
    have := h.le_of_le (mem_neg hm1) h1
    rw [hr] at this; linarith
  · have h1 : (2 : ℚ) ^ f32.emin ≤ ((k : ℚ) - l) * 2 ^ f32.emin := by
      have : (1 : ℚ) ≤ (k : ℚ) - l := by
        have : 1 ≤ k - l := by omega
        exact_mod_cast this
      nlinarith
    have := h.ge_of_ge hm1 h1
    rw [hr] at this; linarith

/-- **C81**: with IEEE rounding, the difference of two angles is 0 only for equal angles, so comparing angles and
comparing their difference with 0 agree. -/
theorem C81_sub_zero (h : NearestEven f32 rnd) {a b : ℚ} (ha : IsAngle a) (hb : IsAngle b) :
    sub rnd a b = some 0 ↔ a = b := by
  constructor
  · intro hs
    have hn := h.toNearest
    obtain ⟨a1, a2⟩ := valid_bounds ha.2
    obtain ⟨b1, b2⟩ := valid_bounds hb.2
    -- the largest difference is half way between two floats and is rounded down
    have hmax : rnd (kPi - kMinUniqueAngle) ≤ 13176794 / 2 ^ 21 := by
      by_contra hc
      push Not at hc
      have hle : rnd (kPi - kMinUniqueAngle) ≤ kTwoPi := by
        refine hn.le_of_le mem_kTwoPi ?_
        norm_num [kPi, kMinUniqueAngle, kTwoPi]
      have hge : kTwoPi ≤ rnd (kPi - kMinUniqueAngle) := by
        obtain ⟨n, hn'⟩ := multiple_of_large (k := 2) (hn.mem (kPi - kMinUniqueAngle)) (by
          rw [abs_of_pos (lt_trans (by norm_num) hc)]
          exact le_trans (by norm_num) hc.le)
        rw [hn'] at hc ⊢
        unfold kTwoPi
        norm_num at hc ⊢
        have h1 : (13176794 : ℚ) < n := by linarith
        have h1' : (13176794 : ℤ) < n := by exact_mod_cast h1
        have h2 : (13176795 : ℚ) ≤ n := by
          have : (13176795 : ℤ) ≤ n := by omega
          exact_mod_cast this
        linarith
      have heq : rnd (kPi - kMinUniqueAngle) = kTwoPi := le_antisymm hle hge
      have := h.even (kPi - kMinUniqueAngle) (13176794 / 2 ^ 21) 13176795 (-21)
        ⟨13176794, -21, by norm_num [f32], by norm_num [f32], by norm_num⟩
        (by rw [heq]; norm_num [kTwoPi]) (by rw [heq]; norm_num [kPi, kMinUniqueAngle, kTwoPi, abs_div])
        (by rw [heq]; norm_num [kTwoPi]) (by norm_num [f32]) (by norm_num [f32])
        (Or.inr (by norm_num [f32]))
      norm_num at this
    have hmin : -(13176794 / 2 ^ 21) ≤ rnd (kMinUniqueAngle - kPi) := by
      by_contra hc
      push Not at hc
      have hle : -kTwoPi ≤ rnd (kMinUniqueAngle - kPi) := by
        refine hn.ge_of_ge (mem_neg mem_kTwoPi) ?_
        norm_num [kPi, kMinUniqueAngle, kTwoPi]
      have hge : rnd (kMinUniqueAngle - kPi) ≤ -kTwoPi := by
        obtain ⟨n, hn'⟩ := multiple_of_large (k := 2) (hn.mem (kMinUniqueAngle - kPi)) (by
          rw [abs_of_neg (lt_trans hc (by norm_num))]
          norm_num at hc ⊢; linarith)
        rw [hn'] at hc ⊢
        unfold kTwoPi
        norm_num at hc ⊢
        have h1 : (n : ℚ) < -13176794 := by linarith
        have h1' : n < (-13176794 : ℤ) := by exact_mod_cast h1
        have h2 : (n : ℚ) ≤ -13176795 := by
          have : n ≤ (-13176795 : ℤ) := by omega
          exact_mod_cast this
        linarith
      have heq : rnd (kMinUniqueAngle - kPi) = -kTwoPi := le_antisymm hge hle
      have := h.even (kMinUniqueAngle - kPi) (-(13176794 / 2 ^ 21)) (-13176795) (-21)
        (mem_neg ⟨13176794, -21, by norm_num [f32], by norm_num [f32], by norm_num⟩)
        (by rw [heq]; norm_num [kTwoPi]) (by rw [heq]; norm_num [kPi, kMinUniqueAngle, kTwoPi, abs_div])
        (by rw [heq]; norm_num [kTwoPi]) (by norm_num [f32]) (by norm_num [f32])
        (Or.inr (by norm_num [f32]))
      norm_num at this
    have hub : rnd (a - b) < kTwoPi := by
      have := hn.mono (show a - b ≤ kPi - kMinUniqueAngle by linarith [hb.2.1, ha.2.2])
      refine lt_of_le_of_lt (this.trans hmax) (by norm_num [kTwoPi])
    have hlb : -kTwoPi < rnd (a - b) := by
      have := hn.mono (show kMinUniqueAngle - kPi ≤ a - b by linarith [hb.2.2, ha.2.1])
      refine lt_of_lt_of_le (by norm_num [kTwoPi]) (hmin.trans this)
    obtain ⟨hm, h1, h2, -⟩ := sum_bounds hn (s := a - b) (by linarith) (by linarith)
    obtain ⟨r, k, hr, -, -, hk, he, -⟩ := modWithinThreePi_spec hn hm h1 h2
    rw [sub, hr] at hs
    have hr0 : r = 0 := by injection hs
    refine rnd_sub_ne_zero hn ha.1 hb.1 ?_
    rcases hk with rfl | rfl | rfl <;> linarith
  · rintro rfl
    exact (C81_laws h.toNearest ha).2.2.2.1

/-- **C81**: addition of angles is not associative in single precision: `(2 ^ -30 + 1) + (-1)` is 0 and
`2 ^ -30 + (1 + (-1))` is `2 ^ -30`. -/
theorem C81_not_associative (h : Nearest f32 rnd) :
    IsAngle (1 / 2 ^ 30) ∧ IsAngle 1 ∧ IsAngle (-1) ∧
    (add rnd (1 / 2 ^ 30) 1).bind (add rnd · (-1)) = some 0 ∧
    (add rnd 1 (-1)).bind (add rnd (1 / 2 ^ 30)) = some (1 / 2 ^ 30) := by
  have a1 : IsAngle (1 / 2 ^ 30) := ⟨⟨1, -30, by norm_num [f32], by norm_num [f32], by norm_num⟩,
    by norm_num [Valid, kMinUniqueAngle, kPi]⟩
  have a2 : IsAngle 1 := ⟨⟨1, 0, by norm_num [f32], by norm_num [f32], by norm_num⟩,
    by norm_num [Valid, kMinUniqueAngle, kPi]⟩
  have a3 : IsAngle (-1) := ⟨⟨-1, 0, by norm_num [f32], by norm_num [f32], by norm_num⟩,
    by norm_num [Valid, kMinUniqueAngle, kPi]⟩
  have hself : ∀ x, IsAngle x → modWithinThreePi rnd x = some x := by
    intro x hx
    have := (C81_laws h hx).2.1
    rwa [add, add_zero, h.exact hx.1] at this
  refine ⟨a1, a2, a3, ?_, ?_⟩
  · have e1 : rnd (1 / 2 ^ 30 + 1) = 1 := by
      have hlo := h.ge_of_ge a2.1 (show (1 : ℚ) ≤ 1 / 2 ^ 30 + 1 by norm_num)
      have hn := h.near (1 / 2 ^ 30 + 1) 1 a2.1
      by_contra hne
      have hgt : 1 < rnd (1 / 2 ^ 30 + 1) := lt_of_le_of_ne hlo (Ne.symm hne)
      obtain ⟨n, hn'⟩ := multiple_of_large (k := 0) (h.mem (1 / 2 ^ 30 + 1)) (by
        rw [abs_of_pos (by linarith)]; norm_num; linarith)
      have : rnd (1 / 2 ^ 30 + 1) ≥ 1 + 1 / 2 ^ 23 := by
        rw [hn'] at hgt ⊢
        norm_num at hgt ⊢
        have h1 : (8388608 : ℚ) < n := by linarith
        have h1' : (8388608 : ℤ) < n := by exact_mod_cast h1
        have h2 : (8388609 : ℚ) ≤ n := by
          have : (8388609 : ℤ) ≤ n := by omega
          exact_mod_cast this
        linarith
      rw [abs_of_nonneg (by norm_num at this ⊢; linarith)] at hn
      norm_num [abs_div] at hn this
      linarith
    rw [add, e1, hself 1 a2, Option.bind_some, add, add_neg_cancel, h.zero, hself 0 isAngle_zero]
  · rw [add, add_neg_cancel, h.zero, hself 0 isAngle_zero, Option.bind_some, add, add_zero, h.exact a1.1,
      hself _ a1]

end Motive.Float.Angle
