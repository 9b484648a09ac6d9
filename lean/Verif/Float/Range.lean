import Verif.Float.Basic
import Verif.Math.Range

/-!
# Modular arithmetic of `RangeT<float>` in single precision (C83)

`Verif/Math/Range.lean` models `RangeT` (include/motive/math/range.h) in exact arithmetic.  Here every operation of
`RangeT<float>` is rounded to `float` as the code rounds it.  `floor` is exact on floats.

Not modelled: overflow, NaN, the sign of zero, fused multiply-add, and x87 excess precision.
-/

namespace Motive.Float.Range

open Motive.Math (Range)

/-! ### Model -/

section Model
variable (rnd : ℚ → ℚ)

/-- `Length` (range.h:65). -/
def length (r : Range ℚ) : ℚ := rnd (r.stop - r.start)

/-- `ModularAdjustment` (range.h:175-179). -/
def modularAdjustment (r : Range ℚ) (x : ℚ) : ℚ :=
  if x ≤ r.start then length rnd r else if r.stop < x then -length rnd r else 0

/-- `Normalize` (range.h:107-111) with its assertion. -/
def normalize (r : Range ℚ) (x : ℚ) : Option ℚ :=
  let y := rnd (x + modularAdjustment rnd r x)
  if r.containsExclStart y then some y else none

/-- `NormalizeWildValue` (range.h:155-169) with its assertion; a zero length makes the quotient an infinity or NaN. -/
def normalizeWild (r : Range ℚ) (x : ℚ) : Option ℚ :=
  if length rnd r = 0 then none
  else
    let units := rnd (rnd (x - r.start) / length rnd r)
    let close := rnd (x - rnd ((⌊units⌋ : ℚ) * length rnd r))
    let y := rnd (close + modularAdjustment rnd r close)
    if r.containsExclStart y then some y else none

/-- The `do` loop of `NormalizeCloseValue` for values below (range.h:138-141); `num` is `num_adjustments`. -/
def closeBelow (r : Range ℚ) (num : Nat) (x : ℚ) : Option ℚ :=
  if 4 < num then normalizeWild rnd r (rnd (x + length rnd r))
  else if rnd (x + length rnd r) ≤ r.start then closeBelow r (num + 1) (rnd (x + length rnd r))
  else some (rnd (x + length rnd r))
termination_by 5 - num

/-- The `do` loop of `NormalizeCloseValue` for values above (range.h:144-147). -/
def closeAbove (r : Range ℚ) (num : Nat) (x : ℚ) : Option ℚ :=
  if 4 < num then normalizeWild rnd r (rnd (x - length rnd r))
  else if r.stop < rnd (x - length rnd r) then closeAbove r (num + 1) (rnd (x - length rnd r))
  else some (rnd (x - length rnd r))
termination_by 5 - num

/-- `NormalizeCloseValue` (range.h:123-150). -/
def normalizeClose (r : Range ℚ) (x : ℚ) : Option ℚ :=
  if ¬ x ≤ r.start ∧ ¬ r.stop < x then some x
  else if x ≤ r.start then closeBelow rnd r 0 x
  else closeAbove rnd r 0 x

/-- `ModDiffClose` (range.h:184). -/
def modDiffClose (r : Range ℚ) (a b : ℚ) : Option ℚ := normalize rnd r (rnd (b - a))

/-- `ModDiffFar` (range.h:187-191). -/
def modDiffFar (r : Range ℚ) (a b : ℚ) : Option ℚ :=
  (modDiffClose rnd r a b).map fun close =>
    if 0 ≤ close then rnd (close - length rnd r) else rnd (close + length rnd r)

/-- `ModDiffPositive` (range.h:195-199). -/
def modDiffPositive (r : Range ℚ) (a b : ℚ) : Option ℚ :=
  (modDiffClose rnd r a b).map fun close => if 0 ≤ close then close else rnd (close + length rnd r)

/-- `ModDiffNegative` (range.h:203-207). -/
def modDiffNegative (r : Range ℚ) (a b : ℚ) : Option ℚ :=
  (modDiffClose rnd r a b).map fun close => if 0 ≤ close then rnd (close - length rnd r) else close

/-- `mathfu::Lerp(start_, end_, percent)` (range.h:87-89): `(1 - p) * a + p * b`. -/
def lerp (r : Range ℚ) (p : ℚ) : ℚ := rnd (rnd (rnd (1 - p) * r.start) + rnd (p * r.stop))

/-- `Percent` (range.h:93). -/
def percent (r : Range ℚ) (x : ℚ) : Option ℚ :=
  if length rnd r = 0 then none else some (rnd (rnd (x - r.start) / length rnd r))

end Model

/-! ### Error of one rounding, relative to the value -/

variable {F : Fmt} {rnd : ℚ → ℚ}

theorem err_rel (h : Nearest F rnd) (x : ℚ) : |rnd x - x| ≤ |x| / 2 ^ F.p + 2 ^ (F.emin - 1) := by
  have hp : (0 : ℚ) < 2 ^ F.p := by positivity
  rcases le_or_gt |x| (2 ^ (F.emin + F.p)) with hs | hl
  · have := h.err (k := F.emin + F.p) (by omega) hs
    have e : F.emin + (F.p : ℤ) - F.p - 1 = F.emin - 1 := by ring
    rw [e] at this
    have h0 : 0 ≤ |x| / 2 ^ F.p := div_nonneg (abs_nonneg x) hp.le
    linarith
  · have hx0 : 0 < |x| := lt_trans (two_zpow_pos _) hl
    have h1 := Int.lt_zpow_succ_log_self (b := 2) (by norm_num) |x|
    have h2 := Int.zpow_log_le_self (b := 2) (by norm_num) hx0
    rw [Nat.cast_ofNat] at h1 h2
    have hlog : F.emin + F.p ≤ Int.log 2 |x| := by
      by_contra hc
      push Not at hc
      have : (2 : ℚ) ^ (Int.log 2 |x| + 1) ≤ 2 ^ (F.emin + F.p) := zpow_le_zpow_right₀ (by norm_num) (by omega)
      linarith
    have := h.err (k := Int.log 2 |x| + 1) (by omega) h1.le
    have e : Int.log 2 |x| + 1 - (F.p : ℤ) - 1 = Int.log 2 |x| - F.p := by ring
    rw [e, zpow_sub₀ (by norm_num), zpow_natCast] at this
    have h3 : (2 : ℚ) ^ Int.log 2 |x| / 2 ^ F.p ≤ |x| / 2 ^ F.p := div_le_div_of_nonneg_right h2 hp.le
    have h4 := two_zpow_pos (F.emin - 1)
    linarith

/-! ### Symmetric ranges -/

/-- The range `(-a, a]`. -/
def sym (a : ℚ) : Range ℚ := ⟨-a, a⟩

theorem mem_double {a : ℚ} (ha : F.Mem a) : F.Mem (2 * a) := by
  have := mem_mul_zpow (k := 1) (by norm_num) ha
  rw [zpow_one] at this
  rwa [mul_comm]

theorem length_sym (h : Nearest F rnd) {a : ℚ} (ha : F.Mem a) : length rnd (sym a) = 2 * a := by
  unfold length sym
  have : a - -a = 2 * a := by ring
  rw [this, h.exact (mem_double ha)]

/-- `x` and `y` differ by a whole number of lengths of `sym a`, up to `eps`. -/
def CongruentWithin (a eps x y : ℚ) : Prop := ∃ k : ℤ, |x - (y + k * (2 * a))| ≤ eps

/-- The adjustment is exact and sufficient within one length of the range. -/
theorem adjust_sym (h : Nearest F rnd) {a x : ℚ} (ha : F.Mem a) (hx : F.Mem x) (ha0 : 0 < a) (hlo : -(3 * a) < x)
    (hhi : x ≤ 3 * a) :
    ∃ y, rnd (x + modularAdjustment rnd (sym a) x) = y ∧ F.Mem y ∧ (sym a).containsExclStart y ∧
      CongruentWithin a 0 y x ∧ ((sym a).containsExclStart x → y = x) := by
  have m2 := mem_double ha
  unfold modularAdjustment
  rw [length_sym h ha]
  by_cases h1 : x ≤ (sym a).start
  · rw [if_pos h1]
    have h1' : x ≤ -a := h1
    have hm : F.Mem (x + 2 * a) := by
      have := sterbenz m2 (mem_neg hx) (by linarith) (by linarith)
      rwa [sub_neg_eq_add, add_comm] at this
    refine ⟨_, rfl, h.mem _, ?_, ⟨1, ?_⟩, fun hc => absurd hc.1 (not_lt.mpr h1)⟩ <;> rw [h.exact hm]
    · exact ⟨show -a < _ by linarith, show _ ≤ a by linarith⟩
    · push_cast; rw [one_mul, sub_self, abs_zero]
  · rw [if_neg h1]
    have h1' : -a < x := not_le.mp h1
    by_cases h2 : (sym a).stop < x
    · rw [if_pos h2]
      have h2' : a < x := h2
      have hm : F.Mem (x + -(2 * a)) := by
        have := sterbenz hx m2 (by linarith) (by linarith)
        rwa [sub_eq_add_neg] at this
      refine ⟨_, rfl, h.mem _, ?_, ⟨-1, ?_⟩, fun hc => absurd hc.2 (not_le.mpr h2)⟩ <;> rw [h.exact hm]
      · exact ⟨show -a < _ by linarith, show _ ≤ a by linarith⟩
      · have e : x + -(2 * a) - (x + ((-1 : ℤ) : ℚ) * (2 * a)) = 0 := by push_cast; ring
        rw [e, abs_zero]
    · rw [if_neg h2]
      have h2' : x ≤ a := not_lt.mp h2
      rw [add_zero, h.exact hx]
      exact ⟨x, rfl, hx, ⟨h1', h2'⟩, ⟨0, by simp⟩, fun _ => rfl⟩

/-- **C83**: in floating point, for a range `(-a, a]`, `Normalize` succeeds for every `x` within one length of the
range, and is exact: the result is in the range and differs from `x` by a whole number of lengths; values in the range
are unchanged. -/
theorem C83_normalize (h : Nearest F rnd) {a x : ℚ} (ha : F.Mem a) (hx : F.Mem x) (ha0 : 0 < a)
    (hlo : -(3 * a) < x) (hhi : x ≤ 3 * a) :
    ∃ y, normalize rnd (sym a) x = some y ∧ F.Mem y ∧ (sym a).containsExclStart y ∧ CongruentWithin a 0 y x ∧
      ((sym a).containsExclStart x → y = x) := by
  obtain ⟨y, h1, h2, h3, h4, h5⟩ := adjust_sym h ha hx ha0 hlo hhi
  refine ⟨y, ?_, h2, h3, h4, h5⟩
  unfold normalize
  simp only [h1]
  rw [if_pos h3]

/-- The relative error of one rounding in single precision, for values that are not tiny. -/
theorem err24 (h : Nearest f32 rnd) {x s : ℚ} (hs : (2 : ℚ) ^ (-120 : ℤ) ≤ s) :
    |rnd x - x| ≤ (|x| + s / 2 ^ 5) / 2 ^ 24 := by
  have := err_rel h x
  have e : (2 : ℚ) ^ (f32.emin - 1) ≤ 2 ^ (-120 : ℤ) / 2 ^ 5 / 2 ^ 24 := by
    norm_num [f32]
  have h2 : (2 : ℚ) ^ (-120 : ℤ) / 2 ^ 5 / 2 ^ 24 ≤ s / 2 ^ 5 / 2 ^ 24 := by
    apply div_le_div_of_nonneg_right _ (by norm_num)
    exact div_le_div_of_nonneg_right hs (by norm_num)
  have e24 : f32.p = 24 := rfl
  rw [e24] at this
  rw [add_div]
  linarith

/-- The value that `NormalizeWildValue` adjusts at the end. -/
def wildClose (rnd : ℚ → ℚ) (a x : ℚ) : ℚ :=
  rnd (x - rnd ((⌊rnd (rnd (x - (sym a).start) / (2 * a))⌋ : ℚ) * (2 * a)))

theorem wildClose_spec (h : Nearest f32 rnd) {a x : ℚ} (ha0 : (2 : ℚ) ^ (-120 : ℤ) ≤ a)
    (hx : |x| ≤ 2 ^ 20 * a) :
    f32.Mem (wildClose rnd a x) ∧ -(2 * a) < wildClose rnd a x ∧ wildClose rnd a x < 2 * a ∧
      CongruentWithin a ((|x| + 4 * a) / 2 ^ 24) (wildClose rnd a x) x ∧
      (f32.Mem x → -a < x → x ≤ (1 - 1 / 2 ^ 20) * a → wildClose rnd a x = x) := by
  have hpos : 0 < a := lt_of_lt_of_le (two_zpow_pos _) ha0
  have hstart : x - (sym a).start = x + a := by unfold sym; ring
  unfold wildClose
  rw [hstart]
  set s1 := rnd (x + a) with hs1
  have e1 := err24 h (x := x + a) ha0
  have hxa : |x + a| ≤ |x| + a := (abs_add_le _ _).trans (by rw [abs_of_pos hpos])
  rw [← hs1] at e1
  have e1' : |s1 - (x + a)| ≤ a / 15 := by
    refine e1.trans ?_
    rw [div_le_iff₀ (by norm_num)]
    norm_num at hx ⊢; linarith
  set q := s1 / (2 * a) with hq
  have hqa : q * (2 * a) = s1 := by rw [hq]; field_simp
  rw [abs_le] at e1' hx
  have hqb : |q| ≤ 2 ^ (20 : ℤ) := by
    rw [hq, abs_div, abs_of_pos (show (0 : ℚ) < 2 * a by linarith), div_le_iff₀ (by linarith), abs_le]
    norm_num at hx ⊢
    constructor <;> linarith [hx.1, hx.2, e1'.1, e1'.2]
  set u := rnd q with hu
  have e2 : |u - q| ≤ 1 / 32 := by
    have := h.err (k := 20) (by norm_num [f32]) hqb
    refine this.trans (by norm_num [f32])
  set n : ℤ := ⌊u⌋ with hn
  have f1 := Int.floor_le u
  have f2 := Int.lt_floor_add_one u
  rw [← hn] at f1 f2
  rw [abs_le] at e2
  -- distance to the multiple of the length
  have d1 : x - (n : ℚ) * (2 * a) ≤ a + a / 7 := by
    have : q - 1 - 1 / 32 ≤ (n : ℚ) := by linarith [e2.1]
    have : (q - 1 - 1 / 32) * (2 * a) ≤ (n : ℚ) * (2 * a) := mul_le_mul_of_nonneg_right this (by linarith)
    have e : (q - 1 - 1 / 32) * (2 * a) = s1 - 2 * a - a / 16 := by rw [sub_mul, sub_mul, hqa]; ring
    linarith [e1'.1]
  have d2 : -(a + a / 7) ≤ x - (n : ℚ) * (2 * a) := by
    have : (n : ℚ) ≤ q + 1 / 32 := by linarith [e2.2]
    have : (n : ℚ) * (2 * a) ≤ (q + 1 / 32) * (2 * a) := mul_le_mul_of_nonneg_right this (by linarith)
    have e : (q + 1 / 32) * (2 * a) = s1 + a / 16 := by rw [add_mul, hqa]; ring
    linarith [e1'.2]
  have hnb : |(n : ℚ) * (2 * a)| ≤ |x| + (a + a / 7) := by
    have : (n : ℚ) * (2 * a) = x - (x - (n : ℚ) * (2 * a)) := by ring
    rw [this]
    refine (abs_sub _ _).trans (add_le_add le_rfl ?_)
    exact abs_le.mpr ⟨d2, d1⟩
  have e3 := err24 h (x := (n : ℚ) * (2 * a)) ha0
  set p := rnd ((n : ℚ) * (2 * a)) with hp
  have hxx : |x| ≤ 2 ^ 20 * a := abs_le.mpr hx
  have e3' : |p - (n : ℚ) * (2 * a)| ≤ (|x| + 3 / 2 * a) / 2 ^ 24 := by
    refine e3.trans ?_
    apply div_le_div_of_nonneg_right _ (by norm_num)
    norm_num at hnb ⊢; linarith
  have e3'' : |p - (n : ℚ) * (2 * a)| ≤ a / 15 := by
    refine e3'.trans ?_
    rw [div_le_iff₀ (by norm_num)]
    norm_num at hxx ⊢; linarith
  rw [abs_le] at e3''
  have hxp : |x - p| ≤ 3 / 2 * a := by
    rw [abs_le]; constructor <;> linarith [e3''.1, e3''.2]
  have e4 := err24 h (x := x - p) ha0
  have e4' : |rnd (x - p) - (x - p)| ≤ 2 * a / 2 ^ 24 := by
    refine e4.trans ?_
    apply div_le_div_of_nonneg_right _ (by norm_num)
    norm_num at hxp ⊢; linarith
  have e4'' : |rnd (x - p) - (x - p)| ≤ a / 100 := by
    refine e4'.trans ?_
    rw [div_le_iff₀ (by norm_num)]
    norm_num; linarith
  rw [abs_le] at e4'' hxp
  refine ⟨h.mem _, by linarith [e4''.1], by linarith [e4''.2], ⟨-n, ?_⟩, ?_⟩
  · have e : rnd (x - p) - (x + ((-n : ℤ) : ℚ) * (2 * a)) =
        (rnd (x - p) - (x - p)) - (p - (n : ℚ) * (2 * a)) := by push_cast; ring
    rw [e]
    refine (abs_sub _ _).trans ((add_le_add e4' e3').trans ?_)
    rw [← add_div]
    apply div_le_div_of_nonneg_right _ (by norm_num)
    linarith
  · -- inside of the range, away from its end
    intro hmx hlo hhi
    have hs0 : 0 ≤ s1 := h.ge_of_ge mem_zero (by linarith)
    have hsu : s1 ≤ (2 - 1 / 2 ^ 21) * a := by
      have hab : |x + a| ≤ 2 * a := by rw [abs_le]; norm_num at hhi; constructor <;> linarith
      have e1'' : |s1 - (x + a)| ≤ 3 * a / 2 ^ 24 := by
        refine e1.trans ?_
        apply div_le_div_of_nonneg_right _ (by norm_num)
        norm_num; linarith
      rw [abs_le] at e1''
      have := e1''.2
      norm_num at this hhi ⊢
      linarith
    have hq0 : 0 ≤ q := by rw [hq]; exact div_nonneg hs0 (by linarith)
    have hq1 : q ≤ 1 - 1 / 2 ^ 22 := by
      rw [hq, div_le_iff₀ (by linarith)]
      refine hsu.trans (le_of_eq ?_)
      ring
    have hu0 : 0 ≤ u := h.ge_of_ge mem_zero hq0
    have hu1 : u ≤ 1 - 1 / 2 ^ 22 :=
      h.le_of_le ⟨2 ^ 22 - 1, -22, by norm_num [f32], by norm_num [f32], by norm_num⟩ hq1
    have hn0 : n = 0 := by
      rw [hn, Int.floor_eq_zero_iff]
      exact ⟨hu0, lt_of_le_of_lt hu1 (by norm_num)⟩
    rw [hp, hn0, Int.cast_zero, zero_mul, h.zero, sub_zero, h.exact hmx]

/-- **C83**: in single precision, for a range `(-a, a]` that is not tiny, `NormalizeWildValue` succeeds for every `x` up
to `2 ^ 20` half-lengths, and the result is in the range and differs from `x` by a whole number of lengths up to
`2 ^ -24` of `|x|` and the length.  Values in the range are unchanged, except next to its end. -/
theorem C83_wild (h : Nearest f32 rnd) {a x : ℚ} (ha : f32.Mem a) (ha0 : (2 : ℚ) ^ (-120 : ℤ) ≤ a)
    (hx : |x| ≤ 2 ^ 20 * a) :
    ∃ y, normalizeWild rnd (sym a) x = some y ∧ f32.Mem y ∧ (sym a).containsExclStart y ∧
      CongruentWithin a ((|x| + 4 * a) / 2 ^ 24) y x ∧
      (f32.Mem x → -a < x → x ≤ (1 - 1 / 2 ^ 20) * a → y = x) := by
  have hpos : 0 < a := lt_of_lt_of_le (two_zpow_pos _) ha0
  obtain ⟨hm, h1, h2, ⟨k, hk⟩, h5⟩ := wildClose_spec h ha0 hx
  obtain ⟨y, e, hmy, hy, ⟨l, hl⟩, hs⟩ := adjust_sym h ha hm hpos (by linarith) (by linarith)
  refine ⟨y, ?_, hmy, hy, ⟨k + l, ?_⟩, ?_⟩
  · unfold normalizeWild
    rw [length_sym h ha, if_neg (by linarith)]
    have e' := e
    unfold wildClose at e'
    simp only [e']
    rw [if_pos hy]
  · have hl0 := abs_nonpos_iff.mp hl
    have : y - (x + ((k + l : ℤ) : ℚ) * (2 * a)) = wildClose rnd a x - (x + k * (2 * a)) := by
      push_cast; linarith
    rw [this]; exact hk
  · intro hmx hlo hhi
    have hw := h5 hmx hlo hhi
    rw [hw] at hs
    refine hs ⟨hlo, show x ≤ a from hhi.trans ?_⟩
    norm_num; linarith

/-! ### Repeated adjustment -/

/-- One step of the loop below does not increase the magnitude. -/
theorem step_below (h : Nearest f32 rnd) {a x : ℚ} (ha : f32.Mem a) (hxm : f32.Mem x)
    (ha0 : (2 : ℚ) ^ (-120 : ℤ) ≤ a) (hx : x ≤ -a) : rnd (x + 2 * a) ≤ a ∧ |rnd (x + 2 * a)| ≤ |x| ∧
      |rnd (x + 2 * a) - (x + 2 * a)| ≤ (|x| + 4 * a) / 2 ^ 24 := by
  have hpos : 0 < a := lt_of_lt_of_le (two_zpow_pos _) ha0
  have hxa : |x| = -x := abs_of_neg (by linarith)
  refine ⟨h.le_of_le ha (by linarith), ?_, ?_⟩
  · rw [hxa, abs_le]
    exact ⟨by rw [neg_neg]; exact h.ge_of_ge hxm (by linarith), h.le_of_le (mem_neg hxm) (by linarith)⟩
  · refine (err24 h ha0).trans ?_
    apply div_le_div_of_nonneg_right _ (by norm_num)
    have : |x + 2 * a| ≤ |x| := by rw [hxa, abs_le]; constructor <;> linarith
    norm_num; linarith

/-- One step of the loop above does not increase the magnitude, and does not jump over the range. -/
theorem step_above (h : Nearest f32 rnd) {a x : ℚ} (ha : f32.Mem a) (hxm : f32.Mem x)
    (ha0 : (2 : ℚ) ^ (-120 : ℤ) ≤ a) (hx : a < x) : -a < rnd (x - 2 * a) ∧ |rnd (x - 2 * a)| ≤ |x| ∧
      |rnd (x - 2 * a) - (x - 2 * a)| ≤ (|x| + 4 * a) / 2 ^ 24 := by
  have hpos : 0 < a := lt_of_lt_of_le (two_zpow_pos _) ha0
  have hxa : |x| = x := abs_of_pos (by linarith)
  refine ⟨?_, ?_, ?_⟩
  · rcases le_or_gt x (4 * a) with h4 | h4
    · rw [h.exact (sterbenz hxm (mem_double ha) (by linarith) (by linarith))]; linarith
    · have := h.ge_of_ge ha (x := x - 2 * a) (by linarith)
      linarith
  · rw [hxa, abs_le]
    exact ⟨h.ge_of_ge (mem_neg hxm) (by linarith), h.le_of_le hxm (by linarith)⟩
  · refine (err24 h ha0).trans ?_
    apply div_le_div_of_nonneg_right _ (by norm_num)
    have : |x - 2 * a| ≤ |x| := by rw [hxa, abs_le]; constructor <;> linarith
    norm_num; linarith

theorem congruent_step {a d e x y z : ℚ} {k : ℤ} (h1 : |y - (x + k * (2 * a))| ≤ d) (h2 : CongruentWithin a e z y) :
    CongruentWithin a (d + e) z x := by
  obtain ⟨l, hl⟩ := h2
  refine ⟨k + l, ?_⟩
  have : z - (x + ((k + l : ℤ) : ℚ) * (2 * a)) = (y - (x + k * (2 * a))) + (z - (y + l * (2 * a))) := by
    push_cast; ring
  rw [this]
  exact (abs_add_le _ _).trans (add_le_add h1 hl)

theorem CongruentWithin.mono {a d e x y : ℚ} (h : CongruentWithin a d x y) (hde : d ≤ e) : CongruentWithin a e x y := by
  obtain ⟨k, hk⟩ := h
  exact ⟨k, hk.trans hde⟩

theorem closeBelow_spec (h : Nearest f32 rnd) {a : ℚ} (ha : f32.Mem a) (ha0 : (2 : ℚ) ^ (-120 : ℤ) ≤ a) :
    ∀ (m num : ℕ) (x : ℚ), num + m = 5 → f32.Mem x → x ≤ -a → |x| ≤ 2 ^ 20 * a →
    ∃ y, closeBelow rnd (sym a) num x = some y ∧ f32.Mem y ∧ (sym a).containsExclStart y ∧
      CongruentWithin a ((m + 2) * ((|x| + 4 * a) / 2 ^ 24)) y x := by
  have hpos : 0 < a := lt_of_lt_of_le (two_zpow_pos _) ha0
  have hnn : ∀ x : ℚ, 0 ≤ (|x| + 4 * a) / 2 ^ 24 := fun x =>
    div_nonneg (by have := abs_nonneg x; linarith) (by norm_num)
  have hmono : ∀ x y : ℚ, |y| ≤ |x| → (|y| + 4 * a) / 2 ^ 24 ≤ (|x| + 4 * a) / 2 ^ 24 := fun x y hxy =>
    div_le_div_of_nonneg_right (by linarith) (by norm_num)
  have hk1 : ∀ x y d : ℚ, |y - (x + 2 * a)| ≤ d → |y - (x + ((1 : ℤ) : ℚ) * (2 * a))| ≤ d := by
    intro x y d hd
    rw [Int.cast_one, one_mul]; exact hd
  intro m
  induction m with
  | zero =>
    intro num x hnum hxm hx hxb
    obtain ⟨h1, h2, h3⟩ := step_below h ha hxm ha0 hx
    obtain ⟨y, e, hy, hc, hk, -⟩ := C83_wild h ha ha0 (x := rnd (x + 2 * a)) (h2.trans hxb)
    refine ⟨y, ?_, hy, hc, ?_⟩
    · rw [closeBelow, if_pos (by omega), length_sym h ha]; exact e
    · have := congruent_step (k := 1) (a := a) (x := x) (hk1 _ _ _ h3) hk
      refine this.mono ?_
      have := hmono _ _ h2
      push_cast; linarith
  | succ m ih =>
    intro num x hnum hxm hx hxb
    obtain ⟨h1, h2, h3⟩ := step_below h ha hxm ha0 hx
    rw [closeBelow, if_neg (by omega), length_sym h ha]
    by_cases hc : rnd (x + 2 * a) ≤ (sym a).start
    · rw [if_pos hc]
      obtain ⟨y, e, hy, hcy, hk⟩ := ih (num + 1) _ (by omega) (h.mem _) hc (h2.trans hxb)
      refine ⟨y, e, hy, hcy, ?_⟩
      have := congruent_step (k := 1) (a := a) (x := x) (hk1 _ _ _ h3) hk
      refine this.mono ?_
      have h4 := hmono _ _ h2
      have h5 : ((m : ℚ) + 2) * ((|rnd (x + 2 * a)| + 4 * a) / 2 ^ 24) ≤ ((m : ℚ) + 2) * ((|x| + 4 * a) / 2 ^ 24) :=
        mul_le_mul_of_nonneg_left h4 (by positivity)
      push_cast
      linarith
    · rw [if_neg hc]
      refine ⟨_, rfl, h.mem _, ⟨not_le.mp hc, h1⟩, 1, ?_⟩
      push_cast
      rw [one_mul]
      refine h3.trans ?_
      have := hnn x
      have h0 : (0 : ℚ) ≤ m := Nat.cast_nonneg m
      nlinarith

theorem closeAbove_spec (h : Nearest f32 rnd) {a : ℚ} (ha : f32.Mem a) (ha0 : (2 : ℚ) ^ (-120 : ℤ) ≤ a) :
    ∀ (m num : ℕ) (x : ℚ), num + m = 5 → f32.Mem x → a < x → |x| ≤ 2 ^ 20 * a →
    ∃ y, closeAbove rnd (sym a) num x = some y ∧ f32.Mem y ∧ (sym a).containsExclStart y ∧
      CongruentWithin a ((m + 2) * ((|x| + 4 * a) / 2 ^ 24)) y x := by
  have hpos : 0 < a := lt_of_lt_of_le (two_zpow_pos _) ha0
  have hnn : ∀ x : ℚ, 0 ≤ (|x| + 4 * a) / 2 ^ 24 := fun x =>
    div_nonneg (by have := abs_nonneg x; linarith) (by norm_num)
  have hmono : ∀ x y : ℚ, |y| ≤ |x| → (|y| + 4 * a) / 2 ^ 24 ≤ (|x| + 4 * a) / 2 ^ 24 := fun x y hxy =>
    div_le_div_of_nonneg_right (by linarith) (by norm_num)
  have hk1 : ∀ x y d : ℚ, |y - (x - 2 * a)| ≤ d → |y - (x + ((-1 : ℤ) : ℚ) * (2 * a))| ≤ d := by
    intro x y d hd
    have : y - (x + ((-1 : ℤ) : ℚ) * (2 * a)) = y - (x - 2 * a) := by push_cast; ring
    rw [this]; exact hd
  intro m
  induction m with
  | zero =>
    intro num x hnum hxm hx hxb
    obtain ⟨h1, h2, h3⟩ := step_above h ha hxm ha0 hx
    obtain ⟨y, e, hy, hc, hk, -⟩ := C83_wild h ha ha0 (x := rnd (x - 2 * a)) (h2.trans hxb)
    refine ⟨y, ?_, hy, hc, ?_⟩
    · rw [closeAbove, if_pos (by omega), length_sym h ha]; exact e
    · have := congruent_step (k := -1) (a := a) (x := x) (hk1 _ _ _ h3) hk
      refine this.mono ?_
      have := hmono _ _ h2
      push_cast; linarith
  | succ m ih =>
    intro num x hnum hxm hx hxb
    obtain ⟨h1, h2, h3⟩ := step_above h ha hxm ha0 hx
    rw [closeAbove, if_neg (by omega), length_sym h ha]
    by_cases hc : (sym a).stop < rnd (x - 2 * a)
    · rw [if_pos hc]
      obtain ⟨y, e, hy, hcy, hk⟩ := ih (num + 1) _ (by omega) (h.mem _) hc (h2.trans hxb)
      refine ⟨y, e, hy, hcy, ?_⟩
      have := congruent_step (k := -1) (a := a) (x := x) (hk1 _ _ _ h3) hk
      refine this.mono ?_
      have h4 := hmono _ _ h2
      have h5 : ((m : ℚ) + 2) * ((|rnd (x - 2 * a)| + 4 * a) / 2 ^ 24) ≤ ((m : ℚ) + 2) * ((|x| + 4 * a) / 2 ^ 24) :=
        mul_le_mul_of_nonneg_left h4 (by positivity)
      push_cast
      linarith
    · rw [if_neg hc]
      refine ⟨_, rfl, h.mem _, ⟨h1, not_lt.mp hc⟩, -1, ?_⟩
      refine hk1 _ _ _ (h3.trans ?_)
      have := hnn x
      have h0 : (0 : ℚ) ≤ m := Nat.cast_nonneg m
      push_cast
      nlinarith

/-- **C83**: in single precision `NormalizeCloseValue` also succeeds for every `x` up to `2 ^ 20` half-lengths of a
range `(-a, a]`: the result is in the range and differs from `x` by a whole number of lengths up to the errors of at
most seven roundings.  Values in the range are unchanged, without exception. -/
theorem C83_close (h : Nearest f32 rnd) {a x : ℚ} (ha : f32.Mem a) (hxm : f32.Mem x) (ha0 : (2 : ℚ) ^ (-120 : ℤ) ≤ a)
    (hx : |x| ≤ 2 ^ 20 * a) :
    ∃ y, normalizeClose rnd (sym a) x = some y ∧ f32.Mem y ∧ (sym a).containsExclStart y ∧
      CongruentWithin a (7 * ((|x| + 4 * a) / 2 ^ 24)) y x ∧ ((sym a).containsExclStart x → y = x) := by
  have hpos : 0 < a := lt_of_lt_of_le (two_zpow_pos _) ha0
  unfold normalizeClose
  by_cases h1 : x ≤ (sym a).start
  · rw [if_neg (fun hc => hc.1 h1), if_pos h1]
    obtain ⟨y, e, hy, hc, hk⟩ := closeBelow_spec h ha ha0 5 0 x rfl hxm h1 hx
    exact ⟨y, e, hy, hc, hk.mono (by norm_num), fun hc => absurd hc.1 (not_lt.mpr h1)⟩
  · by_cases h2 : (sym a).stop < x
    · rw [if_neg (fun hc => hc.2 h2), if_neg h1]
      obtain ⟨y, e, hy, hc, hk⟩ := closeAbove_spec h ha ha0 5 0 x rfl hxm h2 hx
      exact ⟨y, e, hy, hc, hk.mono (by norm_num), fun hc => absurd hc.2 (not_le.mpr h2)⟩
    · rw [if_pos ⟨h1, h2⟩]
      refine ⟨x, rfl, hxm, ⟨not_le.mp h1, not_lt.mp h2⟩, ⟨0, ?_⟩, fun _ => rfl⟩
      have h0 : 0 ≤ (|x| + 4 * a) / 2 ^ 24 := div_nonneg (by have := abs_nonneg x; linarith) (by norm_num)
      simp only [Int.cast_zero, zero_mul, add_zero, sub_self, abs_zero]
      linarith

/-! ### Differences -/

/-- **C83**: in floating point, for values of a range `(-a, a]`: `ModDiffClose` succeeds, is at most `a` in magnitude and
congruent to the rounded difference exactly; `ModDiffPositive` is in `[0, 2a]`, `ModDiffNegative` in `[-2a, 0]`, and
`ModDiffFar` has magnitude from `a` to `2a`; all within `2a / 2 ^ p` of the same residue. -/
theorem C83_differences (h : Nearest f32 rnd) {a x y : ℚ} (ha : f32.Mem a) (ha0 : (2 : ℚ) ^ (-120 : ℤ) ≤ a)
    (hx : (sym a).containsExclStart x) (hy : (sym a).containsExclStart y) :
    ∃ c f p n, modDiffClose rnd (sym a) x y = some c ∧ (sym a).containsExclStart c ∧
      CongruentWithin a 0 c (rnd (y - x)) ∧
      modDiffFar rnd (sym a) x y = some f ∧ a ≤ |f| ∧ |f| ≤ 2 * a ∧ CongruentWithin a (3 * a / 2 ^ 24) f c ∧
      modDiffPositive rnd (sym a) x y = some p ∧ 0 ≤ p ∧ p ≤ 2 * a ∧ CongruentWithin a (3 * a / 2 ^ 24) p c ∧
      modDiffNegative rnd (sym a) x y = some n ∧ -(2 * a) ≤ n ∧ n ≤ 0 ∧ CongruentWithin a (3 * a / 2 ^ 24) n c := by
  have hpos : 0 < a := lt_of_lt_of_le (two_zpow_pos _) ha0
  have m2 := mem_double ha
  have hx1 : -a < x := hx.1
  have hx2 : x ≤ a := hx.2
  have hy1 : -a < y := hy.1
  have hy2 : y ≤ a := hy.2
  have hd1 := h.ge_of_ge (mem_neg m2) (x := y - x) (by linarith)
  have hd2 := h.le_of_le m2 (x := y - x) (by linarith)
  obtain ⟨c, e, hm, hc, hk, -⟩ := C83_normalize h ha (h.mem (y - x)) hpos (by linarith) (by linarith)
  have hc1 : -a < c := hc.1
  have hc2 : c ≤ a := hc.2
  have hclose : modDiffClose rnd (sym a) x y = some c := e
  have herr : ∀ z : ℚ, |z| ≤ 2 * a → |rnd z - z| ≤ 3 * a / 2 ^ 24 := by
    intro z hz
    refine (err24 h ha0).trans ?_
    apply div_le_div_of_nonneg_right _ (by norm_num)
    norm_num; linarith
  have h3 : (0 : ℚ) ≤ 3 * a / 2 ^ 24 := div_nonneg (by linarith) (by norm_num)
  have ep := herr (c + 2 * a)
  have en := herr (c - 2 * a)
  have hself : CongruentWithin a (3 * a / 2 ^ 24) c c := ⟨0, by simpa using h3⟩
  have hup : c < 0 → CongruentWithin a (3 * a / 2 ^ 24) (rnd (c + 2 * a)) c := by
    intro h0
    refine ⟨1, ?_⟩
    push_cast; rw [one_mul]
    exact ep (by rw [abs_le]; constructor <;> linarith)
  have hdn : 0 ≤ c → CongruentWithin a (3 * a / 2 ^ 24) (rnd (c - 2 * a)) c := by
    intro h0
    refine ⟨-1, ?_⟩
    have : rnd (c - 2 * a) - (c + ((-1 : ℤ) : ℚ) * (2 * a)) = rnd (c - 2 * a) - (c - 2 * a) := by push_cast; ring
    rw [this]
    exact en (by rw [abs_le]; constructor <;> linarith)
  have hup1 : c < 0 → a ≤ rnd (c + 2 * a) ∧ rnd (c + 2 * a) ≤ 2 * a := fun h0 =>
    ⟨h.ge_of_ge ha (by linarith), h.le_of_le m2 (by linarith)⟩
  have hdn1 : 0 ≤ c → -(2 * a) ≤ rnd (c - 2 * a) ∧ rnd (c - 2 * a) ≤ -a := fun h0 =>
    ⟨h.ge_of_ge (mem_neg m2) (by linarith), h.le_of_le (mem_neg ha) (by linarith)⟩
  rcases le_or_gt 0 c with h0 | h0
  · refine ⟨c, rnd (c - 2 * a), c, rnd (c - 2 * a), hclose, hc, hk, ?_, ?_, ?_, hdn h0, ?_, h0, by linarith, hself, ?_,
      (hdn1 h0).1, by linarith [(hdn1 h0).2], hdn h0⟩
    · rw [modDiffFar, hclose, Option.map_some, if_pos h0, length_sym h ha]
    · rw [abs_of_neg (by linarith [(hdn1 h0).2])]; linarith [(hdn1 h0).2]
    · rw [abs_of_neg (by linarith [(hdn1 h0).2])]; linarith [(hdn1 h0).1]
    · rw [modDiffPositive, hclose, Option.map_some, if_pos h0]
    · rw [modDiffNegative, hclose, Option.map_some, if_pos h0, length_sym h ha]
  · refine ⟨c, rnd (c + 2 * a), rnd (c + 2 * a), c, hclose, hc, hk, ?_, ?_, ?_, hup h0, ?_, by linarith [(hup1 h0).1],
      (hup1 h0).2, hup h0, ?_, by linarith, h0.le, hself⟩
    · rw [modDiffFar, hclose, Option.map_some, if_neg (not_le.mpr h0), length_sym h ha]
    · rw [abs_of_pos (by linarith [(hup1 h0).1])]; exact (hup1 h0).1
    · rw [abs_of_pos (by linarith [(hup1 h0).1])]; exact (hup1 h0).2
    · rw [modDiffPositive, hclose, Option.map_some, if_neg (not_le.mpr h0), length_sym h ha]
    · rw [modDiffNegative, hclose, Option.map_some, if_neg (not_le.mpr h0)]

/-! ### What fails -/

theorem mem32 (m e : ℤ) (x : ℚ) (hm : |m| < 2 ^ 24) (he : -149 ≤ e) (hx : x = m * 2 ^ e) : f32.Mem x :=
  ⟨m, e, hm, he, hx⟩

/-- **C83**: for a range that is not symmetric the length is rounded, and both `Normalize` and `NormalizeWildValue` can
fail on a value within one length of the range: the range `(-3, 1 - 2 ^ -24]` has length 4 in single precision, and
the value 1 is moved to -3, which is outside.  (`NormalizeCloseValue`, "still guaranteed to return a normalized value",
returns -3.) -/
theorem C83_asymmetric_fails (h : Nearest f32 rnd) :
    let r : Range ℚ := ⟨-3, 1 - 1 / 2 ^ 24⟩
    f32.Mem r.start ∧ f32.Mem r.stop ∧ f32.Mem 1 ∧ length rnd r = 4 ∧ normalize rnd r 1 = none ∧
      normalizeWild rnd r 1 = none ∧ normalizeClose rnd r 1 = some (-3) ∧ ¬ r.containsExclStart (-3) := by
  have m4 : f32.Mem 4 := mem32 1 2 4 (by norm_num) (by norm_num) (by norm_num)
  have m3 : f32.Mem (-3) := mem32 (-3) 0 (-3) (by norm_num) (by norm_num) (by norm_num)
  have m1 : f32.Mem 1 := mem32 1 0 1 (by norm_num) (by norm_num) (by norm_num)
  have hlen : rnd (1 - 1 / 2 ^ 24 - -3) = 4 := by
    have hle := h.le_of_le m4 (x := 1 - 1 / 2 ^ 24 - -3) (by norm_num)
    have hn := h.near (1 - 1 / 2 ^ 24 - -3) 4 m4
    have e : (4 : ℚ) - (1 - 1 / 2 ^ 24 - -3) = 1 / 2 ^ 24 := by norm_num
    rw [e, abs_of_pos (show (0 : ℚ) < 1 / 2 ^ 24 by norm_num), abs_le] at hn
    have hlb : 4 - 1 / 2 ^ 23 ≤ rnd (1 - 1 / 2 ^ 24 - -3) := by
      have := hn.1
      norm_num at this ⊢; linarith
    have := h.eq_of_close (x := rnd (1 - 1 / 2 ^ 24 - -3)) (n := 16777215) (e := -22) (by norm_num [f32])
      (by norm_num [f32]) (Or.inr (by norm_num [f32]))
    rw [h.exact (h.mem _)] at this
    by_contra hne
    have hlt : rnd (1 - 1 / 2 ^ 24 - -3) < 4 := lt_of_le_of_ne hle hne
    obtain ⟨m, e, hm, he, hme⟩ := h.mem (1 - 1 / 2 ^ 24 - -3)
    rw [hme] at hlb hlt
    rcases le_or_gt (-22) e with h22 | h22
    · obtain ⟨k, hk⟩ := rescale m h22
      rw [hk] at hlb hlt
      norm_num at hlb hlt
      have h1 : (16777215 : ℚ) < k := by linarith
      have h2 : (k : ℚ) < 16777216 := by linarith
      have h1' : (16777215 : ℤ) < k := by exact_mod_cast h1
      have h2' : k < (16777216 : ℤ) := by exact_mod_cast h2
      omega
    · have hm' : |(m : ℚ)| ≤ 2 ^ 24 := by
        have h3 : ((|m| : ℤ) : ℚ) ≤ ((2 ^ 24 : ℤ) : ℚ) := by exact_mod_cast hm.le
        push_cast at h3; exact h3
      have h2 : (2 : ℚ) ^ e ≤ 2 ^ (-23 : ℤ) := zpow_le_zpow_right₀ (by norm_num) (by omega)
      have h4 := two_zpow_pos e
      have h5 : (m : ℚ) * 2 ^ e ≤ 2 ^ 24 * 2 ^ (-23 : ℤ) :=
        mul_le_mul ((le_abs_self _).trans hm') h2 h4.le (by norm_num)
      norm_num at h5 hlb
      linarith
  have hl : length rnd ⟨-3, 1 - 1 / 2 ^ 24⟩ = 4 := hlen
  have h14 : rnd (1 + -4) = -3 := by
    have : (1 + -4 : ℚ) = -3 := by norm_num
    rw [this, h.exact m3]
  have hnot : ¬ (⟨-3, 1 - 1 / 2 ^ 24⟩ : Range ℚ).containsExclStart (-3) := fun hc => lt_irrefl _ hc.1
  have hnot1 : ¬ (⟨-3, 1 - 1 / 2 ^ 24⟩ : Range ℚ).containsExclStart 1 := fun hc => by
    have := hc.2
    norm_num at this
  have hs : ¬ (1 : ℚ) ≤ (⟨-3, 1 - 1 / 2 ^ 24⟩ : Range ℚ).start := by norm_num
  have ht : (⟨-3, 1 - 1 / 2 ^ 24⟩ : Range ℚ).stop < 1 := by norm_num
  refine ⟨m3, mem32 (2 ^ 24 - 1) (-24) _ (by norm_num) (by norm_num) (by norm_num), m1, hl, ?_, ?_, ?_, hnot⟩
  · unfold normalize modularAdjustment
    rw [if_neg hs, if_pos ht, hl]
    simp only [h14]
    rw [if_neg hnot]
  · unfold normalizeWild
    rw [hl, if_neg (by norm_num)]
    have e1 : rnd (1 - (⟨-3, 1 - 1 / 2 ^ 24⟩ : Range ℚ).start) = 4 := by
      have : (1 - (⟨-3, 1 - 1 / 2 ^ 24⟩ : Range ℚ).start : ℚ) = 4 := by norm_num
      rw [this, h.exact m4]
    have e2 : rnd ((4 : ℚ) / 4) = 1 := by rw [div_self (by norm_num), h.exact m1]
    have e3 : rnd (((1 : ℤ) : ℚ) * 4) = 4 := by
      rw [Int.cast_one, one_mul, h.exact m4]
    have e4 : rnd (1 - 4) = -3 := by rw [← sub_eq_add_neg] at h14; exact h14
    have e5 : modularAdjustment rnd ⟨-3, 1 - 1 / 2 ^ 24⟩ (-3) = 4 := by
      unfold modularAdjustment; rw [if_pos le_rfl, hl]
    have e6 : rnd (-3 + 4) = 1 := by
      have : (-3 + 4 : ℚ) = 1 := by norm_num
      rw [this, h.exact m1]
    simp only [e1, e2, Int.floor_one, e3, e4, e5, e6]
    rw [if_neg hnot1]
  · unfold normalizeClose
    rw [if_neg (fun hc => hc.2 ht), if_neg hs, closeAbove, if_neg (by omega), hl]
    have e4 : rnd (1 - 4) = -3 := by rw [← sub_eq_add_neg] at h14; exact h14
    rw [e4, if_neg (by norm_num)]

/-- **C83**: `ModDiffPositive` can return the length itself, which is congruent to no difference: for the range
`(-1, 1]`, from `2 ^ -30` to 0 it is 2. -/
theorem C83_positive_reaches_length (h : Nearest f32 rnd) :
    modDiffPositive rnd (sym 1) (1 / 2 ^ 30) 0 = some 2 := by
  have m1 : f32.Mem 1 := mem32 1 0 1 (by norm_num) (by norm_num) (by norm_num)
  have m2 : f32.Mem 2 := mem32 1 1 2 (by norm_num) (by norm_num) (by norm_num)
  have ms : f32.Mem (-(1 / 2 ^ 30)) := mem_neg (mem32 1 (-30) _ (by norm_num) (by norm_num) (by norm_num))
  have hd : rnd (0 - 1 / 2 ^ 30) = -(1 / 2 ^ 30) := by rw [zero_sub, h.exact ms]
  obtain ⟨y, e, -, -, -, hs⟩ := C83_normalize h m1 ms (by norm_num) (x := -(1 / 2 ^ 30)) (by norm_num) (by norm_num)
  have hy := hs ⟨by norm_num [sym], by norm_num [sym]⟩
  have hr : rnd (-(1 / 2 ^ 30) + 2) = 2 := by
    have hle := h.le_of_le m2 (x := -(1 / 2 ^ 30) + 2) (by norm_num)
    have hn := h.near (-(1 / 2 ^ 30) + 2) 2 m2
    have e : (2 : ℚ) - (-(1 / 2 ^ 30) + 2) = 1 / 2 ^ 30 := by norm_num
    rw [e, abs_of_pos (show (0 : ℚ) < 1 / 2 ^ 30 by norm_num), abs_le] at hn
    have hlb : 2 - 1 / 2 ^ 29 ≤ rnd (-(1 / 2 ^ 30) + 2) := by
      have := hn.1
      norm_num at this ⊢; linarith
    by_contra hne
    have hlt : rnd (-(1 / 2 ^ 30) + 2) < 2 := lt_of_le_of_ne hle hne
    obtain ⟨m, e, hm, he, hme⟩ := h.mem (-(1 / 2 ^ 30) + 2)
    rw [hme] at hlb hlt
    rcases le_or_gt (-23) e with h22 | h22
    · obtain ⟨k, hk⟩ := rescale m h22
      rw [hk] at hlb hlt
      norm_num at hlb hlt
      have h1 : (16777215 : ℚ) < k := by linarith
      have h2 : (k : ℚ) < 16777216 := by linarith
      have h1' : (16777215 : ℤ) < k := by exact_mod_cast h1
      have h2' : k < (16777216 : ℤ) := by exact_mod_cast h2
      omega
    · have hm' : |(m : ℚ)| ≤ 2 ^ 24 := by
        have h3 : ((|m| : ℤ) : ℚ) ≤ ((2 ^ 24 : ℤ) : ℚ) := by exact_mod_cast hm.le
        push_cast at h3; exact h3
      have h2 : (2 : ℚ) ^ e ≤ 2 ^ (-24 : ℤ) := zpow_le_zpow_right₀ (by norm_num) (by omega)
      have h4 := two_zpow_pos e
      have h5 : (m : ℚ) * 2 ^ e ≤ 2 ^ 24 * 2 ^ (-24 : ℤ) :=
        mul_le_mul ((le_abs_self _).trans hm') h2 h4.le (by norm_num)
      norm_num at h5 hlb
      linarith
  unfold modDiffPositive modDiffClose
  rw [hd, e, hy, Option.map_some, if_neg (by norm_num), length_sym h m1, mul_one, hr]

/-- **C83**: `Lerp` returns the start at 0 and the end at 1, and `Percent` returns 0 at the start and 1 at the end. -/
theorem C83_lerp_ends (h : Nearest f32 rnd) {r : Range ℚ} (h1 : f32.Mem r.start) (h2 : f32.Mem r.stop) :
    lerp rnd r 0 = r.start ∧ lerp rnd r 1 = r.stop ∧
    (r.start < r.stop → percent rnd r r.start = some 0 ∧ percent rnd r r.stop = some 1) := by
  have m1 : f32.Mem 1 := mem32 1 0 1 (by norm_num) (by norm_num) (by norm_num)
  refine ⟨?_, ?_, ?_⟩
  · rw [lerp, sub_zero, h.exact m1, one_mul, h.exact h1, zero_mul, h.zero, add_zero, h.exact h1]
  · rw [lerp, sub_self, h.zero, zero_mul, h.zero, one_mul, h.exact h2, zero_add, h.exact h2]
  · intro hlt
    have hne : length rnd r ≠ 0 := by
      intro hc
      unfold length at hc
      obtain ⟨m, e, -, he, hs⟩ := h1
      obtain ⟨n, f, -, hf, ht⟩ := h2
      obtain ⟨k, hk⟩ := rescale m he
      obtain ⟨l, hl⟩ := rescale n hf
      rw [hk] at hs
      rw [hl] at ht
      have hpos := two_zpow_pos f32.emin
      have hkl : k < l := by
        rw [hs, ht] at hlt
        have := lt_of_mul_lt_mul_right hlt hpos.le
        exact_mod_cast this
      have hge : (2 : ℚ) ^ f32.emin ≤ r.stop - r.start := by
        rw [hs, ht, ← sub_mul]
        have : (1 : ℚ) ≤ (l : ℚ) - k := by
          have : 1 ≤ l - k := by omega
          exact_mod_cast this
        nlinarith
      have := h.ge_of_ge (mem_zpow le_rfl) hge
      rw [hc] at this
      linarith
    constructor
    · rw [percent, if_neg hne, sub_self, h.zero, zero_div, h.zero]
    · rw [percent, if_neg hne]
      have : rnd (r.stop - r.start) = length rnd r := rfl
      rw [this, div_self hne, h.exact m1]

/-- The hypotheses hold for the range of angles and IEEE rounding. -/
example : ∃ y, normalizeWild (rne f32) (sym (13176795 / 2 ^ 22)) 100 = some y ∧
    (sym (13176795 / 2 ^ 22)).containsExclStart y := by
  obtain ⟨y, h1, -, h2, -⟩ := C83_wild (rne_nearest f32) (a := 13176795 / 2 ^ 22) (x := 100)
    (mem32 13176795 (-22) _ (by norm_num) (by norm_num) (by norm_num)) (by norm_num) (by norm_num)
  exact ⟨y, h1, h2⟩

end Motive.Float.Range
