import Verif.Math.Range
import Verif.Float.Basic

/-!
# Ranges of `double`: `Normalize` goes through `float`

`RangeDouble` (range.h:517) is `RangeT<double>`.  `Normalize` stores its result in a `const float` whatever the type of
the range is.

Model: doubles are rational numbers, `rd` rounds to `double` and `rf` to `float`.  Both are any function that rounds to
a nearest number.  Simplification: overflow, infinities and NaN are not modelled (see `Float/Basic.lean`).  A failed
assertion is `none`.
-/

namespace Motive.Math.RangeDouble

open Motive.Float

/-- `Length` (range.h:65). -/
def length (rd : ℚ → ℚ) (r : Range ℚ) : ℚ := rd (r.stop - r.start)

/-- `ModularAdjustment` (range.h:175-179).  The `0.0f` converts to `double` exactly. -/
def modularAdjustment (rd : ℚ → ℚ) (r : Range ℚ) (x : ℚ) : ℚ :=
  if x ≤ r.start then length rd r else if r.stop < x then -length rd r else 0

/-- `Normalize` (range.h:107-111), with the assertion.  The sum is a `double`; `normalized` is a `float`. -/
def normalize (rd rf : ℚ → ℚ) (r : Range ℚ) (x : ℚ) : Option ℚ :=
  let normalized := rf (rd (x + modularAdjustment rd r x))
  if r.start < normalized ∧ normalized ≤ r.stop then some normalized else none

/-! ### Specification -/

/-- `z` is the value of the range that is whole lengths away from `x`. -/
def IsNormal (r : Range ℚ) (x z : ℚ) : Prop :=
  r.start < z ∧ z ≤ r.stop ∧ ∃ k : ℤ, z = x + k * (r.stop - r.start)

/-- `x` is within a length of the range, as the comment of `Normalize` asks (range.h:103-104). -/
def Close (r : Range ℚ) (x : ℚ) : Prop :=
  r.start - (r.stop - r.start) < x ∧ x ≤ r.stop + (r.stop - r.start)

/-! ### What `Normalize` returns -/

/-- The sum before rounding is the value of the range that is whole lengths away. -/
theorem sum_eq {rd : ℚ → ℚ} (hd : Nearest f64 rd) {r : Range ℚ} {x z : ℚ} (hl : f64.Mem (r.stop - r.start))
    (hc : Close r x) (hz : IsNormal r x z) : x + modularAdjustment rd r x = z := by
  obtain ⟨z1, z2, k, hk⟩ := hz
  obtain ⟨c1, c2⟩ := hc
  have hlen : length rd r = r.stop - r.start := hd.exact hl
  set l := r.stop - r.start with hld
  have hlpos : 0 < l := by rw [hld]; linarith
  have key : ∀ j : ℤ, r.start < x + j * l → x + j * l ≤ r.stop → x + j * l = z := by
    intro j h1 h2
    have h3 : ((k - j : ℤ) : ℚ) * l < 1 * l := by push_cast; linarith
    have h4 : (-1 : ℚ) * l < ((k - j : ℤ) : ℚ) * l := by push_cast; linarith
    have h5 : ((k - j : ℤ) : ℚ) < 1 := lt_of_mul_lt_mul_right h3 hlpos.le
    have h6 : (-1 : ℚ) < ((k - j : ℤ) : ℚ) := lt_of_mul_lt_mul_right h4 hlpos.le
    have h7 : k - j < 1 := by exact_mod_cast h5
    have h8 : -1 < k - j := by exact_mod_cast h6
    have : k = j := by omega
    rw [hk, this]
  unfold modularAdjustment
  rw [hlen]
  split_ifs with h1 h2
  · have := key 1 (by push_cast; linarith) (by push_cast; linarith)
    rw [← this]; push_cast; ring
  · have := key (-1) (by push_cast; linarith) (by push_cast; linarith)
    rw [← this]; push_cast; ring
  · have := key 0 (by push_cast; linarith) (by push_cast; linarith)
    rw [← this]; push_cast; ring

/-- If the length of the range is a `double` and the value whole lengths away is a `float`, `Normalize` returns that
value.  Missing for the full property: values that are not a `float`, see the theorems below. -/
theorem C133_normalise_partial {rd rf : ℚ → ℚ} (hd : Nearest f64 rd) (hf : Nearest f32 rf) {r : Range ℚ} {x z : ℚ}
    (hl : f64.Mem (r.stop - r.start)) (hc : Close r x) (hz : IsNormal r x z) (hzf : f32.Mem z) :
    normalize rd rf r x = some z := by
  have hzd : f64.Mem z := mem_wider (by decide) (by decide) hzf
  unfold normalize
  simp only [sum_eq hd hl hc hz, hd.exact hzd, hf.exact hzf]
  rw [if_pos ⟨hz.1, hz.2.1⟩]

/-- If the value whole lengths away is a `double`, what is returned is in the range, is a `float` and is as near to
that value as a `float` can be; with values up to `2 ^ k` it is at most `2 ^ (k - 25)` away. -/
theorem C133_nearest_float {rd rf : ℚ → ℚ} (hd : Nearest f64 rd) (hf : Nearest f32 rf) {r : Range ℚ} {x z y : ℚ}
    (hl : f64.Mem (r.stop - r.start)) (hc : Close r x) (hz : IsNormal r x z) (hzd : f64.Mem z)
    (h : normalize rd rf r x = some y) :
    r.start < y ∧ y ≤ r.stop ∧ f32.Mem y ∧ (∀ w, f32.Mem w → |y - z| ≤ |w - z|) ∧
      ∀ k : ℤ, -125 ≤ k → |z| ≤ 2 ^ k → |y - z| ≤ 2 ^ (k - 25) := by
  unfold normalize at h
  simp only [sum_eq hd hl hc hz, hd.exact hzd] at h
  split_ifs at h with hin
  injection h with h
  subst h
  refine ⟨hin.1, hin.2, hf.mem z, fun w hw => hf.near z w hw, fun k hk hzk => ?_⟩
  have := hf.err (k := k) (x := z) (by show (-149 : ℤ) ≤ k - ((24 : ℕ) : ℤ); push_cast; omega) hzk
  have he : k - ((f32.p : ℕ) : ℤ) - 1 = k - 25 := by show k - ((24 : ℕ) : ℤ) - 1 = k - 25; push_cast; ring
  rwa [he] at this

/-- A value of the range that is a `double` and not a `float` is never returned unchanged, although nothing has to be
added to it. -/
theorem C133_changed {rd rf : ℚ → ℚ} (hf : Nearest f32 rf) (r : Range ℚ) {x : ℚ} (hx : ¬ f32.Mem x) :
    normalize rd rf r x ≠ some x := by
  unfold normalize
  intro h
  simp only at h
  split_ifs at h with hin
  injection h with h
  exact hx (h ▸ hf.mem _)

/-- If the nearest `float` of the end of the range is above it, the assertion fails for the end itself, which is a
value of the range. -/
theorem C133_end_fails {rd rf : ℚ → ℚ} (hd : Nearest f64 rd) {r : Range ℚ} (hr : r.start < r.stop)
    (hs : f64.Mem r.stop) (hup : r.stop < rf r.stop) : normalize rd rf r r.stop = none := by
  unfold normalize modularAdjustment
  rw [if_neg (not_le.mpr hr), if_neg (lt_irrefl _), add_zero, hd.exact hs]
  exact if_neg fun h => absurd h.2 (not_le.mpr hup)

/-- If both bounds are a `float`, the end causes no trouble: the assertion fails exactly if the value whole lengths away
is so close to the start, which is not in the range, that the start is its nearest `float`. -/
theorem C133_float_bounds {rd rf : ℚ → ℚ} (hd : Nearest f64 rd) (hf : Nearest f32 rf) {r : Range ℚ} {x z : ℚ}
    (h1 : f32.Mem r.start) (h2 : f32.Mem r.stop) (hl : f64.Mem (r.stop - r.start)) (hc : Close r x) (hz : IsNormal r x z)
    (hzd : f64.Mem z) : (normalize rd rf r x = none ↔ rf z = r.start) ∧ (rf z ≠ r.start → normalize rd rf r x = some (rf z)) := by
  have hlo := hf.ge_of_ge h1 hz.1.le
  have hhi := hf.le_of_le h2 hz.2.1
  have he : normalize rd rf r x = if r.start < rf z ∧ rf z ≤ r.stop then some (rf z) else none := by
    unfold normalize
    simp only [sum_eq hd hl hc hz, hd.exact hzd]
  rw [he]
  by_cases hs : rf z = r.start
  · rw [if_neg (by rw [hs]; exact fun h => lt_irrefl _ h.1)]
    exact ⟨⟨fun _ => hs, fun _ => rfl⟩, fun h => absurd hs h⟩
  · rw [if_pos ⟨lt_of_le_of_ne hlo (Ne.symm hs), hhi⟩]
    exact ⟨⟨fun h => by simp at h, fun h => absurd h hs⟩, fun _ => rfl⟩

/-! ### Concrete cases -/

/-- The range from 1.5 to 2 cannot normalise the `double` `1.5 + 2^-30`, although both bounds are a `float`. -/
theorem C133_start_fails {rd rf : ℚ → ℚ} (hd : Nearest f64 rd) (hf : Nearest f32 rf) :
    normalize rd rf ⟨3 / 2, 2⟩ (3 / 2 + 1 / 2 ^ 30) = none := by
  refine ((C133_float_bounds hd hf ⟨3, -1, by decide, by decide, by norm_num⟩ ⟨2, 0, by decide, by decide, by norm_num⟩
    ⟨1, -1, by decide, by decide, by norm_num⟩ ⟨by norm_num, by norm_num⟩
    (z := 3 / 2 + 1 / 2 ^ 30) ⟨by norm_num, by norm_num, 0, by norm_num⟩
    ⟨1610612737, -30, by decide, by decide, by norm_num⟩).1).mpr ?_
  have := hf.eq_of_close (x := 3 / 2 + 1 / 2 ^ 30) (n := 12582912) (e := -23) (by decide) (by decide)
    (Or.inr (by decide)) (by norm_num [abs_lt])
  rw [this]; norm_num

/-- The `double` `1.5 - 2^-30` becomes `1.5`. -/
theorem C133_rounds {rf : ℚ → ℚ} (hf : Nearest f32 rf) : rf (3 / 2 - 1 / 2 ^ 30) = 3 / 2 := by
  have := hf.eq_of_close (x := 3 / 2 - 1 / 2 ^ 30) (n := 12582912) (e := -23) (by decide) (by decide)
    (Or.inr (by decide)) (by norm_num [abs_lt])
  rw [this]; norm_num

theorem mem_end : f64.Mem (3 / 2 - 1 / 2 ^ 30) :=
  ⟨1610612735, -30, by decide, by decide, by norm_num⟩

/-- The range from 0 to `1.5 - 2^-30` cannot normalise its own end, and the range from 0 to 2 turns it into 1.5, with
every way to round to nearest. -/
theorem C133_fails {rd rf : ℚ → ℚ} (hd : Nearest f64 rd) (hf : Nearest f32 rf) :
    normalize rd rf ⟨0, 3 / 2 - 1 / 2 ^ 30⟩ (3 / 2 - 1 / 2 ^ 30) = none ∧
      normalize rd rf ⟨0, 2⟩ (3 / 2 - 1 / 2 ^ 30) = some (3 / 2) := by
  constructor
  · apply C133_end_fails hd (by norm_num) mem_end
    show (3 / 2 - 1 / 2 ^ 30 : ℚ) < rf (3 / 2 - 1 / 2 ^ 30)
    rw [C133_rounds hf]; norm_num
  · have h0 : modularAdjustment rd ⟨0, 2⟩ (3 / 2 - 1 / 2 ^ 30) = 0 := by
      unfold modularAdjustment
      rw [if_neg (by norm_num), if_neg (by norm_num)]
    unfold normalize
    simp only [h0, add_zero, hd.exact mem_end, C133_rounds hf]
    norm_num

/-- A value below the range from -1 to 2 is moved up by its length. -/
example : normalize (rne f64) (rne f32) ⟨-1, 2⟩ (-5 / 2) = some (1 / 2) := by
  apply C133_normalise_partial (rne_nearest f64) (rne_nearest f32)
  · exact ⟨3, 0, by decide, by decide, by norm_num⟩
  · constructor <;> norm_num
  · exact ⟨by norm_num, by norm_num, 1, by norm_num⟩
  · exact ⟨1, -1, by decide, by decide, by norm_num⟩

/-- The hypotheses of `C133_nearest_float` hold of the range from 0 to 2 and a value of it that is not a `float`. -/
example : ∃ x z y, Close ⟨0, 2⟩ x ∧ IsNormal ⟨0, 2⟩ x z ∧ f64.Mem z ∧ f64.Mem ((2 : ℚ) - 0) ∧
    normalize (rne f64) (rne f32) ⟨0, 2⟩ x = some y ∧ y ≠ z :=
  ⟨3 / 2 - 1 / 2 ^ 30, 3 / 2 - 1 / 2 ^ 30, 3 / 2, by constructor <;> norm_num,
    ⟨by norm_num, by norm_num, 0, by norm_num⟩, mem_end, ⟨2, 0, by decide, by decide, by norm_num⟩,
    (C133_fails (rne_nearest f64) (rne_nearest f32)).2, by norm_num⟩

end Motive.Math.RangeDouble
