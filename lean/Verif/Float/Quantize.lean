import Verif.Float.Range

/-!
# Quantised spline nodes in single precision (C84)

`Verif/Spline/Model.lean` models `CompactSplineNode` (include/motive/math/compact_spline_node.h) in exact arithmetic.
Here the x and y coordinates are converted as the code does, with every operation rounded to `float`.  The conversion
of the derivative calls `atan` and `tan`, whose rounding the C library does not specify; it is not modelled here.
-/

namespace Motive.Float.Quantize

open Motive.Math (Range)
open Motive.Float.Range

/-! ### Model -/

section Model
variable (rnd : ℚ → ℚ)

/-- The conversion of a `float` to `int`: toward zero, undefined outside of the range of `int`. -/
def toInt (v : ℚ) : Option ℤ :=
  let n := if 0 ≤ v then ⌊v⌋ else ⌈v⌉
  if -2 ^ 31 ≤ n ∧ n < 2 ^ 31 then some n else none

/-- `QuantizeX` (compact_spline_node.h:109-111). -/
def quantizeX (x g : ℚ) : Option ℤ := if g = 0 then none else toInt (rnd (rnd (x / g) + 1 / 2))

/-- `CompactX` (compact_spline_node.h:113-118) with its assertion. -/
def compactX (x g : ℚ) : Option ℤ := (quantizeX rnd x g).bind fun n => if 0 ≤ n ∧ n ≤ 65535 then some n else none

/-- `X` (compact_spline_node.h:83-85). -/
def readX (n : ℤ) (g : ℚ) : ℚ := rnd (n * g)

/-- `RecommendXGranularity` (compact_spline.cpp:399-401). -/
def recommendXGranularity (maxX : ℚ) : ℚ := if maxX ≤ 0 then 1 else rnd (maxX / 65535)

/-- `kYScale` (compact_spline.cpp:36) is the float nearest to `1 / 65535`. -/
def kYScale : ℚ := rnd (1 / 65535)

/-- `CompactY` (compact_spline_node.h:120-132) with its assertion; the conversion to `uint16_t` is undefined outside of
its range. -/
def compactY (y : ℚ) (r : Range ℚ) : Option ℤ :=
  if r.start ≤ y ∧ y ≤ r.stop then
    if length rnd r = 0 then some 0
    else (percent rnd r y).bind fun p =>
      let n := ⌊rnd (65535 * max 0 (min p 1))⌋
      if 0 ≤ n ∧ n ≤ 65535 then some n else none
  else none

/-- `Y` with `YPercent` (compact_spline_node.h:86, 149). -/
def readY (n : ℤ) (r : Range ℚ) : ℚ := lerp rnd r (rnd (n * kYScale rnd))

end Model

variable {rnd : ℚ → ℚ}

theorem memI (n : ℤ) (h : |n| ≤ 2 ^ 24) : f32.Mem n := mem_int h (by norm_num [f32])

/-! ### x -/

theorem quantize_core (h : Nearest f32 rnd) {t : ℚ} (h0 : 0 ≤ t) (h1 : t ≤ 65535 + 1 / 2 ^ 7) :
    ∃ n : ℤ, toInt (rnd (rnd t + 1 / 2)) = some n ∧ 0 ≤ n ∧ n ≤ 65535 ∧ |(n : ℚ) - t| ≤ 1 / 2 + 1 / 2 ^ 7 := by
  have mhi : f32.Mem (65535 + 1 / 2 ^ 7) := mem32 8388481 (-7) _ (by norm_num) (by norm_num) (by norm_num)
  have mhi2 : f32.Mem (65535 + 1 / 2 ^ 7 + 1 / 2) := mem32 8388545 (-7) _ (by norm_num) (by norm_num) (by norm_num)
  have mhalf : f32.Mem (1 / 2) := mem32 1 (-1) _ (by norm_num) (by norm_num) (by norm_num)
  have q0 := h.ge_of_ge mem_zero h0
  have q1 := h.le_of_le mhi h1
  have e1 := h.err (x := t) (k := 16) (by norm_num [f32]) (by
    rw [abs_of_nonneg h0]; refine h1.trans (by norm_num))
  set q := rnd t
  have v0 := h.ge_of_ge mhalf (x := q + 1 / 2) (by linarith)
  have v1 := h.le_of_le mhi2 (x := q + 1 / 2) (by linarith)
  have e2 := h.err (x := q + 1 / 2) (k := 16) (by norm_num [f32]) (by
    rw [abs_of_nonneg (by linarith)]
    refine le_trans (add_le_add_left q1 (1 / 2)) (by norm_num))
  set v := rnd (q + 1 / 2)
  norm_num [f32] at e1 e2
  rw [abs_le] at e1 e2
  have hv0 : 0 ≤ v := le_trans (by norm_num) v0
  have f1 := Int.floor_le v
  have f2 := Int.lt_floor_add_one v
  have hn0 : 0 ≤ ⌊v⌋ := Int.floor_nonneg.mpr hv0
  have hn1 : ⌊v⌋ ≤ 65535 := by
    have : ⌊v⌋ < 65536 := by
      rw [Int.floor_lt]
      refine lt_of_le_of_lt v1 (by norm_num)
    omega
  refine ⟨⌊v⌋, ?_, hn0, hn1, ?_⟩
  · unfold toInt
    simp only [if_pos hv0]
    rw [if_pos ⟨by omega, by omega⟩]
  · rw [abs_le]
    norm_num
    constructor <;> linarith [e1.1, e1.2, e2.1, e2.2]

/-- **C84**: x coordinates in single precision.  With the recommended granularity for a spline that ends at `maxX`, every
float `x` from 0 to `maxX` is accepted, and is read back within `1/2 + 1/64` of a granularity. -/
theorem C84_x (h : Nearest f32 rnd) {maxX x : ℚ} (hm : (2 : ℚ) ^ (-100 : ℤ) ≤ maxX) (h0 : 0 ≤ x) (h1 : x ≤ maxX) :
    ∃ n : ℤ, compactX rnd x (recommendXGranularity rnd maxX) = some n ∧ 0 ≤ n ∧ n ≤ 65535 ∧
      |readX rnd n (recommendXGranularity rnd maxX) - x| ≤ (1 / 2 + 1 / 2 ^ 6) * recommendXGranularity rnd maxX := by
  have hpos : 0 < maxX := lt_of_lt_of_le (two_zpow_pos _) hm
  have hg : recommendXGranularity rnd maxX = rnd (maxX / 65535) := by
    unfold recommendXGranularity; rw [if_neg (not_le.mpr hpos)]
  rw [hg]
  have hs : (2 : ℚ) ^ (-120 : ℤ) ≤ maxX / 65535 := by
    rw [le_div_iff₀ (by norm_num)]
    refine le_trans ?_ hm
    norm_num
  have eg := err24 h (x := maxX / 65535) hs
  have mg := h.ge_of_ge (mem_zpow (F := f32) (e := -120) (by norm_num [f32])) hs
  set g := rnd (maxX / 65535) with hgd
  have hgpos : 0 < g := lt_of_lt_of_le (two_zpow_pos _) mg
  rw [abs_of_pos (show (0 : ℚ) < maxX / 65535 by positivity), abs_le] at eg
  have ht0 : 0 ≤ x / g := div_nonneg h0 hgpos.le
  have ht1 : x / g ≤ 65535 + 1 / 2 ^ 7 := by
    rw [div_le_iff₀ hgpos]
    have := eg.1
    norm_num at this ⊢
    linarith
  obtain ⟨n, e, hn0, hn1, hd⟩ := quantize_core h ht0 ht1
  refine ⟨n, ?_, hn0, hn1, ?_⟩
  · unfold compactX quantizeX
    rw [if_neg hgpos.ne', e, Option.bind_some, if_pos ⟨hn0, hn1⟩]
  · have er := err24 h (x := (n : ℚ) * g) mg
    have hnq : (n : ℚ) ≤ 65535 := by exact_mod_cast hn1
    have hnq0 : (0 : ℚ) ≤ n := by exact_mod_cast hn0
    rw [abs_of_nonneg (mul_nonneg hnq0 hgpos.le)] at er
    have er' : |rnd ((n : ℚ) * g) - n * g| ≤ g / 2 ^ 8 := by
      refine er.trans ?_
      rw [div_le_iff₀ (by norm_num)]
      have : (n : ℚ) * g ≤ 65535 * g := mul_le_mul_of_nonneg_right hnq hgpos.le
      norm_num; linarith
    have hx : x = x / g * g := by field_simp
    have e3 : readX rnd n g - x = (rnd ((n : ℚ) * g) - n * g) + ((n : ℚ) - x / g) * g := by
      unfold readX; rw [sub_mul, ← hx]; ring
    rw [e3]
    refine (abs_add_le _ _).trans ?_
    rw [abs_mul, abs_of_pos hgpos]
    have : |(n : ℚ) - x / g| * g ≤ (1 / 2 + 1 / 2 ^ 7) * g := mul_le_mul_of_nonneg_right hd hgpos.le
    norm_num at this er' ⊢
    linarith

theorem toInt_mono {v w : ℚ} {m n : ℤ} (h0 : 0 ≤ v) (h : v ≤ w) (hm : toInt v = some m) (hn : toInt w = some n) : m ≤ n := by
  unfold toInt at hm hn
  simp only [if_pos h0, if_pos (h0.trans h)] at hm hn
  split_ifs at hm hn
  injection hm with hm
  injection hn with hn
  rw [← hm, ← hn]
  exact Int.floor_le_floor h

/-- **C84**: quantisation preserves the order of the x coordinates, and of the coordinates read back. -/
theorem C84_x_monotone (h : Nearest f32 rnd) {x y g : ℚ} {m n : ℤ} (hg : 0 < g) (h0 : 0 ≤ x) (hxy : x ≤ y)
    (hm : compactX rnd x g = some m) (hn : compactX rnd y g = some n) : m ≤ n ∧ readX rnd m g ≤ readX rnd n g := by
  unfold compactX quantizeX at hm hn
  rw [if_neg hg.ne'] at hm hn
  obtain ⟨m', hm1, hm2⟩ := Option.bind_eq_some_iff.mp hm
  obtain ⟨n', hn1, hn2⟩ := Option.bind_eq_some_iff.mp hn
  split_ifs at hm2 hn2
  injection hm2 with hm2
  injection hn2 with hn2
  subst hm2 hn2
  have hle : m' ≤ n' := by
    refine toInt_mono ?_ ?_ hm1 hn1
    · have := h.ge_of_ge mem_zero (x := x / g) (div_nonneg h0 hg.le)
      exact h.ge_of_ge mem_zero (by linarith)
    · refine h.mono ?_
      have := h.mono (div_le_div_of_nonneg_right hxy hg.le)
      linarith
  refine ⟨hle, h.mono ?_⟩
  have : (m' : ℚ) ≤ n' := by exact_mod_cast hle
  exact mul_le_mul_of_nonneg_right this hg.le

/-! ### y -/

theorem yscale (h : Nearest f32 rnd) : kYScale rnd = 65537 / 2 ^ 32 := by
  have := h.eq_of_close (x := 1 / 65535) (n := 8388736) (e := -39) (by norm_num [f32]) (by norm_num [f32])
    (Or.inr (by norm_num [f32])) (by rw [abs_lt]; constructor <;> norm_num)
  rw [kYScale, this]; norm_num

/-- Additions and subtractions of floats have a relative error without exception: small results are exact. -/
theorem err_add (h : Nearest f32 rnd) {x y : ℚ} (hx : f32.Mem x) (hy : f32.Mem y) :
    |rnd (x + y) - (x + y)| ≤ |x + y| / 2 ^ 24 := by
  rcases le_or_gt |x + y| (2 ^ (-125 : ℤ)) with hs | hl
  · have hm : f32.Mem (x + y) := by
      obtain ⟨m, e, -, he, rfl⟩ := hx
      obtain ⟨n, f, -, hf, rfl⟩ := hy
      obtain ⟨k, hk⟩ := rescale m he
      obtain ⟨l, hl⟩ := rescale n hf
      rw [hk, hl, ← add_mul, ← Int.cast_add] at hs ⊢
      refine mem_of_le ?_ le_rfl
      rw [abs_mul, abs_of_pos (two_zpow_pos _)] at hs
      have e : (2 : ℚ) ^ (-125 : ℤ) = 2 ^ 24 * 2 ^ f32.emin := by norm_num [f32]
      rw [e] at hs
      have := le_of_mul_le_mul_right hs (two_zpow_pos _)
      have h2 : ((|k + l| : ℤ) : ℚ) ≤ ((2 ^ 24 : ℤ) : ℚ) := by push_cast at this ⊢; exact this
      exact_mod_cast h2
    rw [h.exact hm, sub_self, abs_zero]
    exact div_nonneg (abs_nonneg _) (by norm_num)
  · have hx0 : 0 < |x + y| := lt_trans (two_zpow_pos _) hl
    have h1 := Int.lt_zpow_succ_log_self (b := 2) (by norm_num) |x + y|
    have h2 := Int.zpow_log_le_self (b := 2) (by norm_num) hx0
    rw [Nat.cast_ofNat] at h1 h2
    have hlog : -126 ≤ Int.log 2 |x + y| := by
      by_contra hc
      push Not at hc
      have : (2 : ℚ) ^ (Int.log 2 |x + y| + 1) ≤ 2 ^ (-125 : ℤ) := zpow_le_zpow_right₀ (by norm_num) (by omega)
      linarith
    have := h.err (k := Int.log 2 |x + y| + 1) (by norm_num [f32]; omega) h1.le
    have e : Int.log 2 |x + y| + 1 - (f32.p : ℤ) - 1 = Int.log 2 |x + y| - (24 : ℕ) := by simp only [f32]; ring
    rw [e, zpow_sub₀ (by norm_num), zpow_natCast] at this
    exact this.trans (div_le_div_of_nonneg_right h2 (by norm_num))

/-- The share of the range that is computed for `y`. -/
theorem percent_spec (h : Nearest f32 rnd) {r : Range ℚ} {y : ℚ} (hs : f32.Mem r.start) (ht : f32.Mem r.stop)
    (hy : f32.Mem y) (hlt : r.start < r.stop) (h0 : r.start ≤ y) (h1 : y ≤ r.stop) :
    ∃ p, percent rnd r y = some p ∧ 0 ≤ p ∧ p ≤ 1 ∧ |p - (y - r.start) / (r.stop - r.start)| ≤ 1 / 2 ^ 22 := by
  have eL := err_add h ht (mem_neg hs)
  have eN := err_add h hy (mem_neg hs)
  rw [← sub_eq_add_neg] at eL eN
  set L := r.stop - r.start with hL
  set N := y - r.start with hN
  have hLpos : 0 < L := by rw [hL]; linarith
  have hN0 : 0 ≤ N := by rw [hN]; linarith
  have hNL : N ≤ L := by rw [hL, hN]; linarith
  have hlen : length rnd r = rnd L := rfl
  rw [abs_of_pos hLpos, abs_le] at eL
  rw [abs_of_nonneg hN0, abs_le] at eN
  have hl : L * (1 - 1 / 2 ^ 24) ≤ rnd L := by have := eL.1; norm_num at this ⊢; linarith
  have hlpos : 0 < rnd L := lt_of_lt_of_le (by norm_num; linarith) hl
  have m1 : f32.Mem 1 := by have := memI 1 (by norm_num); simpa using this
  have hq0 : 0 ≤ rnd N / rnd L := div_nonneg (h.ge_of_ge mem_zero hN0) hlpos.le
  have hq1 : rnd N / rnd L ≤ 1 := by rw [div_le_one hlpos]; exact h.mono hNL
  have eq := h.err (x := rnd N / rnd L) (k := 0) (by norm_num [f32]) (by rw [abs_of_nonneg hq0]; simpa using hq1)
  refine ⟨rnd (rnd N / rnd L), ?_, h.ge_of_ge mem_zero hq0, h.le_of_le m1 hq1, ?_⟩
  · rw [percent, hlen, if_neg hlpos.ne']
  · have hd : |rnd N / rnd L - N / L| ≤ 1 / 2 ^ 22 - 1 / 2 ^ 25 := by
      have e : rnd N / rnd L - N / L = ((rnd N - N) * L - N * (rnd L - L)) / (rnd L * L) := by
        field_simp; ring
      rw [e, abs_div, abs_of_pos (mul_pos hlpos hLpos), div_le_iff₀ (mul_pos hlpos hLpos), abs_le]
      have hll : L * (1 - 1 / 2 ^ 24) * L ≤ rnd L * L := mul_le_mul_of_nonneg_right hl hLpos.le
      have a1 : |(rnd N - N) * L| ≤ L / 2 ^ 24 * L := by
        rw [abs_mul, abs_of_pos hLpos]
        refine mul_le_mul_of_nonneg_right ?_ hLpos.le
        rw [abs_le]; norm_num at eN ⊢; constructor <;> linarith [eN.1, eN.2]
      have a2 : |N * (rnd L - L)| ≤ L * (L / 2 ^ 24) := by
        rw [abs_mul, abs_of_nonneg hN0]
        refine mul_le_mul hNL ?_ (abs_nonneg _) hLpos.le
        rw [abs_le]; exact eL
      rw [abs_le] at a1 a2
      have hLL : 0 < L * L := mul_pos hLpos hLpos
      have e1 : L / 2 ^ 24 * L = L * L / 2 ^ 24 := by ring
      have e2 : L * (L / 2 ^ 24) = L * L / 2 ^ 24 := by ring
      have e3 : L * (1 - 1 / 2 ^ 24) * L = L * L * (1 - 1 / 2 ^ 24) := by ring
      rw [e1] at a1
      rw [e2] at a2
      rw [e3] at hll
      norm_num at a1 a2 hll ⊢
      constructor <;> linarith [a1.1, a1.2, a2.1, a2.2]
    norm_num [f32] at eq
    have e : rnd (rnd N / rnd L) - N / L = (rnd (rnd N / rnd L) - rnd N / rnd L) + (rnd N / rnd L - N / L) := by ring
    rw [e]
    refine (abs_add_le _ _).trans ?_
    norm_num at hd ⊢
    linarith

/-- The rung, and the share of the range that it is read back as. -/
theorem rung_spec (h : Nearest f32 rnd) {p : ℚ} (h0 : 0 ≤ p) (h1 : p ≤ 1) :
    0 ≤ ⌊rnd (65535 * p)⌋ ∧ ⌊rnd (65535 * p)⌋ ≤ 65535 ∧
    0 ≤ rnd (⌊rnd (65535 * p)⌋ * kYScale rnd) ∧ rnd (⌊rnd (65535 * p)⌋ * kYScale rnd) ≤ 1 ∧
    p - 1 / 65535 - 1 / 2 ^ 23 ≤ rnd (⌊rnd (65535 * p)⌋ * kYScale rnd) ∧
    rnd (⌊rnd (65535 * p)⌋ * kYScale rnd) ≤ p + 1 / 2 ^ 23 := by
  have v0 := h.ge_of_ge mem_zero (x := 65535 * p) (by linarith)
  have m1 : f32.Mem 1 := by have := memI 1 (by norm_num); simpa using this
  have m65 : f32.Mem 65535 := by have := memI 65535 (by norm_num); simpa using this
  have v1 := h.le_of_le m65 (x := 65535 * p) (by linarith)
  have ev := h.err (x := 65535 * p) (k := 16) (by norm_num [f32]) (by
    rw [abs_of_nonneg (by linarith)]; norm_num; linarith)
  norm_num [f32] at ev
  rw [abs_le] at ev
  rw [yscale h]
  set v := rnd (65535 * p)
  have f1 := Int.floor_le v
  have f2 := Int.lt_floor_add_one v
  have hn0 : 0 ≤ ⌊v⌋ := Int.floor_nonneg.mpr v0
  have hn1 : ⌊v⌋ ≤ 65535 := by
    have : (⌊v⌋ : ℚ) ≤ ((65535 : ℤ) : ℚ) := by push_cast; linarith
    exact_mod_cast this
  set n := ⌊v⌋
  have hq0 : (0 : ℚ) ≤ n := by exact_mod_cast hn0
  have hq1 : (n : ℚ) ≤ 65535 := by exact_mod_cast hn1
  have hr0 : (0 : ℚ) ≤ n * (65537 / 2 ^ 32) := by positivity
  have hr1 : (n : ℚ) * (65537 / 2 ^ 32) ≤ 1 := by norm_num; linarith
  have er := h.err (x := (n : ℚ) * (65537 / 2 ^ 32)) (k := 0) (by norm_num [f32]) (by
    rw [abs_of_nonneg hr0]; simpa using hr1)
  norm_num [f32] at er
  rw [abs_le] at er
  refine ⟨hn0, hn1, h.ge_of_ge mem_zero hr0, h.le_of_le m1 hr1, ?_, ?_⟩
  · norm_num at er ⊢; linarith [er.1, er.2, ev.1, ev.2]
  · norm_num at er ⊢; linarith [er.1, er.2, ev.1, ev.2]

/-- Interpolation with rounding. -/
theorem lerp_spec (h : Nearest f32 rnd) {r : Range ℚ} {p M : ℚ} (h0 : 0 ≤ p) (h1 : p ≤ 1)
    (hM : (2 : ℚ) ^ (-100 : ℤ) ≤ M) (hs : |r.start| ≤ M) (ht : |r.stop| ≤ M) :
    |lerp rnd r p - (r.start + p * (r.stop - r.start))| ≤ M / 2 ^ 21 := by
  have hMpos : 0 < M := lt_of_lt_of_le (two_zpow_pos _) hM
  have hM' : (2 : ℚ) ^ (-120 : ℤ) ≤ M := le_trans (by norm_num) hM
  have e1 := h.err (x := 1 - p) (k := 0) (by norm_num [f32]) (by
    rw [abs_of_nonneg (by linarith)]; norm_num; linarith)
  have m1 : f32.Mem 1 := by have := memI 1 (by norm_num); simpa using this
  have a0 := h.ge_of_ge mem_zero (x := 1 - p) (by linarith)
  have a1 := h.le_of_le m1 (x := 1 - p) (by linarith)
  norm_num [f32] at e1
  unfold lerp
  set a := rnd (1 - p)
  have e2 := err24 h (x := a * r.start) hM'
  have e3 := err24 h (x := p * r.stop) hM'
  have b2 : |a * r.start| ≤ M := by
    rw [abs_mul, abs_of_nonneg a0]
    nlinarith [abs_nonneg r.start]
  have b3 : |p * r.stop| ≤ M := by
    rw [abs_mul, abs_of_nonneg h0]
    nlinarith [abs_nonneg r.stop]
  have e2' : |rnd (a * r.start) - a * r.start| ≤ 9 / 8 * M / 2 ^ 24 := by
    refine e2.trans (div_le_div_of_nonneg_right ?_ (by norm_num))
    linarith
  have e3' : |rnd (p * r.stop) - p * r.stop| ≤ 9 / 8 * M / 2 ^ 24 := by
    refine e3.trans (div_le_div_of_nonneg_right ?_ (by norm_num))
    linarith
  set b := rnd (a * r.start)
  set c := rnd (p * r.stop)
  have e4 := err24 h (x := b + c) hM'
  rw [abs_le] at e2' e3' b2 b3
  have b4 : |b + c| ≤ 5 / 2 * M := by
    rw [abs_le]; norm_num at e2' e3'
    constructor <;> linarith [e2'.1, e2'.2, e3'.1, e3'.2, b2.1, b2.2, b3.1, b3.2]
  have e4' : |rnd (b + c) - (b + c)| ≤ 3 * M / 2 ^ 24 := by
    refine e4.trans (div_le_div_of_nonneg_right ?_ (by norm_num))
    norm_num; linarith
  have e5 : |(a - (1 - p)) * r.start| ≤ M / 2 ^ 25 := by
    rw [abs_mul]
    have : |a - (1 - p)| ≤ 1 / 2 ^ 25 := by norm_num; exact e1
    calc |a - (1 - p)| * |r.start| ≤ 1 / 2 ^ 25 * M := mul_le_mul this hs (abs_nonneg _) (by norm_num)
      _ = M / 2 ^ 25 := by ring
  have e : rnd (b + c) - (r.start + p * (r.stop - r.start)) =
      (rnd (b + c) - (b + c)) + (b - a * r.start) + (c - p * r.stop) + (a - (1 - p)) * r.start := by ring
  rw [e]
  rw [abs_le] at e4' e5 ⊢
  norm_num at e4' e5 e2' e3' ⊢
  constructor <;> linarith [e4'.1, e4'.2, e5.1, e5.2, e2'.1, e2'.2, e3'.1, e3'.2]

/-- **C84**: y coordinates in single precision.  Every float in a non-empty range is accepted, the conversion to 16 bits
is defined, and the value is read back within one rung (a 65535th of the range) of the original and not above it, up
to `2 ^ -21` of the range and of the magnitude of its bounds. -/
theorem C84_y (h : Nearest f32 rnd) {r : Range ℚ} {y M : ℚ} (hs : f32.Mem r.start) (ht : f32.Mem r.stop)
    (hy : f32.Mem y) (hlt : r.start < r.stop) (h0 : r.start ≤ y) (h1 : y ≤ r.stop) (hM : (2 : ℚ) ^ (-100 : ℤ) ≤ M)
    (hsM : |r.start| ≤ M) (htM : |r.stop| ≤ M) :
    ∃ n : ℤ, compactY rnd y r = some n ∧ 0 ≤ n ∧ n ≤ 65535 ∧
      y - (r.stop - r.start) / 65535 - ((r.stop - r.start) + M) / 2 ^ 21 ≤ readY rnd n r ∧
      readY rnd n r ≤ y + ((r.stop - r.start) + M) / 2 ^ 21 := by
  obtain ⟨p, hp, p0, p1, ep⟩ := percent_spec h hs ht hy hlt h0 h1
  obtain ⟨n0, n1, q0, q1, q2, q3⟩ := rung_spec h p0 p1
  have hlne : length rnd r ≠ 0 := by
    intro hc
    rw [percent, if_pos hc] at hp
    exact absurd hp (by simp)
  refine ⟨⌊rnd (65535 * p)⌋, ?_, n0, n1, ?_⟩
  · unfold compactY
    rw [if_pos ⟨h0, h1⟩, if_neg hlne, hp, Option.bind_some]
    have : max 0 (min p 1) = p := by rw [min_eq_left p1, max_eq_right p0]
    simp only [this]
    rw [if_pos ⟨n0, n1⟩]
  · have el := lerp_spec h q0 q1 hM hsM htM
    unfold readY
    set q := rnd (⌊rnd (65535 * p)⌋ * kYScale rnd)
    set L := r.stop - r.start with hL
    have hLpos : 0 < L := by rw [hL]; linarith
    have hyL : y = r.start + (y - r.start) / L * L := by field_simp; ring
    set t := (y - r.start) / L
    rw [abs_le] at ep el
    have lo : (t - 1 / 65535 - 3 / 2 ^ 23) * L ≤ q * L := by
      refine mul_le_mul_of_nonneg_right ?_ hLpos.le
      norm_num at ep q2 ⊢; linarith [ep.1, ep.2]
    have hi : q * L ≤ (t + 3 / 2 ^ 23) * L := by
      refine mul_le_mul_of_nonneg_right ?_ hLpos.le
      norm_num at ep q3 ⊢; linarith [ep.1, ep.2]
    have e1 : (t - 1 / 65535 - 3 / 2 ^ 23) * L = t * L - L / 65535 - 3 * L / 2 ^ 23 := by ring
    have e2 : (t + 3 / 2 ^ 23) * L = t * L + 3 * L / 2 ^ 23 := by ring
    rw [e1] at lo
    rw [e2] at hi
    norm_num at el lo hi ⊢
    constructor <;> linarith [el.1, el.2]

/-- **C84**: the ends of the range are stored and read back exactly, and quantisation preserves the order. -/
theorem C84_y_ends (h : Nearest f32 rnd) {r : Range ℚ} (hs : f32.Mem r.start) (ht : f32.Mem r.stop)
    (hlt : r.start < r.stop) :
    compactY rnd r.start r = some 0 ∧ readY rnd 0 r = r.start ∧
    compactY rnd r.stop r = some 65535 ∧ readY rnd 65535 r = r.stop := by
  have m65 : f32.Mem 65535 := by have := memI 65535 (by norm_num); simpa using this
  obtain ⟨l0, l1, hp⟩ := C83_lerp_ends h hs ht
  obtain ⟨p0, p1⟩ := hp hlt
  have hlne : length rnd r ≠ 0 := by
    intro hc
    rw [percent, if_pos hc] at p0
    exact absurd p0 (by simp)
  refine ⟨?_, ?_, ?_, ?_⟩
  · unfold compactY
    rw [if_pos ⟨le_rfl, hlt.le⟩, if_neg hlne, p0, Option.bind_some]
    simp [h.zero]
  · unfold readY
    rw [Int.cast_zero, zero_mul, h.zero, l0]
  · unfold compactY
    rw [if_pos ⟨hlt.le, le_rfl⟩, if_neg hlne, p1, Option.bind_some]
    have : max (0 : ℚ) (min 1 1) = 1 := by norm_num
    simp only [this, mul_one, h.exact m65]
    norm_num
  · unfold readY
    rw [yscale h]
    have : rnd (((65535 : ℤ) : ℚ) * (65537 / 2 ^ 32)) = 1 := by
      have m1 : f32.Mem 1 := by have := memI 1 (by norm_num); simpa using this
      have hle := h.le_of_le m1 (x := ((65535 : ℤ) : ℚ) * (65537 / 2 ^ 32)) (by norm_num)
      have hn := h.near (((65535 : ℤ) : ℚ) * (65537 / 2 ^ 32)) 1 m1
      have e : (1 : ℚ) - ((65535 : ℤ) : ℚ) * (65537 / 2 ^ 32) = 1 / 2 ^ 32 := by norm_num
      rw [e, abs_of_pos (show (0 : ℚ) < 1 / 2 ^ 32 by norm_num), abs_le] at hn
      have hlb : 1 - 1 / 2 ^ 31 ≤ rnd (((65535 : ℤ) : ℚ) * (65537 / 2 ^ 32)) := by
        have := hn.1
        norm_num at this ⊢; linarith
      by_contra hne
      have hlt : rnd (((65535 : ℤ) : ℚ) * (65537 / 2 ^ 32)) < 1 := lt_of_le_of_ne hle hne
      obtain ⟨m, e, hm, he, hme⟩ := h.mem (((65535 : ℤ) : ℚ) * (65537 / 2 ^ 32))
      rw [hme] at hlb hlt
      rcases le_or_gt (-24) e with h22 | h22
      · obtain ⟨k, hk⟩ := rescale m h22
        rw [hk] at hlb hlt
        norm_num at hlb hlt
        have h1 : (16777215 : ℚ) < k := by linarith
        have h2 : (k : ℚ) < 16777216 := by linarith
        have h1' : (16777215 : ℤ) < k := by exact_mod_cast h1
        have h2' : k < (16777216 : ℤ) := by exact_mod_cast h2
        omega
      · have hm' : |(m : ℚ)| ≤ 2 ^ 24 := by
          have h3 : ((|m| : ℤ) : ℚ) ≤ ((2 ^ 24 : ℤ) : ℚ) := by exact_mod_cast hm.le
          push_cast at h3; exact h3
        have h2 : (2 : ℚ) ^ e ≤ 2 ^ (-25 : ℤ) := zpow_le_zpow_right₀ (by norm_num) (by omega)
        have h4 := two_zpow_pos e
        have h5 : (m : ℚ) * 2 ^ e ≤ 2 ^ 24 * 2 ^ (-25 : ℤ) :=
          mul_le_mul ((le_abs_self _).trans hm') h2 h4.le (by norm_num)
        norm_num at h5 hlb
        linarith
    rw [this, l1]

/-- **C84**: quantisation preserves the order of the rungs. -/
theorem C84_y_monotone (h : Nearest f32 rnd) {r : Range ℚ} {y z : ℚ} {m n : ℤ} (hlt : r.start ≤ r.stop) (hyz : y ≤ z)
    (hm : compactY rnd y r = some m) (hn : compactY rnd z r = some n) : m ≤ n := by
  unfold compactY at hm hn
  have l0 : 0 ≤ length rnd r := h.ge_of_ge mem_zero (by linarith)
  split_ifs at hm hn with c1 c2 c3
  · injection hm with hm
    injection hn with hn
    omega
  · unfold percent at hm hn
    rw [if_neg c2, Option.bind_some] at hm hn
    simp only at hm hn
    split_ifs at hm hn
    injection hm with hm
    injection hn with hn
    rw [← hm, ← hn]
    refine Int.floor_le_floor (h.mono ?_)
    have e1 := h.mono (x := y - r.start) (y := z - r.start) (by linarith)
    have e2 := h.mono (div_le_div_of_nonneg_right e1 l0)
    have e3 := max_le_max (le_refl (0 : ℚ)) (min_le_min e2 (le_refl (1 : ℚ)))
    linarith

/-- **C84**: but the values read back need not be in that order.  Two keys of the range from 771 to 771.1875, the second
above the first, are stored on rungs 127 and 149 and read back swapped: the rounding in `Lerp` is coarser than a rung
when the range is small compared with its bounds. -/
theorem C84_y_order_lost (h : Nearest f32 rnd) :
    let r : Range ℚ := ⟨771, 771 + 3 / 16⟩
    let y : ℚ := 6316035 / 2 ^ 13
    let z : ℚ := 12632071 / 2 ^ 14
    f32.Mem r.start ∧ f32.Mem r.stop ∧ f32.Mem y ∧ f32.Mem z ∧ y < z ∧
      compactY rnd y r = some 127 ∧ compactY rnd z r = some 149 ∧ readY rnd 127 r = z ∧ readY rnd 149 r = y := by
  have ms : f32.Mem 771 := mem32 771 0 _ (by norm_num) (by norm_num) (by norm_num)
  have mt : f32.Mem (771 + 3 / 16) := mem32 12339 (-4) _ (by norm_num) (by norm_num) (by norm_num)
  have my : f32.Mem (6316035 / 2 ^ 13) := mem32 6316035 (-13) _ (by norm_num) (by norm_num) (by norm_num)
  have mz : f32.Mem (12632071 / 2 ^ 14) := mem32 12632071 (-14) _ (by norm_num) (by norm_num) (by norm_num)
  have close : ∀ (x : ℚ) (n e : ℤ), |n| < 2 ^ 24 → 2 ^ 23 < |n| → -149 ≤ e → |x - n * 2 ^ e| < 2 ^ (e - 1) →
      rnd x = n * 2 ^ e := by
    intro x n e h1 h2 h3 h4
    exact h.eq_of_close h1 (by norm_num [f32]; exact h3) (Or.inr (by norm_num [f32]; omega)) h4
  have L : rnd (771 + 3 / 16 - 771) = 3 / 16 :=
    h.exact (mem32 3 (-4) _ (by norm_num) (by norm_num) (by norm_num)) |>.trans (by norm_num)
  have N1 : rnd (6316035 / 2 ^ 13 - 771) = 3 / 2 ^ 13 := by
    have : f32.Mem (6316035 / 2 ^ 13 - 771) := mem32 3 (-13) _ (by norm_num) (by norm_num) (by norm_num)
    rw [h.exact this]; norm_num
  have N2 : rnd (12632071 / 2 ^ 14 - 771) = 7 / 2 ^ 14 := by
    have : f32.Mem (12632071 / 2 ^ 14 - 771) := mem32 7 (-14) _ (by norm_num) (by norm_num) (by norm_num)
    rw [h.exact this]; norm_num
  refine ⟨ms, mt, my, mz, by norm_num, ?_, ?_, ?_, ?_⟩
  · unfold compactY percent length
    dsimp only
    rw [L, N1]
    have p : rnd (3 / 2 ^ 13 / (3 / 16)) = 1 / 2 ^ 9 := by
      have : f32.Mem (3 / 2 ^ 13 / (3 / 16)) := mem32 1 (-9) _ (by norm_num) (by norm_num) (by norm_num)
      rw [h.exact this]; norm_num
    rw [p]
    have v : rnd (65535 * (1 / 2 ^ 9)) = 65535 / 2 ^ 9 := by
      have : f32.Mem (65535 * (1 / 2 ^ 9)) := mem32 65535 (-9) _ (by norm_num) (by norm_num) (by norm_num)
      rw [h.exact this]; norm_num
    have hm : max (0 : ℚ) (min (1 / 2 ^ 9) 1) = 1 / 2 ^ 9 := by norm_num
    have fl : ⌊(65535 / 2 ^ 9 : ℚ)⌋ = 127 := by rw [Int.floor_eq_iff]; norm_num
    rw [if_pos (by norm_num), if_neg (by norm_num), if_neg (by norm_num), Option.bind_some]
    simp only [hm, v, fl]
    norm_num
  · unfold compactY percent length
    dsimp only
    rw [L, N2]
    have p : rnd (7 / 2 ^ 14 / (3 / 16)) = 9786709 / 2 ^ 32 := by
      rw [close _ 9786709 (-32) (by norm_num) (by norm_num) (by norm_num)
        (by rw [abs_lt]; constructor <;> norm_num)]
      norm_num
    rw [p]
    have v : rnd (65535 * (9786709 / 2 ^ 32)) = 9786560 / 2 ^ 16 := by
      rw [close _ 9786560 (-16) (by norm_num) (by norm_num) (by norm_num)
        (by rw [abs_lt]; constructor <;> norm_num)]
      norm_num
    have hm : max (0 : ℚ) (min (9786709 / 2 ^ 32) 1) = 9786709 / 2 ^ 32 := by norm_num
    have fl : ⌊(9786560 / 2 ^ 16 : ℚ)⌋ = 149 := by rw [Int.floor_eq_iff]; norm_num
    rw [if_pos (by norm_num), if_neg (by norm_num), if_neg (by norm_num), Option.bind_some]
    simp only [hm, v, fl]
    norm_num
  · unfold readY lerp
    rw [yscale h]
    have p : rnd (((127 : ℤ) : ℚ) * (65537 / 2 ^ 32)) = 8323199 / 2 ^ 32 := by
      have : f32.Mem (((127 : ℤ) : ℚ) * (65537 / 2 ^ 32)) :=
        mem32 8323199 (-32) _ (by norm_num) (by norm_num) (by norm_num)
      rw [h.exact this]; norm_num
    have a : rnd (1 - 8323199 / 2 ^ 32) = 16744704 / 2 ^ 24 := by
      rw [close _ 16744704 (-24) (by norm_num) (by norm_num) (by norm_num)
        (by rw [abs_lt]; constructor <;> norm_num)]
      norm_num
    have b : rnd (16744704 / 2 ^ 24 * 771) = 12607585 / 2 ^ 14 := by
      rw [close _ 12607585 (-14) (by norm_num) (by norm_num) (by norm_num)
        (by rw [abs_lt]; constructor <;> norm_num)]
      norm_num
    have c : rnd (8323199 / 2 ^ 32 * (771 + 3 / 16)) = 12536615 / 2 ^ 23 := by
      rw [close _ 12536615 (-23) (by norm_num) (by norm_num) (by norm_num)
        (by rw [abs_lt]; constructor <;> norm_num)]
      norm_num
    have d : rnd (12607585 / 2 ^ 14 + 12536615 / 2 ^ 23) = 12632071 / 2 ^ 14 := by
      rw [close _ 12632071 (-14) (by norm_num) (by norm_num) (by norm_num)
        (by rw [abs_lt]; constructor <;> norm_num)]
      norm_num
    dsimp only
    rw [p, a, b, c, d]
  · unfold readY lerp
    rw [yscale h]
    have p : rnd (((149 : ℤ) : ℚ) * (65537 / 2 ^ 32)) = 9765013 / 2 ^ 32 := by
      have : f32.Mem (((149 : ℤ) : ℚ) * (65537 / 2 ^ 32)) :=
        mem32 9765013 (-32) _ (by norm_num) (by norm_num) (by norm_num)
      rw [h.exact this]; norm_num
    have a : rnd (1 - 9765013 / 2 ^ 32) = 16739071 / 2 ^ 24 := by
      rw [close _ 16739071 (-24) (by norm_num) (by norm_num) (by norm_num)
        (by rw [abs_lt]; constructor <;> norm_num)]
      norm_num
    have b : rnd (16739071 / 2 ^ 24 * 771) = 12603343 / 2 ^ 14 := by
      rw [close _ 12603343 (-14) (by norm_num) (by norm_num) (by norm_num)
        (by rw [abs_lt]; constructor <;> norm_num)]
      norm_num
    have c : rnd (9765013 / 2 ^ 32 * (771 + 3 / 16)) = 14708312 / 2 ^ 23 := by
      rw [close _ 14708312 (-23) (by norm_num) (by norm_num) (by norm_num)
        (by rw [abs_lt]; constructor <;> norm_num)]
      norm_num
    have d : rnd (12603343 / 2 ^ 14 + 14708312 / 2 ^ 23) = 6316035 / 2 ^ 13 := by
      rw [close _ 12632070 (-14) (by norm_num) (by norm_num) (by norm_num)
        (by rw [abs_lt]; constructor <;> norm_num)]
      norm_num
    dsimp only
    rw [p, a, b, c, d]

/-! A spline of one second, and a height of 0.3 between -1 and 1. -/
example : ∃ n, compactX (rne f32) (13421773 / 2 ^ 27 * 2 ^ 13) (recommendXGranularity (rne f32) 1000) = some n := by
  obtain ⟨n, h, -⟩ := C84_x (rne_nearest f32) (maxX := 1000) (x := 13421773 / 2 ^ 27 * 2 ^ 13)
    (le_trans (zpow_le_one_of_nonpos₀ (by norm_num) (by norm_num)) (by norm_num)) (by norm_num) (by norm_num)
  exact ⟨n, h⟩

example : ∃ n, compactY (rne f32) (10066330 / 2 ^ 25) ⟨-1, 1⟩ = some n := by
  obtain ⟨n, h, -⟩ := C84_y (rne_nearest f32) (r := ⟨-1, 1⟩) (y := 10066330 / 2 ^ 25) (M := 1)
    (mem32 (-1) 0 _ (by norm_num) (by norm_num) (by norm_num)) (mem32 1 0 _ (by norm_num) (by norm_num) (by norm_num))
    (mem32 10066330 (-25) _ (by norm_num) (by norm_num) (by norm_num)) (by norm_num) (by norm_num) (by norm_num)
    (zpow_le_one_of_nonpos₀ (by norm_num) (by norm_num)) (by norm_num) (by norm_num)
  exact ⟨n, h⟩

end Motive.Float.Quantize
