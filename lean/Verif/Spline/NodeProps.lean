import Verif.Spline.Model
import Mathlib.Tactic.Linarith
import Mathlib.Tactic.FieldSimp
import Mathlib.Tactic.Positivity

/-!
# Quantised nodes (C21)
-/

namespace Motive.Splines
open Motive.Math Motive.Curve

theorem trunc_of_nonneg {r : ℝ} (h : 0 ≤ r) : trunc r = ⌊r⌋ := if_pos h
theorem trunc_of_neg {r : ℝ} (h : r < 0) : trunc r = ⌈r⌉ := if_neg (not_le.mpr h)

theorem trunc_intCast (k : ℤ) : trunc (k : ℝ) = k := by
  unfold trunc; split <;> simp

/-- Rounding toward zero moves by less than one and toward zero. -/
theorem trunc_bounds (r : ℝ) : |(trunc r : ℝ)| ≤ |r| ∧ |r - trunc r| < 1 ∧ 0 ≤ r * trunc r := by
  by_cases h : 0 ≤ r
  · rw [trunc_of_nonneg h]
    have h1 := Int.floor_le r
    have h2 := Int.lt_floor_add_one r
    have h0 : (0 : ℝ) ≤ (⌊r⌋ : ℝ) := by exact_mod_cast Int.floor_nonneg.mpr h
    refine ⟨?_, ?_, mul_nonneg h h0⟩
    · rw [abs_of_nonneg h0, abs_of_nonneg h]; exact h1
    · rw [abs_lt]; constructor <;> linarith
  · push Not at h
    rw [trunc_of_neg h]
    have h1 := Int.le_ceil r
    have h2 := Int.ceil_lt_add_one r
    have h0 : (⌈r⌉ : ℝ) ≤ 0 := by exact_mod_cast Int.ceil_le.mpr (by simpa using h.le)
    refine ⟨?_, ?_, mul_nonneg_of_nonpos_of_nonpos h.le h0⟩
    · rw [abs_of_nonpos h0, abs_of_neg h]; linarith
    · rw [abs_lt]; constructor <;> linarith

theorem angleScale_pos : 0 < angleScale := by unfold angleScale; positivity

theorem compactDerivative_range (d : ℝ) : -16383 ≤ compactDerivative d ∧ compactDerivative d ≤ 16383 := by
  obtain ⟨h1, -, -⟩ := trunc_bounds (Real.arctan d / angleScale)
  have hs := angleScale_pos
  have hlt : |Real.arctan d / angleScale| < 16384 := by
    rw [abs_div, abs_of_pos hs, div_lt_iff₀ hs]
    have a := Real.neg_pi_div_two_lt_arctan d
    have b := Real.arctan_lt_pi_div_two d
    rw [abs_lt]
    unfold angleScale
    constructor <;> linarith
  have : |(trunc (Real.arctan d / angleScale) : ℝ)| < 16384 := lt_of_le_of_lt h1 hlt
  have h2 : |trunc (Real.arctan d / angleScale)| < 16384 := by exact_mod_cast this
  rw [abs_lt] at h2
  unfold compactDerivative
  omega

/-- Quantisation of an x that is not below minus half a grain is rounding to the nearest integer. -/
theorem quantizeX_eq {x g : ℝ} (hg : 0 < g) (h0 : -(g / 2) ≤ x) (h1 : x / g + 1 / 2 < 2147483648) :
    quantizeX x g = some ⌊x / g + 1 / 2⌋ := by
  have hn : 0 ≤ x / g + 1 / 2 := by
    have : -(1 / 2) ≤ x / g := by rw [le_div_iff₀ hg]; linarith
    linarith
  unfold quantizeX toInt
  rw [if_neg hg.ne', trunc_of_nonneg hn, if_pos]
  refine ⟨le_trans (by norm_num) (Int.floor_nonneg.mpr hn), ?_⟩
  have := Int.floor_lt.mpr (show x / g + 1 / 2 < ((2147483648 : ℤ) : ℝ) by exact_mod_cast h1)
  omega

/-- C21, x: every x from 0 to 65535 grains is stored, and reads back within half a grain. -/
theorem C21_x_accurate {x g : ℝ} (hg : 0 < g) (h0 : 0 ≤ x) (h1 : x ≤ 65535 * g) :
    ∃ q, compactX x g = some q ∧ q ≤ 65535 ∧ ∀ y a, |(Node.mk q y a).X g - x| ≤ g / 2 := by
  have hd : x / g ≤ 65535 := by rw [div_le_iff₀ hg]; exact h1
  have hd0 : 0 ≤ x / g := div_nonneg h0 hg.le
  have hq := quantizeX_eq hg (by linarith) (show x / g + 1 / 2 < 2147483648 by linarith)
  have hf1 := Int.floor_le (x / g + 1 / 2)
  have hf2 := Int.lt_floor_add_one (x / g + 1 / 2)
  have hn : 0 ≤ ⌊x / g + 1 / 2⌋ := Int.floor_nonneg.mpr (by linarith)
  have hle : ⌊x / g + 1 / 2⌋ ≤ 65535 := by
    have := Int.floor_lt.mpr (show x / g + 1 / 2 < ((65536 : ℤ) : ℝ) by push_cast; linarith)
    omega
  refine ⟨⌊x / g + 1 / 2⌋.toNat, ?_, by omega, ?_⟩
  · unfold compactX; rw [hq]; simp only [Option.bind_some]; rw [if_pos ⟨hn, hle⟩]
  · intro y a
    have hc : ((⌊x / g + 1 / 2⌋.toNat : ℕ) : ℝ) = (⌊x / g + 1 / 2⌋ : ℝ) := by
      exact_mod_cast Int.toNat_of_nonneg hn
    simp only [Node.X, hc]
    have hx : x = x / g * g := by field_simp
    rw [abs_le]
    constructor
    · nlinarith
    · nlinarith

/-- C21, y: every y of the range is stored, reads back not above the original and less than one rung below
it. -/
theorem C21_y_accurate {y : ℝ} {r : Range ℝ} (h : r.start ≤ y ∧ y ≤ r.stop) :
    ∃ q, compactY y r = some q ∧ q ≤ 65535 ∧
      ∀ x a, (Node.mk x q a).Y r ≤ y ∧ y - (Node.mk x q a).Y r ≤ r.length / 65535 := by
  unfold compactY
  rw [if_pos h]
  by_cases hl : r.length = 0
  · rw [if_pos hl]
    refine ⟨0, rfl, by norm_num, fun x a => ?_⟩
    simp only [Range.length] at hl
    simp only [Node.Y, Range.lerp, Range.length, hl]
    constructor <;> norm_num <;> linarith [h.1, h.2]
  · rw [if_neg hl]
    have hlen : 0 < r.length := lt_of_le_of_ne (by simp only [Range.length]; linarith [h.1, h.2]) (Ne.symm hl)
    have hp0 : 0 ≤ (y - r.start) / r.length := div_nonneg (by linarith [h.1]) hlen.le
    have hp1 : (y - r.start) / r.length ≤ 1 := by
      rw [div_le_one hlen]; simp only [Range.length]; linarith [h.2]
    have hpc : r.percentClamped y = some ((y - r.start) / r.length) := by
      simp only [Range.percentClamped, Range.percent, if_neg hl, Option.map_some, min_eq_left hp1,
        max_eq_right hp0]
    rw [hpc]
    set p := (y - r.start) / r.length with hp
    have hy : y = r.start + p * r.length := by rw [hp]; field_simp; ring
    have hn : 0 ≤ ⌊65535 * p⌋ := Int.floor_nonneg.mpr (by positivity)
    have f1 := Int.floor_le (65535 * p)
    have f2 := Int.lt_floor_add_one (65535 * p)
    have hle : ⌊65535 * p⌋ ≤ 65535 := by
      have := Int.floor_lt.mpr (show 65535 * p < ((65536 : ℤ) : ℝ) by push_cast; linarith)
      omega
    refine ⟨⌊65535 * p⌋.toNat, ?_, by omega, fun x a => ?_⟩
    · simp [trunc_of_nonneg (show 0 ≤ 65535 * p by positivity)]
    · have hc : ((⌊65535 * p⌋.toNat : ℕ) : ℝ) = (⌊65535 * p⌋ : ℝ) := by
        exact_mod_cast Int.toNat_of_nonneg hn
      have hY : (Node.mk x ⌊65535 * p⌋.toNat a).Y r = r.start + (⌊65535 * p⌋ : ℝ) / 65535 * r.length := by
        simp only [Node.Y, Range.lerp, hc, Range.length]; ring
      rw [hY, hy]
      constructor
      · have : (⌊65535 * p⌋ : ℝ) / 65535 ≤ p := by rw [div_le_iff₀ (by norm_num)]; linarith
        nlinarith
      · have : p - (⌊65535 * p⌋ : ℝ) / 65535 ≤ 1 / 65535 := by
          have : (⌊65535 * p⌋ : ℝ) / 65535 * 65535 = ⌊65535 * p⌋ := by ring
          linarith
        have := mul_le_mul_of_nonneg_right this hlen.le
        linarith [show r.length / 65535 = 1 / 65535 * r.length by ring]

/-- C21, derivative: every slope is stored as an angle strictly between -90 and 90 degrees; it reads back as the
slope of an angle less than one unit away, never steeper than the original and with the same sign. -/
theorem C21_derivative_accurate (d : ℝ) (x y : ℕ) :
    let n := Node.mk x y (compactDerivative d)
    |Real.arctan n.D - Real.arctan d| < angleScale ∧ |n.D| ≤ |d| ∧ 0 ≤ n.D * d ∧
      -16383 ≤ n.angle ∧ n.angle ≤ 16383 := by
  intro n
  have hs := angleScale_pos
  obtain ⟨t1, t2, t3⟩ := trunc_bounds (Real.arctan d / angleScale)
  set t := trunc (Real.arctan d / angleScale) with ht
  set a := Real.arctan d with ha
  have hab1 := Real.neg_pi_div_two_lt_arctan d
  have hab2 := Real.arctan_lt_pi_div_two d
  have e1 : a / angleScale * angleScale = a := by field_simp
  have habs : |(t : ℝ) * angleScale| ≤ |a| := by
    rw [abs_mul, abs_of_pos hs]
    have := mul_le_mul_of_nonneg_right t1 hs.le
    rwa [abs_div, abs_of_pos hs, div_mul_cancel₀ _ hs.ne'] at this
  have hlt : |a| < Real.pi / 2 := by rw [abs_lt]; constructor <;> linarith
  have hb := abs_lt.mp (lt_of_le_of_lt habs hlt)
  have hD : n.D = Real.tan ((t : ℝ) * angleScale) := rfl
  have harc : Real.arctan n.D = (t : ℝ) * angleScale := by rw [hD]; exact Real.arctan_tan (by linarith) hb.2
  have hsign : 0 ≤ (t : ℝ) * angleScale * a := by
    have : a / angleScale * t * (angleScale * angleScale) = (t : ℝ) * angleScale * a := by field_simp
    rw [← this]; positivity
  refine ⟨?_, ?_, ?_, (compactDerivative_range d).1, (compactDerivative_range d).2⟩
  · rw [harc]
    have := mul_lt_mul_of_pos_right t2 hs
    rw [one_mul] at this
    rw [abs_sub_comm]
    calc |a - t * angleScale| = |a / angleScale - t| * angleScale := by
          rw [← abs_of_pos hs, ← abs_mul, sub_mul, abs_of_pos hs, e1]
      _ < angleScale := this
  · have htan : ∀ z : ℝ, |z| < Real.pi / 2 → |Real.tan z| = Real.tan |z| := by
      intro z hz
      rcases le_total 0 z with h | h
      · rw [abs_of_nonneg h] at hz ⊢
        exact abs_of_nonneg (Real.tan_nonneg_of_nonneg_of_le_pi_div_two h hz.le)
      · rw [abs_of_nonpos h] at hz ⊢
        rw [Real.tan_neg]
        exact abs_of_nonpos (by
          have := Real.tan_nonneg_of_nonneg_of_le_pi_div_two (x := -z) (by linarith) hz.le
          rw [Real.tan_neg] at this; linarith)
    have hd : d = Real.tan a := (Real.tan_arctan d).symm
    rw [hD, hd, htan _ (lt_of_le_of_lt habs hlt), htan _ hlt]
    rcases eq_or_lt_of_le habs with h | h
    · rw [h]
    · exact (Real.tan_lt_tan_of_nonneg_of_lt_pi_div_two (abs_nonneg _) hlt h).le
  · rcases lt_trichotomy d 0 with h | h | h
    · have ha0 : a < 0 := by rw [ha]; exact Real.arctan_lt_zero.mpr h
      have : (t : ℝ) * angleScale ≤ 0 := by nlinarith
      have : n.D ≤ 0 := by
        have h1 := Real.tan_arctan n.D
        have h2 : Real.arctan n.D ≤ 0 := by rw [harc]; exact this
        by_contra hc
        push Not at hc
        have := Real.arctan_pos.mpr hc
        linarith
      nlinarith
    · rw [h]; simp
    · have ha0 : 0 < a := by rw [ha]; exact Real.arctan_pos.mpr h
      have : 0 ≤ (t : ℝ) * angleScale := by nlinarith
      have : 0 ≤ n.D := by
        by_contra hc
        push Not at hc
        have := Real.arctan_lt_zero.mpr hc
        linarith
      nlinarith

/-- A node whose integers are in the ranges that the compacting functions produce. -/
def Node.Ok (n : Node) : Prop := n.x ≤ 65535 ∧ n.y ≤ 65535 ∧ -16383 ≤ n.angle ∧ n.angle ≤ 16383

/-- C21, exactness on the grid: storing what a node reads back gives the same node. -/
theorem C21_exact_on_grid {n : Node} (hn : n.Ok) {g : ℝ} (hg : 0 < g) {r : Range ℝ} (hr : r.start < r.stop) :
    Node.make (n.X g) (n.Y r) n.D g r = some n := by
  obtain ⟨h1, h2, h3, h4⟩ := hn
  have hs := angleScale_pos
  have hx : compactX (n.X g) g = some n.x := by
    have hd : n.X g / g = (n.x : ℝ) := by simp only [Node.X]; field_simp
    have hle : (n.x : ℝ) ≤ 65535 := by exact_mod_cast h1
    have h0 : (0 : ℝ) ≤ (n.x : ℝ) := by positivity
    have hq := quantizeX_eq (x := n.X g) hg (by
      simp only [Node.X]
      have : 0 ≤ (n.x : ℝ) * g := by positivity
      linarith) (by rw [hd]; linarith)
    have hf : ⌊n.X g / g + 1 / 2⌋ = (n.x : ℤ) := by
      rw [hd, Int.floor_eq_iff]; push_cast; constructor <;> linarith
    unfold compactX
    rw [hq, hf]
    simp only [Option.bind_some]
    rw [if_pos (by omega)]
    simp
  have hy : compactY (n.Y r) r = some n.y := by
    have hlen : 0 < r.length := by simp only [Range.length]; linarith
    have hp0 : (0 : ℝ) ≤ (n.y : ℝ) / 65535 := by positivity
    have hle : (n.y : ℝ) ≤ 65535 := by exact_mod_cast h2
    have hp1 : (n.y : ℝ) / 65535 ≤ 1 := by rw [div_le_one (by norm_num)]; exact hle
    have hY : n.Y r = r.start + (n.y : ℝ) / 65535 * r.length := by
      simp only [Node.Y, Range.lerp, Range.length]; ring
    have hper : (n.Y r - r.start) / r.length = (n.y : ℝ) / 65535 := by rw [hY]; field_simp; ring
    unfold compactY
    rw [if_pos ⟨by rw [hY]; nlinarith, by
      rw [hY]
      have : r.stop = r.start + r.length := by simp only [Range.length]; ring
      rw [this]; nlinarith⟩, if_neg hlen.ne']
    simp only [Range.percentClamped, Range.percent, if_neg hlen.ne', Option.map_some, hper, min_eq_left hp1,
      max_eq_right hp0]
    have : (65535 : ℝ) * ((n.y : ℝ) / 65535) = ((n.y : ℤ) : ℝ) := by push_cast; ring
    rw [this, trunc_intCast]
    simp
  have hd : compactDerivative n.D = n.angle := by
    have b1 : (-16383 : ℝ) ≤ n.angle := by exact_mod_cast h3
    have b2 : (n.angle : ℝ) ≤ 16383 := by exact_mod_cast h4
    have e : angleScale * 16384 = Real.pi / 2 := by unfold angleScale; ring
    have : Real.arctan n.D = (n.angle : ℝ) * angleScale := by
      simp only [Node.D]
      apply Real.arctan_tan <;> nlinarith
    unfold compactDerivative
    rw [this, mul_div_assoc, div_self hs.ne', mul_one, trunc_intCast]
  simp [Node.make, hx, hy, hd]

/-- C21, the constructor: a node made from values inside the ranges exists and has integers in range. -/
theorem C21_make {x y d g : ℝ} {r : Range ℝ} (hg : 0 < g) (h0 : 0 ≤ x) (h1 : x ≤ 65535 * g)
    (hy : r.start ≤ y ∧ y ≤ r.stop) :
    ∃ n, Node.make x y d g r = some n ∧ n.Ok ∧ |n.X g - x| ≤ g / 2 ∧ n.Y r ≤ y ∧
      y - n.Y r ≤ r.length / 65535 ∧ |Real.arctan n.D - Real.arctan d| < angleScale := by
  obtain ⟨qx, e1, b1, a1⟩ := C21_x_accurate hg h0 h1
  obtain ⟨qy, e2, b2, a2⟩ := C21_y_accurate hy
  have hD := C21_derivative_accurate d qx qy
  refine ⟨⟨qx, qy, compactDerivative d⟩, by simp [Node.make, e1, e2], ⟨b1, b2, hD.2.2.2.1, hD.2.2.2.2⟩,
    a1 _ _, (a2 _ _).1, (a2 _ _).2, hD.1⟩

/-- The header says that y is rounded to the closest rung; it is rounded down: 9/10 of a rung is stored as 0. -/
theorem C21_y_not_closest : compactY (9 / 10) ⟨0, 65535⟩ = some 0 := by
  have hl : (Range.mk 0 65535 : Range ℝ).length ≠ 0 := by norm_num [Range.length]
  have h : (65535 : ℝ) * max 0 (min ((9 / 10 - 0) / (Range.mk 0 65535 : Range ℝ).length) 1) = 9 / 10 := by
    have : ((9 / 10 - 0) / (Range.mk 0 65535 : Range ℝ).length) = 9 / 10 / 65535 := by simp [Range.length]
    rw [this, min_eq_left (by norm_num), max_eq_right (by norm_num)]; norm_num
  unfold compactY
  rw [if_pos (by norm_num), if_neg hl]
  simp only [Range.percentClamped, Range.percent, if_neg hl, Option.map_some]
  rw [h, trunc_of_nonneg (by norm_num), show ⌊(9 / 10 : ℝ)⌋ = 0 by norm_num [Int.floor_eq_iff]]
  rfl

/-- The hypotheses of the theorems above hold of ordinary data. -/
example : ∃ n, Node.make (5 / 2) 3 (-7) (1 / 2) ⟨-1, 4⟩ = some n ∧ n.Ok := by
  obtain ⟨n, h, ok, -⟩ := C21_make (x := 5 / 2) (y := 3) (d := -7) (g := 1 / 2) (r := ⟨-1, 4⟩) (by norm_num)
    (by norm_num) (by norm_num) (by norm_num)
  exact ⟨n, h, ok⟩
example : (Node.mk 17 40000 (-200)).Ok := by unfold Node.Ok; norm_num

end Motive.Splines
