import Verif.Curve.Spring
import Mathlib.Analysis.Calculus.Deriv.Pow
import Mathlib.Analysis.Calculus.Deriv.Add
import Mathlib.Analysis.Calculus.Deriv.Mul
import Mathlib.Topology.Order.Basic
import Mathlib.Tactic.Linarith
import Mathlib.Tactic.Ring
import Mathlib.Tactic.FieldSimp
import Mathlib.Tactic.Positivity
import Mathlib.Tactic.LinearCombination
/-!
# C37: the spring oscillates about its target with geometrically scaled peaks
-/

namespace Motive.Curve.Spring

open Filter Topology

noncomputable section

/-! ### Specification -/

/-- A parabolic arc with apex `p` at `x0` that is zero at `z`. -/
def arc (p x0 z x : ℝ) : ℝ := p * (1 - ((x - x0) / (z - x0)) ^ 2)

/-- A spring that is actually oscillating, with `d` the time from a crossing of the target to the first peak. Every spring
the constructor makes from a moving or displaced start is one (`make_wf`). -/
structure WF (s : Spring) (d : ℝ) : Prop where
  bias_pos : 0 < s.bias
  sqrt_eq : s.sqrtB = Real.sqrt s.bias
  d_pos : 0 < d
  peak_eq : s.peak = -s.awayCoeff * d ^ 2
  away_ne : s.awayCoeff ≠ 0
  r_eq : s.r = if s.bias = 1 then 2 * d else d * (1 + s.bias) / (s.sqrtB - s.bias)
  log_eq : s.logRecip = 1 / Real.log s.sqrtB

/-- Displacement from the target at the `n`th peak. -/
def peakAt (s : Spring) (n : Int) : ℝ := (-s.bias) ^ n * s.peak

/-- Internal x of the `n`th peak. -/
def xPeak (s : Spring) (n : Int) : ℝ := if s.bias = 1 then s.r * n else s.r * (1 - s.sqrtB ^ n)

/-- Internal x of the crossing of the target after the `n`th peak. -/
def xZero (s : Spring) (d : ℝ) (n : Int) : ℝ := s.xPeak n + d * s.sqrtB ^ (n - 1)

/-- The oscillation has not yet been cut off: it is above the 1% of its starting period at which `CalculateContext`
switches to a constant. A spring of bias 1 is never cut off. -/
def Running (s : Spring) (x : ℝ) : Prop := s.bias = 1 ∨ 1 / 100 < 1 - s.internal x / s.r

/-! ### Geometry of the oscillation -/

section Geometry

variable {s : Spring} {d : ℝ}

theorem WF.S_pos (h : s.WF d) : 0 < s.sqrtB := by rw [h.sqrt_eq]; exact Real.sqrt_pos.mpr h.bias_pos

theorem WF.S_sq (h : s.WF d) : s.sqrtB * s.sqrtB = s.bias := by rw [h.sqrt_eq]; exact Real.mul_self_sqrt h.bias_pos.le

theorem WF.S_ne (h : s.WF d) (hb : s.bias ≠ 1) : s.sqrtB ≠ 1 := fun h1 => hb (by rw [← h.S_sq, h1]; norm_num)

theorem WF.S_one (h : s.WF d) (hb : s.bias = 1) : s.sqrtB = 1 := by rw [h.sqrt_eq, hb, Real.sqrt_one]

theorem WF.r_mul (h : s.WF d) (hb : s.bias ≠ 1) : s.r * (1 - s.sqrtB) * s.sqrtB = d * (1 + s.bias) := by
  rw [h.r_eq, if_neg hb, ← h.S_sq]
  have h0 := h.S_pos.ne'
  have h1 : 1 - s.sqrtB ≠ 0 := sub_ne_zero.mpr (h.S_ne hb).symm
  have h2 : s.sqrtB - s.sqrtB * s.sqrtB = s.sqrtB * (1 - s.sqrtB) := by ring
  rw [h2]
  field_simp

theorem xPeak_succ (h : s.WF d) (n : Int) : s.xPeak (n + 1) = s.xZero d n + d * s.sqrtB ^ (n + 1) := by
  unfold xZero xPeak
  have h0 := h.S_pos.ne'
  by_cases hb : s.bias = 1
  · rw [if_pos hb, if_pos hb, h.S_one hb, one_zpow, one_zpow, h.r_eq, if_pos hb]
    push_cast; ring
  · rw [if_neg hb, if_neg hb, zpow_add₀ h0, zpow_sub₀ h0, zpow_one]
    have := h.r_mul hb
    rw [← h.S_sq] at this
    field_simp
    linear_combination (s.sqrtB ^ n) * this

theorem xPeak_lt_xZero (h : s.WF d) (n : Int) : s.xPeak n < s.xZero d n := by
  have := mul_pos h.d_pos (zpow_pos h.S_pos (n - 1)); unfold xZero; linarith

theorem xZero_lt_xPeak (h : s.WF d) (n : Int) : s.xZero d n < s.xPeak (n + 1) := by
  have := mul_pos h.d_pos (zpow_pos h.S_pos (n + 1)); rw [xPeak_succ h]; linarith

theorem xPeak_strictMono (h : s.WF d) : StrictMono s.xPeak :=
  strictMono_int_of_lt_succ fun n => (xPeak_lt_xZero h n).trans (xZero_lt_xPeak h n)

theorem signed_eq (n : Int) (v : ℝ) : signed n v = (-1) ^ n * v := by
  unfold signed
  rcases Int.even_or_odd n with h | h
  · rw [if_neg (by rw [not_not]; exact Int.even_iff.mp h), h.neg_one_zpow, one_mul]
  · rw [if_pos (by rw [Int.odd_iff.mp h]; norm_num), h.neg_one_zpow]; ring

theorem S_zpow_sq (h : s.WF d) (n : Int) : s.sqrtB ^ n * s.sqrtB ^ n = s.bias ^ n := by
  rw [← mul_zpow, h.S_sq]

theorem peakAt_eq (n : Int) : s.peakAt n = (-1) ^ n * s.bias ^ n * s.peak := by
  unfold peakAt; rw [neg_eq_neg_one_mul, mul_zpow]

/-- E1: the toward arc from peak `n` reaches zero at the crossing. -/
theorem toward_zero (h : s.WF d) (n : Int) :
    s.peakAt n + (-1) ^ n * (s.awayCoeff * s.bias) * (d * s.sqrtB ^ (n - 1)) ^ 2 = 0 := by
  have h0 := h.S_pos.ne'
  have e : (d * s.sqrtB ^ (n - 1)) ^ 2 * s.bias = d ^ 2 * s.bias ^ n := by
    rw [mul_pow, sq (s.sqrtB ^ (n - 1)), S_zpow_sq h, zpow_sub₀ h.bias_pos.ne', zpow_one]
    have := h.bias_pos.ne'
    field_simp
  rw [peakAt_eq, h.peak_eq]
  linear_combination ((-1) ^ n * s.awayCoeff) * e

/-- E2: the away arc that ends in peak `n + 1` starts from zero at the crossing. -/
theorem away_zero (h : s.WF d) (n : Int) :
    s.peakAt (n + 1) + (-1) ^ (n + 1) * s.awayCoeff * (d * s.sqrtB ^ (n + 1)) ^ 2 = 0 := by
  rw [peakAt_eq, h.peak_eq, mul_pow, sq (s.sqrtB ^ (n + 1)), S_zpow_sq h]
  ring

/-- E3: the slopes agree at the crossing. -/
theorem slope_zero (h : s.WF d) (n : Int) :
    (-1) ^ n * (s.awayCoeff * s.bias) * (d * s.sqrtB ^ (n - 1)) =
      (-1) ^ (n + 1) * s.awayCoeff * (-(d * s.sqrtB ^ (n + 1))) := by
  have h0 := h.S_pos.ne'
  have e : s.sqrtB ^ (n + 1) = s.sqrtB ^ (n - 1) * s.bias := by
    rw [← h.S_sq, show n + 1 = (n - 1) + 2 by ring, zpow_add₀ h0]; norm_num [sq]
  rw [zpow_add₀ (by norm_num : (-1 : ℝ) ≠ 0), e]; ring

end Geometry

/-! ### What `CalculateContext` returns -/

/-- The description of the arc from peak `n` towards the target. -/
def towardCtx (s : Spring) (d : ℝ) (n : Int) : SpringCtx :=
  ⟨(-1) ^ n * (s.awayCoeff * s.bias), s.peakAt n, s.xPeak n, s.xPeak n, (s.xZero d n : WithTop ℝ)⟩

/-- The description of the arc away from the target to peak `n + 1`. -/
def awayCtx (s : Spring) (d : ℝ) (n : Int) : SpringCtx :=
  ⟨(-1) ^ (n + 1) * s.awayCoeff, s.peakAt (n + 1), s.xPeak (n + 1), s.xZero d n, (s.xPeak (n + 1) : WithTop ℝ)⟩

/-- With bias 1 the two arcs on either side of peak `n` are one parabola. -/
def fullCtx (s : Spring) (d : ℝ) (n : Int) : SpringCtx :=
  ⟨(-1) ^ n * s.awayCoeff, s.peakAt n, s.xPeak n, s.xZero d (n - 1), (s.xZero d n : WithTop ℝ)⟩

section Locate

variable {s : Spring} {d : ℝ}

/-- The iteration number found from the logarithm is that of the peak before. -/
theorem locate (h : s.WF d) (hb : s.bias ≠ 1) {x : ℝ} (hi : 0 < 1 - x / s.r) :
    s.xPeak ⌊Real.log (1 - x / s.r) * s.logRecip⌋ ≤ x ∧
      x < s.xPeak (⌊Real.log (1 - x / s.r) * s.logRecip⌋ + 1) := by
  set y := 1 - x / s.r with hy
  set n := ⌊Real.log y * s.logRecip⌋ with hn
  have hS := h.S_pos
  have hrm := h.r_mul hb
  have hpos : 0 < d * (1 + s.bias) := mul_pos h.d_pos (by linarith [h.bias_pos])
  have hr0 : s.r ≠ 0 := by intro h0; rw [h0] at hrm; linarith
  have hx : x = s.r * (1 - y) := by rw [hy]; field_simp; ring
  have hf1 : (n : ℝ) ≤ Real.log y * s.logRecip := Int.floor_le _
  have hf2 : Real.log y * s.logRecip < (n : ℝ) + 1 := Int.lt_floor_add_one _
  rw [h.log_eq, mul_one_div] at hf1 hf2
  have hl1 : Real.log (s.sqrtB ^ n) = n * Real.log s.sqrtB := Real.log_zpow _ _
  have hl2 : Real.log (s.sqrtB ^ (n + 1)) = (n + 1) * Real.log s.sqrtB := by rw [Real.log_zpow]; push_cast; ring
  have hp1 : 0 < s.sqrtB ^ n := zpow_pos hS _
  have hp2 : 0 < s.sqrtB ^ (n + 1) := zpow_pos hS _
  unfold xPeak
  rw [if_neg hb, if_neg hb]
  rcases lt_or_gt_of_ne (h.S_ne hb) with hlt | hgt
  · have hlog : Real.log s.sqrtB < 0 := Real.log_neg hS hlt
    have hr : 0 < s.r := by
      by_contra hc
      have : s.r * (1 - s.sqrtB) * s.sqrtB ≤ 0 :=
        mul_nonpos_of_nonpos_of_nonneg (mul_nonpos_of_nonpos_of_nonneg (not_lt.mp hc) (by linarith)) hS.le
      linarith
    rw [le_div_iff_of_neg hlog] at hf1
    rw [div_lt_iff_of_neg hlog] at hf2
    rw [← hl1] at hf1
    rw [← hl2] at hf2
    have g1 := (Real.log_le_log_iff hi hp1).mp hf1
    have g2 := (Real.log_lt_log_iff hp2 hi).mp hf2
    rw [hx]
    exact ⟨mul_le_mul_of_nonneg_left (by linarith) hr.le, mul_lt_mul_of_pos_left (by linarith) hr⟩
  · have hlog : 0 < Real.log s.sqrtB := Real.log_pos hgt
    have hr : s.r < 0 := by
      by_contra hc
      have : s.r * (1 - s.sqrtB) * s.sqrtB ≤ 0 :=
        mul_nonpos_of_nonpos_of_nonneg (mul_nonpos_of_nonneg_of_nonpos (not_lt.mp hc) (by linarith)) hS.le
      linarith
    rw [le_div_iff₀ hlog] at hf1
    rw [div_lt_iff₀ hlog] at hf2
    rw [← hl1] at hf1
    rw [← hl2] at hf2
    have g1 := (Real.log_le_log_iff hp1 hi).mp hf1
    have g2 := (Real.log_lt_log_iff hi hp2).mp hf2
    rw [hx]
    exact ⟨mul_le_mul_of_nonpos_left (by linarith) hr.le, mul_lt_mul_of_neg_left (by linarith) hr⟩

theorem contextAt_general (h : s.WF d) (hb : s.bias ≠ 1) {x : ℝ} (hi : 1 / 100 < 1 - x / s.r) :
    ∃ n, s.xPeak n ≤ x ∧ x < s.xPeak (n + 1) ∧
      s.contextAt x = some (if x < s.xZero d n then s.towardCtx d n else s.awayCtx d n) := by
  obtain ⟨h1, h2⟩ := locate h hb (by linarith : 0 < 1 - x / s.r)
  refine ⟨_, h1, h2, ?_⟩
  set n := ⌊Real.log (1 - x / s.r) * s.logRecip⌋ with hn
  have h0 := h.S_pos.ne'
  have hrm := h.r_mul hb
  have hpos : 0 < d * (1 + s.bias) := mul_pos h.d_pos (by linarith [h.bias_pos])
  have hr0 : s.r ≠ 0 := by intro h0; rw [h0] at hrm; linarith
  have hxb : s.r * (1 - s.sqrtB ^ n) = s.xPeak n := by unfold xPeak; rw [if_neg hb]
  have hxa : s.r * (1 - s.sqrtB ^ n * s.sqrtB) = s.xPeak (n + 1) := by
    unfold xPeak; rw [if_neg hb, zpow_add₀ h0, zpow_one]
  have hz : s.xPeak n + (s.xPeak (n + 1) - s.xPeak n) * (1 / (1 + s.bias)) = s.xZero d n := by
    have hb1 : 1 + s.bias ≠ 0 := by linarith [h.bias_pos]
    have e : s.sqrtB ^ (n + 1) = s.sqrtB ^ (n - 1) * s.bias := by
      rw [← h.S_sq, show n + 1 = (n - 1) + 2 by ring, zpow_add₀ h0]; norm_num [sq]
    rw [xPeak_succ h, e]; unfold xZero; field_simp; ring
  unfold contextAt
  rw [if_neg hb, if_neg hr0]
  simp only
  rw [if_neg (not_le.mpr hi)]
  simp only [← hn, hxb, hxa, hz]
  by_cases hlt : x < s.xZero d n
  · rw [if_pos hlt, if_pos hlt]
    simp only [towardCtx, signed_eq, peakAt_eq, S_zpow_sq h]
    congr 2; ring
  · rw [if_neg hlt, if_neg hlt]
    simp only [awayCtx, signed_eq, peakAt_eq, S_zpow_sq h, zpow_add₀ h.bias_pos.ne', zpow_one]
    congr 2; ring

theorem contextAt_one (h : s.WF d) (hb : s.bias = 1) (x : ℝ) :
    ∃ n, s.xZero d (n - 1) ≤ x ∧ x < s.xZero d n ∧ s.contextAt x = some (s.fullCtx d n) := by
  have hr : s.r = 2 * d := by rw [h.r_eq, if_pos hb]
  have hd := h.d_pos
  have hr0 : s.r ≠ 0 := by rw [hr]; linarith
  have hz : ∀ n, s.xZero d n = s.r * ((n : ℝ) + 1 / 2) := by
    intro n; unfold xZero xPeak; rw [if_pos hb, h.S_one hb, one_zpow, hr]; ring
  refine ⟨⌊x / s.r + 1 / 2⌋, ?_, ?_, ?_⟩
  · have hx : s.r * (x / s.r) = x := by field_simp
    rw [hz]
    refine (mul_le_mul_of_nonneg_left ?_ (by linarith)).trans_eq hx
    have := Int.floor_le (x / s.r + 1 / 2)
    push_cast; linarith
  · have hx : s.r * (x / s.r) = x := by field_simp
    rw [hz]
    refine lt_of_eq_of_lt hx.symm (mul_lt_mul_of_pos_left ?_ (by linarith))
    have := Int.lt_floor_add_one (x / s.r + 1 / 2)
    linarith
  · unfold contextAt contextOne
    rw [if_pos hb, if_neg hr0]
    simp only [fullCtx, signed_eq, peakAt_eq, hb, one_zpow, mul_one, hz, xPeak, if_true]
    congr 2
    · push_cast; ring
    · congr 1; ring

theorem validX_of {c : SpringCtx} {x hi : ℝ} (h1 : c.validStart ≤ s.internal x) (h2 : c.validEnd = (hi : WithTop ℝ))
    (h3 : s.internal x ≤ hi) : s.validX c x := by
  unfold validX
  rw [h2]
  exact ⟨by linarith, by linarith⟩

theorem eval_of_context {c : SpringCtx} {x hi : ℝ} (h0 : s.contextAt (s.internal x) = some c)
    (h1 : c.validStart ≤ s.internal x) (h2 : c.validEnd = (hi : WithTop ℝ)) (h3 : s.internal x ≤ hi) :
    s.eval x = some (s.target + c.peak + c.coeff * (s.internal x - c.peakX) ^ 2) ∧
      s.deriv x = some (2 * c.coeff * (s.internal x - c.peakX)) := by
  have hv := validX_of h1 h2 h3
  constructor
  · simp only [eval, context, h0, Option.bind_some, evalWith, if_pos hv]
    congr 1; ring
  · simp only [deriv, context, h0, Option.bind_some, derivWith, if_pos hv]

theorem xZero_strictMono (h : s.WF d) : StrictMono (s.xZero d) :=
  strictMono_int_of_lt_succ fun n => (xZero_lt_xPeak h n).trans (xPeak_lt_xZero h (n + 1))

/-- The value and derivative at a crossing are the same seen from either arc. -/
theorem crossing (h : s.WF d) (m : Int) :
    s.peakAt (m + 1) + (-1) ^ (m + 1) * s.awayCoeff * (s.xZero d m - s.xPeak (m + 1)) ^ 2 =
      s.peakAt m + (-1) ^ m * (s.awayCoeff * s.bias) * (s.xZero d m - s.xPeak m) ^ 2 ∧
    2 * ((-1) ^ (m + 1) * s.awayCoeff) * (s.xZero d m - s.xPeak (m + 1)) =
      2 * ((-1) ^ m * (s.awayCoeff * s.bias)) * (s.xZero d m - s.xPeak m) := by
  have e1 : s.xZero d m - s.xPeak m = d * s.sqrtB ^ (m - 1) := by unfold xZero; ring
  have e2 : s.xZero d m - s.xPeak (m + 1) = -(d * s.sqrtB ^ (m + 1)) := by rw [xPeak_succ h]; ring
  rw [e1, e2]
  constructor
  · linear_combination away_zero h m - toward_zero h m
  · linear_combination (-2) * slope_zero h m

/-- On the way from peak `m` to the target. -/
theorem eval_toward (h : s.WF d) {x : ℝ} (hr : s.Running x) {m : Int} (h1 : s.xPeak m ≤ s.internal x)
    (h2 : s.internal x ≤ s.xZero d m) :
    s.eval x = some (s.target + s.peakAt m + (-1) ^ m * (s.awayCoeff * s.bias) * (s.internal x - s.xPeak m) ^ 2) ∧
      s.deriv x = some (2 * ((-1) ^ m * (s.awayCoeff * s.bias)) * (s.internal x - s.xPeak m)) := by
  have hX := xPeak_strictMono h
  have hZ := xZero_strictMono h
  have cross := crossing h m
  by_cases hb : s.bias = 1
  · obtain ⟨n, g1, g2, g3⟩ := contextAt_one h hb (s.internal x)
    have n1 : n - 1 ≤ m := hZ.le_iff_le.mp (g1.trans h2)
    have n2 : m < n + 1 := hX.lt_iff_lt.mp (h1.trans_lt (g2.trans (xZero_lt_xPeak h n)))
    obtain ⟨e1, e2⟩ := eval_of_context g3 g1 rfl g2.le
    rw [e1, e2]
    rcases (show n = m ∨ n = m + 1 by omega) with rfl | rfl
    · simp only [fullCtx, hb, mul_one, and_self]
    · have hx : s.internal x = s.xZero d m := le_antisymm h2 (by simpa using g1)
      simp only [fullCtx, hx]
      exact ⟨by congr 1; linear_combination cross.1, by congr 1; exact cross.2⟩
  · obtain ⟨n, g1, g2, g3⟩ := contextAt_general h hb (hr.resolve_left hb)
    have n1 : m < n + 1 := hX.lt_iff_lt.mp (h1.trans_lt g2)
    have n2 : n < m + 1 := hX.lt_iff_lt.mp ((g1.trans h2).trans_lt (xZero_lt_xPeak h m))
    obtain rfl : n = m := by omega
    by_cases hlt : s.internal x < s.xZero d n
    · rw [if_pos hlt] at g3
      obtain ⟨e1, e2⟩ := eval_of_context g3 g1 rfl h2
      rw [e1, e2]
      simp only [towardCtx, and_self]
    · rw [if_neg hlt] at g3
      obtain ⟨e1, e2⟩ := eval_of_context g3 (not_lt.mp hlt) rfl g2.le
      rw [e1, e2]
      have hx : s.internal x = s.xZero d n := le_antisymm h2 (not_lt.mp hlt)
      simp only [awayCtx, hx]
      exact ⟨by congr 1; linear_combination cross.1, by congr 1; exact cross.2⟩

/-- On the way from the target to peak `m + 1`. -/
theorem eval_away (h : s.WF d) {x : ℝ} (hr : s.Running x) {m : Int} (h1 : s.xZero d m ≤ s.internal x)
    (h2 : s.internal x ≤ s.xPeak (m + 1)) :
    s.eval x = some (s.target + s.peakAt (m + 1) +
        (-1) ^ (m + 1) * s.awayCoeff * (s.internal x - s.xPeak (m + 1)) ^ 2) ∧
      s.deriv x = some (2 * ((-1) ^ (m + 1) * s.awayCoeff) * (s.internal x - s.xPeak (m + 1))) := by
  have hX := xPeak_strictMono h
  have hZ := xZero_strictMono h
  by_cases hb : s.bias = 1
  · obtain ⟨n, g1, g2, g3⟩ := contextAt_one h hb (s.internal x)
    have n1 : n - 1 < m + 1 := hZ.lt_iff_lt.mp ((g1.trans h2).trans_lt (xPeak_lt_xZero h (m + 1)))
    have n2 : m < n := hZ.lt_iff_lt.mp (h1.trans_lt g2)
    obtain rfl : n = m + 1 := by omega
    obtain ⟨e1, e2⟩ := eval_of_context g3 g1 rfl g2.le
    rw [e1, e2]
    simp only [fullCtx, and_self]
  · obtain ⟨n, g1, g2, g3⟩ := contextAt_general h hb (hr.resolve_left hb)
    rcases h2.lt_or_eq with h2' | h2'
    · have n1 : m < n + 1 := hX.lt_iff_lt.mp (((xPeak_lt_xZero h m).le.trans h1).trans_lt g2)
      have n2 : n < m + 1 := hX.lt_iff_lt.mp (g1.trans_lt h2')
      obtain rfl : n = m := by omega
      rw [if_neg (not_lt.mpr h1)] at g3
      obtain ⟨e1, e2⟩ := eval_of_context g3 h1 rfl h2
      rw [e1, e2]
      simp only [awayCtx, and_self]
    · have n1 : n ≤ m + 1 := hX.le_iff_le.mp (h2' ▸ g1)
      have n2 : m + 1 < n + 1 := hX.lt_iff_lt.mp (h2' ▸ g2)
      obtain rfl : n = m + 1 := by omega
      rw [if_pos (h2' ▸ xPeak_lt_xZero h (m + 1))] at g3
      obtain ⟨e1, e2⟩ := eval_of_context g3 g1 rfl (h2' ▸ (xPeak_lt_xZero h (m + 1)).le)
      rw [e1, e2]
      simp only [towardCtx, h2', sub_self]
      constructor <;> congr 1 <;> ring

/-- Every x belongs to some arc, unless the oscillation has been cut off. -/
theorem covered (h : s.WF d) {x : ℝ} (hr : s.Running x) :
    ∃ m, s.xPeak m ≤ s.internal x ∧ s.internal x < s.xPeak (m + 1) := by
  by_cases hb : s.bias = 1
  · obtain ⟨n, g1, g2, -⟩ := contextAt_one h hb (s.internal x)
    by_cases hx : s.xPeak n ≤ s.internal x
    · exact ⟨n, hx, g2.trans (xZero_lt_xPeak h n)⟩
    · refine ⟨n - 1, (xPeak_lt_xZero h (n - 1)).le.trans g1, ?_⟩
      rw [sub_add_cancel]; exact not_le.mp hx
  · obtain ⟨n, g1, g2, -⟩ := contextAt_general h hb (hr.resolve_left hb)
    exact ⟨n, g1, g2⟩

end Locate

/-! ### Smoothness -/

theorem hasDerivAt_glue {f g1 g2 : ℝ → ℝ} {v x : ℝ} (h1 : HasDerivAt g1 v x) (h2 : HasDerivAt g2 v x)
    (e1 : ∀ᶠ y in 𝓝[≤] x, f y = g1 y) (e2 : ∀ᶠ y in 𝓝[≥] x, f y = g2 y) : HasDerivAt f v x := by
  have a1 : HasDerivWithinAt f v (Set.Iic x) x :=
    h1.hasDerivWithinAt.congr_of_eventuallyEq e1 (e1.self_of_nhdsWithin (Set.self_mem_Iic))
  have a2 : HasDerivWithinAt f v (Set.Ici x) x :=
    h2.hasDerivWithinAt.congr_of_eventuallyEq e2 (e2.self_of_nhdsWithin (Set.self_mem_Ici))
  have := a1.union a2
  rwa [Set.Iic_union_Ici, hasDerivWithinAt_univ] at this

theorem hasDerivAt_quad (t p c x0 st x : ℝ) :
    HasDerivAt (fun y => t + p + c * ((y + st) - x0) ^ 2) (2 * c * ((x + st) - x0)) x := by
  have h1 : HasDerivAt (fun y : ℝ => (y + st) - x0) 1 x := ((hasDerivAt_id x).add_const st).sub_const x0
  have h2 := ((h1.pow 2).const_mul c).const_add (t + p)
  refine h2.congr_deriv ?_
  simp; ring

theorem running_eventually {s : Spring} {x : ℝ} (hr : s.Running x) : ∀ᶠ y in 𝓝 x, s.Running y := by
  rcases hr with h | h
  · exact Eventually.of_forall fun _ => Or.inl h
  · have hc : Continuous fun y => 1 - s.internal y / s.r := by unfold internal; fun_prop
    exact ((hc.tendsto x).eventually (lt_mem_nhds h)).mono fun y hy => Or.inr hy

/-! ### Property theorems -/

/-- C37: wherever the oscillation is running, the curve is the parabolic arc from the `n`th peak to the target or from
the target to the `(n + 1)`st. Peaks alternate sides of the target and each is `bias` times the previous one. -/
theorem C37_shape {s : Spring} {d : ℝ} (h : s.WF d) {x : ℝ} (hr : s.Running x) :
    ∃ n : Int, s.xPeak n ≤ s.internal x ∧ s.internal x < s.xPeak (n + 1) ∧
      s.xPeak n < s.xZero d n ∧ s.xZero d n < s.xPeak (n + 1) ∧
      s.peakAt (n + 1) = -s.bias * s.peakAt n ∧
      s.eval x = some (s.target + if s.internal x ≤ s.xZero d n
        then arc (s.peakAt n) (s.xPeak n) (s.xZero d n) (s.internal x)
        else arc (s.peakAt (n + 1)) (s.xPeak (n + 1)) (s.xZero d n) (s.internal x)) := by
  obtain ⟨n, h1, h2⟩ := covered h hr
  refine ⟨n, h1, h2, xPeak_lt_xZero h n, xZero_lt_xPeak h n, ?_, ?_⟩
  · unfold peakAt
    rw [zpow_add₀ (neg_ne_zero.mpr h.bias_pos.ne'), zpow_one]; ring
  · have e1 : s.xZero d n - s.xPeak n = d * s.sqrtB ^ (n - 1) := by unfold xZero; ring
    have e2 : s.xZero d n - s.xPeak (n + 1) = -(d * s.sqrtB ^ (n + 1)) := by rw [xPeak_succ h]; ring
    have p1 : d * s.sqrtB ^ (n - 1) ≠ 0 := (mul_pos h.d_pos (zpow_pos h.S_pos _)).ne'
    have p2 : d * s.sqrtB ^ (n + 1) ≠ 0 := (mul_pos h.d_pos (zpow_pos h.S_pos _)).ne'
    by_cases hz : s.internal x ≤ s.xZero d n
    · rw [if_pos hz, (eval_toward h hr h1 hz).1]
      have t := toward_zero h n
      congr 1
      unfold arc
      rw [e1, div_pow]
      generalize d * s.sqrtB ^ (n - 1) = w at *
      field_simp
      linear_combination (s.internal x - s.xPeak n) ^ 2 * t
    · rw [if_neg hz, (eval_away h hr (not_le.mp hz).le h2.le).1]
      have t := away_zero h n
      congr 1
      unfold arc
      rw [e2, div_pow, neg_sq]
      generalize d * s.sqrtB ^ (n + 1) = w at *
      field_simp
      linear_combination (s.internal x - s.xPeak (n + 1)) ^ 2 * t

/-- C37: wherever the oscillation is running, the curve is differentiable, so in particular continuous at the crossings
and at the peaks, and what `Derivative` reports is its derivative. -/
theorem C37_smooth {s : Spring} {d : ℝ} (h : s.WF d) {x : ℝ} (hr : s.Running x) :
    ∃ v, s.deriv x = some v ∧ HasDerivAt (fun y => (s.eval y).getD 0) v x := by
  obtain ⟨n, h1, h2⟩ := covered h hr
  have run := running_eventually hr
  -- the two formulas, as functions of the external x
  have tow : ∀ m y, s.Running y → s.xPeak m ≤ s.internal y → s.internal y ≤ s.xZero d m →
      (s.eval y).getD 0 = s.target + s.peakAt m + (-1) ^ m * (s.awayCoeff * s.bias) * ((y + s.startX) - s.xPeak m) ^ 2 :=
    fun m y a b c => by rw [(eval_toward h a b c).1]; rfl
  have awy : ∀ m y, s.Running y → s.xZero d m ≤ s.internal y → s.internal y ≤ s.xPeak (m + 1) →
      (s.eval y).getD 0 = s.target + s.peakAt (m + 1) +
        (-1) ^ (m + 1) * s.awayCoeff * ((y + s.startX) - s.xPeak (m + 1)) ^ 2 :=
    fun m y a b c => by rw [(eval_away h a b c).1]; rfl
  have hcont : Continuous s.internal := by unfold internal; fun_prop
  have above : ∀ a, a < s.internal x → ∀ᶠ y in 𝓝 x, a < s.internal y :=
    fun a ha => (hcont.tendsto x).eventually (lt_mem_nhds ha)
  have below : ∀ a, s.internal x < a → ∀ᶠ y in 𝓝 x, s.internal y < a :=
    fun a ha => (hcont.tendsto x).eventually (gt_mem_nhds ha)
  have leL : ∀ᶠ y in 𝓝[≤] x, s.internal y ≤ s.internal x :=
    eventually_mem_nhdsWithin.mono fun y hy => by unfold internal; have : y ≤ x := hy; linarith
  have geR : ∀ᶠ y in 𝓝[≥] x, s.internal x ≤ s.internal y :=
    eventually_mem_nhdsWithin.mono fun y hy => by unfold internal; have : x ≤ y := hy; linarith
  rcases lt_trichotomy (s.internal x) (s.xZero d n) with hz | hz | hz
  · -- on the toward arc, possibly at its peak
    refine ⟨_, (eval_toward h hr h1 hz.le).2, ?_⟩
    rcases h1.lt_or_eq with h1' | h1'
    · refine HasDerivAt.congr_of_eventuallyEq (hasDerivAt_quad s.target (s.peakAt n) _ (s.xPeak n) s.startX x) ?_
      filter_upwards [run, above _ h1', below _ hz] with y a b c
      exact tow n y a b.le c.le
    · have hx : x + s.startX = s.xPeak n := h1'.symm
      have q1 := hasDerivAt_quad s.target (s.peakAt n) ((-1) ^ n * s.awayCoeff) (s.xPeak n) s.startX x
      have q2 := hasDerivAt_quad s.target (s.peakAt n) ((-1) ^ n * (s.awayCoeff * s.bias)) (s.xPeak n) s.startX x
      have hv : 2 * ((-1) ^ n * s.awayCoeff) * (x + s.startX - s.xPeak n) =
          2 * ((-1) ^ n * (s.awayCoeff * s.bias)) * (s.internal x - s.xPeak n) := by
        unfold internal; rw [hx, sub_self]; ring
      rw [hv] at q1
      refine hasDerivAt_glue q1 q2 ?_ ?_
      · have hz' : s.xZero d (n - 1) < s.internal x := by
          have := xZero_lt_xPeak h (n - 1); rw [sub_add_cancel] at this; linarith
        filter_upwards [run.filter_mono nhdsWithin_le_nhds, (above _ hz').filter_mono nhdsWithin_le_nhds, leL]
          with y a b c
        have := awy (n - 1) y a b.le (by rw [sub_add_cancel]; linarith)
        rw [sub_add_cancel] at this
        exact this
      · filter_upwards [run.filter_mono nhdsWithin_le_nhds, (below _ hz).filter_mono nhdsWithin_le_nhds, geR]
          with y a b c
        exact tow n y a (h1.trans c) b.le
  · -- at the crossing
    refine ⟨_, (eval_toward h hr h1 hz.le).2, ?_⟩
    have q1 := hasDerivAt_quad s.target (s.peakAt n) ((-1) ^ n * (s.awayCoeff * s.bias)) (s.xPeak n) s.startX x
    have q2 := hasDerivAt_quad s.target (s.peakAt (n + 1)) ((-1) ^ (n + 1) * s.awayCoeff) (s.xPeak (n + 1)) s.startX x
    have hv : 2 * ((-1) ^ (n + 1) * s.awayCoeff) * (x + s.startX - s.xPeak (n + 1)) =
        2 * ((-1) ^ n * (s.awayCoeff * s.bias)) * (s.internal x - s.xPeak n) := by
      have := (crossing h n).2
      rw [← hz] at this; exact this
    rw [hv] at q2
    refine hasDerivAt_glue q1 q2 ?_ ?_
    · filter_upwards [run.filter_mono nhdsWithin_le_nhds,
        (above _ (hz ▸ xPeak_lt_xZero h n)).filter_mono nhdsWithin_le_nhds, leL] with y a b c
      exact tow n y a b.le (c.trans hz.le)
    · filter_upwards [run.filter_mono nhdsWithin_le_nhds, (below _ h2).filter_mono nhdsWithin_le_nhds, geR]
        with y a b c
      exact awy n y a (hz.ge.trans c) b.le
  · refine ⟨_, (eval_away h hr hz.le h2.le).2, ?_⟩
    refine HasDerivAt.congr_of_eventuallyEq
      (hasDerivAt_quad s.target (s.peakAt (n + 1)) _ (s.xPeak (n + 1)) s.startX x) ?_
    filter_upwards [run, above _ hz, below _ h2] with y a b c
    exact awy n y a b.le c.le

/-- C37: at the time `IterationX` gives for the `n`th peak the spring is at the `n`th peak, `(-bias)^n` times the first,
and momentarily at rest. (Bias other than 1; for bias 1 see `C37_iteration_x_bias_one`.) -/
theorem C37_peaks {s : Spring} {d : ℝ} (h : s.WF d) (hb : s.bias ≠ 1) (n : Int) (hr : s.Running (s.iterationX n)) :
    s.eval (s.iterationX n) = some (s.target + (-s.bias) ^ n * s.peak) ∧ s.deriv (s.iterationX n) = some 0 := by
  have hx : s.internal (s.iterationX n) = s.xPeak n := by
    unfold internal iterationX external xPeak; rw [if_neg hb, if_neg hb]; ring
  obtain ⟨e1, e2⟩ := eval_toward h hr hx.ge (hx.le.trans (xPeak_lt_xZero h n).le)
  rw [e1, e2, hx, sub_self]
  constructor
  · congr 1; unfold peakAt; ring
  · congr 1; ring

/-- C37: a damped spring that has been cut off is exactly at its target. -/
theorem C37_cut_off {s : Spring} (hb : s.bias ≠ 1) (hr0 : s.r ≠ 0) {x : ℝ} (hr : ¬ s.Running x) :
    s.eval x = some s.target ∧ s.deriv x = some 0 := by
  have hi : 1 - s.internal x / s.r ≤ 1 / 100 := not_lt.mp fun h => hr (Or.inr h)
  have hc : s.context x = some ⟨0, 0, 0, s.internal x, ⊤⟩ := by
    unfold context contextAt
    rw [if_neg hb, if_neg hr0]
    simp only
    rw [if_pos hi]
  have hv : s.validX ⟨0, 0, 0, s.internal x, ⊤⟩ x := trivial
  constructor
  · simp [eval, hc, evalWith, if_pos hv]
  · simp [deriv, hc, derivWith, if_pos hv]

end

end Motive.Curve.Spring
