import Verif.Curve.SpringStart
/-!
# C37: walking along the spring one frame at a time
-/

namespace Motive.Curve.Spring

noncomputable section

/-- `c` describes one arc of the oscillation. -/
def Describes (s : Spring) (d : ℝ) (c : SpringCtx) : Prop :=
  ∃ n : Int, c = s.towardCtx d n ∨ c = s.awayCtx d n ∨ (s.bias = 1 ∧ c = s.fullCtx d n)

/-- `c` describes the arc that contains `x`, or a damped spring that has been cut off. -/
def Follows (s : Spring) (d : ℝ) (c : SpringCtx) (x : ℝ) : Prop :=
  (s.Describes d c ∧ c.validStart ≤ s.internal x ∧ ∃ hi : ℝ, c.validEnd = (hi : WithTop ℝ) ∧ s.internal x ≤ hi) ∨
    (s.bias < 1 ∧ ∃ x0, c = ⟨0, 0, 0, x0, ⊤⟩ ∧ x0 ≤ s.internal x ∧ 1 - x0 / s.r ≤ 1 / 100)

section Inc

variable {s : Spring} {d : ℝ}

theorem r_pos (h : s.WF d) (hb : s.bias < 1) : 0 < s.r := by
  have hrm := h.r_mul hb.ne
  have hS := h.S_pos
  have hlt : s.sqrtB < 1 := by
    have := h.S_sq
    nlinarith
  by_contra hc
  have : s.r * (1 - s.sqrtB) * s.sqrtB ≤ 0 :=
    mul_nonpos_of_nonpos_of_nonneg (mul_nonpos_of_nonpos_of_nonneg (not_lt.mp hc) (by linarith)) hS.le
  have : 0 < d * (1 + s.bias) := mul_pos h.d_pos (by linarith [h.bias_pos])
  linarith

theorem r_neg (h : s.WF d) (hb : 1 < s.bias) : s.r < 0 := by
  have hrm := h.r_mul hb.ne'
  have hS := h.S_pos
  have hlt : 1 < s.sqrtB := by
    have := h.S_sq
    by_contra hc
    nlinarith
  by_contra hc
  have : s.r * (1 - s.sqrtB) * s.sqrtB ≤ 0 :=
    mul_nonpos_of_nonpos_of_nonneg (mul_nonpos_of_nonneg_of_nonpos (not_lt.mp hc) (by linarith)) hS.le
  have : 0 < d * (1 + s.bias) := mul_pos h.d_pos (by linarith [h.bias_pos])
  linarith

theorem away_step (h : s.WF d) (n : Int) {c : SpringCtx} (hc : c.coeff = (-1) ^ n * (s.awayCoeff * s.bias))
    (hp : c.peak = s.peakAt n) (hx : c.peakX = s.xPeak n) : s.stepCtx c (s.xZero d n) = some (s.awayCtx d n) := by
  have hne : ¬ c.peakX = s.xZero d n := by rw [hx]; exact (xPeak_lt_xZero h n).ne
  have hb := h.bias_pos.ne'
  have e1 : -c.coeff / s.bias = (-1) ^ (n + 1) * s.awayCoeff := by
    rw [hc, zpow_add₀ (by norm_num : (-1 : ℝ) ≠ 0)]; field_simp
  have e2 : -c.peak * s.bias = s.peakAt (n + 1) := by
    rw [hp]; unfold peakAt; rw [zpow_add₀ (neg_ne_zero.mpr hb), zpow_one]; ring
  have hne1 : (-1 : ℝ) ^ (n + 1) * s.awayCoeff ≠ 0 := mul_ne_zero (zpow_ne_zero _ (by norm_num)) h.away_ne
  have e3 : -s.peakAt (n + 1) / ((-1) ^ (n + 1) * s.awayCoeff) = (d * s.sqrtB ^ (n + 1)) ^ 2 := by
    rw [div_eq_iff hne1]; linear_combination -(away_zero h n)
  have hpos : 0 ≤ d * s.sqrtB ^ (n + 1) := (mul_pos h.d_pos (zpow_pos h.S_pos _)).le
  unfold stepCtx
  simp only
  rw [if_neg (by tauto)]
  simp only [if_neg hne, e1, e2, e3]
  rw [if_neg (by push Not; exact ⟨hne1, by positivity⟩), Real.sqrt_sq hpos, ← xPeak_succ h]
  rfl

theorem toward_step (h : s.WF d) (n : Int) :
    s.stepCtx (s.awayCtx d n) (s.xPeak (n + 1)) = some (s.towardCtx d (n + 1)) := by
  have hb := h.bias_pos.ne'
  have hne1 : (-1 : ℝ) ^ (n + 1) * s.awayCoeff * s.bias ≠ 0 :=
    mul_ne_zero (mul_ne_zero (zpow_ne_zero _ (by norm_num)) h.away_ne) hb
  have e3 : -s.peakAt (n + 1) / ((-1) ^ (n + 1) * s.awayCoeff * s.bias) = (d * s.sqrtB ^ n) ^ 2 := by
    rw [div_eq_iff hne1]
    have := toward_zero h (n + 1)
    rw [add_sub_cancel_right] at this
    linear_combination -this
  have hpos : 0 ≤ d * s.sqrtB ^ n := (mul_pos h.d_pos (zpow_pos h.S_pos _)).le
  have hz : s.xPeak (n + 1) + d * s.sqrtB ^ n = s.xZero d (n + 1) := by unfold xZero; rw [add_sub_cancel_right]
  unfold stepCtx awayCtx
  simp only
  rw [if_neg (by tauto)]
  simp only [if_true, e3]
  rw [if_neg (by push Not; exact ⟨hne1, by positivity⟩), Real.sqrt_sq hpos, hz]
  simp [towardCtx, mul_assoc]

/-- Evaluating with a description of the arc that contains `x` gives the value of the spring. -/
theorem eval_describes (h : s.WF d) {c : SpringCtx} {x : ℝ} (hr : s.Running x) (hf : s.Follows d c x) :
    s.evalWith c x = s.eval x ∧ s.derivWith c x = s.deriv x := by
  rcases hf with ⟨⟨n, hn⟩, h1, hi, h2, h3⟩ | ⟨hb, x0, rfl, hx0, hc⟩
  · have hv := validX_of h1 h2 h3
    unfold evalWith derivWith
    rw [if_pos hv, if_pos hv]
    rcases hn with rfl | rfl | ⟨hb, rfl⟩
    · obtain rfl : s.xZero d n = hi := WithTop.coe_injective h2
      obtain ⟨e1, e2⟩ := eval_toward h hr h1 h3
      rw [e1, e2]; simp only [towardCtx]
      exact ⟨by congr 1; ring, trivial⟩
    · obtain rfl : s.xPeak (n + 1) = hi := WithTop.coe_injective h2
      obtain ⟨e1, e2⟩ := eval_away h hr h1 h3
      rw [e1, e2]; simp only [awayCtx]
      exact ⟨by congr 1; ring, trivial⟩
    · obtain rfl : s.xZero d n = hi := WithTop.coe_injective h2
      simp only [fullCtx]
      rcases le_total (s.xPeak n) (s.internal x) with hx | hx
      · obtain ⟨e1, e2⟩ := eval_toward h hr hx h3
        rw [e1, e2, hb, mul_one]
        exact ⟨by congr 1; ring, rfl⟩
      · obtain ⟨e1, e2⟩ := eval_away h hr (m := n - 1) h1 (by rwa [sub_add_cancel])
        rw [sub_add_cancel] at e1 e2
        rw [e1, e2]
        exact ⟨by congr 1; ring, rfl⟩
  · exfalso
    have hr0 := r_pos h hb
    have := hr.resolve_left hb.ne
    have : x0 / s.r ≤ s.internal x / s.r := by gcongr
    linarith

theorem context_follows (h : s.WF d) {x : ℝ} (hr : s.bias < 1 ∨ s.Running x) :
    ∃ c, s.context x = some c ∧ s.Follows d c x := by
  by_cases hrun : s.Running x
  · by_cases hb : s.bias = 1
    · obtain ⟨n, g1, g2, g3⟩ := contextAt_one h hb (s.internal x)
      exact ⟨_, g3, Or.inl ⟨⟨n, Or.inr (Or.inr ⟨hb, rfl⟩)⟩, g1, _, rfl, g2.le⟩⟩
    · obtain ⟨n, g1, g2, g3⟩ := contextAt_general h hb (hrun.resolve_left hb)
      refine ⟨_, g3, Or.inl ?_⟩
      split_ifs with hlt
      · exact ⟨⟨n, Or.inl rfl⟩, g1, _, rfl, hlt.le⟩
      · exact ⟨⟨n, Or.inr (Or.inl rfl)⟩, not_lt.mp hlt, _, rfl, g2.le⟩
  · have hb := hr.resolve_right hrun
    have hi : 1 - s.internal x / s.r ≤ 1 / 100 := not_lt.mp fun g => hrun (Or.inr g)
    refine ⟨⟨0, 0, 0, s.internal x, ⊤⟩, ?_, Or.inr ⟨hb, _, rfl, le_rfl, hi⟩⟩
    unfold context contextAt
    rw [if_neg hb.ne, if_neg (r_pos h hb).ne']
    simp only
    rw [if_pos hi]

theorem follows_valid {c : SpringCtx} {x : ℝ} (hf : s.Follows d c x) : s.validX c x := by
  rcases hf with ⟨-, h1, hi, h2, h3⟩ | ⟨-, x0, rfl, -, -⟩
  · exact validX_of h1 h2 h3
  · trivial

/-- One step keeps following the curve. -/
theorem increment_follows (h : s.WF d) {c : SpringCtx} {x0 x : ℝ} (hf : s.Follows d c x0) (hx : x0 ≤ x)
    (hr : s.bias < 1 ∨ s.Running x) : ∃ c', s.increment c x = some c' ∧ s.Follows d c' x := by
  have hxi : s.internal x0 ≤ s.internal x := by unfold internal; linarith
  suffices hs : ∃ c', s.advanceCtx c x = some c' ∧ s.Follows d c' x by
    obtain ⟨c', e, g⟩ := hs
    refine ⟨c', ?_, g⟩
    unfold increment
    rw [e, Option.bind_some, if_pos (follows_valid g)]
  unfold advanceCtx
  rcases hf with ⟨⟨n, hn⟩, h1, hi, h2, h3⟩ | ⟨hb, y, rfl, hy, hc⟩
  · have h2' : c.validEnd = some hi := h2
    rw [h2']
    simp only
    by_cases hlt : hi < s.internal x
    · rw [if_pos hlt]
      have hstep : ∃ m, s.stepCtx c hi = some m ∧ s.Describes d m ∧ m.validStart = hi ∧
          ∃ hi' : ℝ, m.validEnd = (hi' : WithTop ℝ) := by
        rcases hn with rfl | rfl | ⟨hb, rfl⟩
        · obtain rfl : s.xZero d n = hi := WithTop.coe_injective h2
          exact ⟨_, away_step h n rfl rfl rfl, ⟨n, Or.inr (Or.inl rfl)⟩, rfl, _, rfl⟩
        · obtain rfl : s.xPeak (n + 1) = hi := WithTop.coe_injective h2
          exact ⟨_, toward_step h n, ⟨n + 1, Or.inl rfl⟩, rfl, _, rfl⟩
        · obtain rfl : s.xZero d n = hi := WithTop.coe_injective h2
          exact ⟨_, away_step h n (by simp [fullCtx, hb]) rfl rfl, ⟨n, Or.inr (Or.inl rfl)⟩, rfl, _, rfl⟩
      obtain ⟨m, hm, hd, hs, hi', he⟩ := hstep
      rw [hm, Option.bind_some]
      by_cases hlt' : m.validEnd < ((s.internal x : ℝ) : WithTop ℝ)
      · rw [if_pos hlt']
        have : s.external (s.internal x) = x := by unfold external internal; ring
        rw [this]
        exact context_follows h hr
      · rw [if_neg hlt']
        refine ⟨m, rfl, Or.inl ⟨hd, hs ▸ hlt.le, hi', he, ?_⟩⟩
        rw [he, not_lt, WithTop.coe_le_coe] at hlt'
        exact hlt'
    · rw [if_neg hlt]
      exact ⟨c, rfl, Or.inl ⟨⟨n, hn⟩, h1.trans hxi, hi, h2, not_lt.mp hlt⟩⟩
  · exact ⟨_, rfl, Or.inr ⟨hb, y, rfl, hy.trans hxi, hc⟩⟩

/-- By the time the geometric series of periods has run out, a damped spring has been cut off. -/
theorem follows_end (h : s.WF d) {c : SpringCtx} {x : ℝ} (hf : s.Follows d c x) (hb : s.bias < 1)
    (hx : s.r ≤ s.internal x) : s.evalWith c x = some s.target ∧ s.derivWith c x = some 0 := by
  rcases hf with ⟨⟨n, hn⟩, h1, hi, h2, h3⟩ | ⟨-, x0, rfl, -, -⟩
  · exfalso
    have hr := r_pos h hb
    have hp : ∀ n, s.xPeak n < s.r := by
      intro n
      unfold xPeak
      rw [if_neg hb.ne]
      have := mul_pos hr (zpow_pos h.S_pos n)
      linarith
    rcases hn with rfl | rfl | ⟨hb', rfl⟩
    · obtain rfl : s.xZero d n = hi := WithTop.coe_injective h2
      have := (xZero_lt_xPeak h n).trans (hp _)
      linarith
    · obtain rfl : s.xPeak (n + 1) = hi := WithTop.coe_injective h2
      have := hp (n + 1)
      linarith
    · exact hb.ne hb'
  · have hv : s.validX ⟨0, 0, 0, x0, ⊤⟩ x := trivial
    unfold evalWith derivWith
    rw [if_pos hv, if_pos hv]
    simp

/-- An arc stays between the target and its peak. -/
theorem follows_bound (h : s.WF d) (hb : s.bias ≤ 1) {c : SpringCtx} {x : ℝ} (hf : s.Follows d c x)
    (hx : -d ≤ s.internal x) : ∃ v, s.evalWith c x = some v ∧ |v - s.target| ≤ |s.peak| := by
  have hv := follows_valid hf
  refine ⟨_, by unfold evalWith; rw [if_pos hv], ?_⟩
  have key : ∀ (p q w t : ℝ), p + q * w ^ 2 = 0 → t ^ 2 ≤ w ^ 2 → w ≠ 0 → |p| ≤ |s.peak| →
      |p + q * t ^ 2| ≤ |s.peak| := by
    intro p q w t e1 e2 e3 e4
    have hw : 0 < w ^ 2 := by positivity
    have : p + q * t ^ 2 = p * (1 - t ^ 2 / w ^ 2) := by field_simp; linear_combination (t ^ 2) * e1
    rw [this, abs_mul]
    have h1 : 0 ≤ 1 - t ^ 2 / w ^ 2 := by
      have : t ^ 2 / w ^ 2 ≤ 1 := (div_le_one hw).mpr e2
      linarith
    have h2 : 1 - t ^ 2 / w ^ 2 ≤ 1 := by have : 0 ≤ t ^ 2 / w ^ 2 := by positivity
                                          linarith
    rw [abs_of_nonneg h1]
    calc |p| * (1 - t ^ 2 / w ^ 2) ≤ |p| * 1 := by gcongr
      _ ≤ |s.peak| := by rwa [mul_one]
  have pk : ∀ n : Int, 0 ≤ n → |s.peakAt n| ≤ |s.peak| := by
    intro n hn
    unfold peakAt
    rw [abs_mul, abs_zpow, abs_neg, abs_of_pos h.bias_pos]
    obtain ⟨k, rfl⟩ := Int.eq_ofNat_of_zero_le hn
    rw [zpow_natCast]
    have := pow_le_one₀ h.bias_pos.le hb (n := k)
    have := mul_le_mul_of_nonneg_right this (abs_nonneg s.peak)
    linarith
  have hz1 : s.xZero d (-1) ≤ s.internal x := by rw [xZero_neg_one h]; exact hx
  rcases hf with ⟨⟨n, hn⟩, h1, hi, h2, h3⟩ | ⟨hb', x0, rfl, hx0, hc⟩
  · rcases hn with rfl | rfl | ⟨hb', rfl⟩
    · obtain rfl : s.xZero d n = hi := WithTop.coe_injective h2
      simp only [towardCtx] at h1 ⊢
      have e1 : s.xZero d n - s.xPeak n = d * s.sqrtB ^ (n - 1) := by unfold xZero; ring
      have hz := toward_zero h n
      rw [← e1] at hz
      have hn1 := (xZero_strictMono h).le_iff_le.mp (hz1.trans h3)
      rcases hn1.lt_or_eq with hn0 | rfl
      · have := key _ _ _ (s.internal x - s.xPeak n) hz (pow_le_pow_left₀ (by linarith) (by linarith) 2)
          (sub_pos.mpr (xPeak_lt_xZero h n)).ne' (pk n (by omega))
        convert this using 2; ring
      · have hxx : s.internal x = s.xZero d (-1) := le_antisymm h3 hz1
        have e : s.target + s.peakAt (-1) + (-1) ^ (-1 : Int) * (s.awayCoeff * s.bias) * (s.internal x - s.xPeak (-1)) *
            (s.internal x - s.xPeak (-1)) - s.target = 0 := by rw [hxx]; linear_combination hz
        rw [e, abs_zero]; exact abs_nonneg _
    · obtain rfl : s.xPeak (n + 1) = hi := WithTop.coe_injective h2
      have hn0 : 0 ≤ n + 1 := by
        have := (xZero_strictMono h).lt_iff_lt.mp ((hz1.trans h3).trans_lt (xPeak_lt_xZero h (n + 1)))
        omega
      simp only [awayCtx] at h1 ⊢
      have := key _ _ _ (s.internal x - s.xPeak (n + 1)) (away_zero h n) ?_ (mul_pos h.d_pos (zpow_pos h.S_pos _)).ne' (pk _ hn0)
      · convert this using 2; ring
      · have e2 : s.xZero d n - s.xPeak (n + 1) = -(d * s.sqrtB ^ (n + 1)) := by rw [xPeak_succ h]; ring
        have e3 : d * s.sqrtB ^ (n + 1) = s.xPeak (n + 1) - s.xZero d n := by linarith
        rw [e3, sq_le_sq, abs_of_nonpos (by linarith), abs_of_nonneg (by linarith)]
        linarith
    · obtain rfl : s.xZero d n = hi := WithTop.coe_injective h2
      simp only [fullCtx] at h1 ⊢
      have e1 : s.xZero d n - s.xPeak n = d := by unfold xZero; rw [h.S_one hb', one_zpow]; ring
      have e2 : s.xPeak n - s.xZero d (n - 1) = d := by
        have := xPeak_succ h (n - 1)
        rw [sub_add_cancel, h.S_one hb', one_zpow] at this; linarith
      have hz := toward_zero h n
      rw [h.S_one hb', one_zpow, hb', mul_one, mul_one] at hz
      have hd := h.d_pos
      have hn1 := (xZero_strictMono h).le_iff_le.mp (hz1.trans h3)
      rcases hn1.lt_or_eq with hn0 | rfl
      · have := key _ _ _ (s.internal x - s.xPeak n) hz (sq_le_sq' (by linarith) (by linarith)) hd.ne' (pk n (by omega))
        convert this using 2; ring
      · have hxx : s.internal x - s.xPeak (-1) = d := by
          rw [← e1]; congr 1; exact le_antisymm h3 hz1
        have e : s.target + s.peakAt (-1) + (-1) ^ (-1 : Int) * s.awayCoeff * (s.internal x - s.xPeak (-1)) *
            (s.internal x - s.xPeak (-1)) - s.target = 0 := by rw [hxx]; linear_combination hz
        rw [e, abs_zero]; exact abs_nonneg _
  · simp

end Inc

end

end Motive.Curve.Spring
