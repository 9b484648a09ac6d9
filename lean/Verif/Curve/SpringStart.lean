import Verif.Curve.SpringProps
/-!
# C37: where the spring starts, and stepping it along

The constructor reproduces the starting value and velocity, stepping a context along agrees with computing it afresh, and
the cases where these fail.
-/

namespace Motive.Curve.Spring

noncomputable section

/-! ### The constructor -/

section Make

variable {cur curD tgt typD typX bias : ℝ} {s : Spring}

theorem clampBias_bounds {bias : ℝ} (h1 : 1 / 10000 ≤ bias) (h2 : bias ≤ 10000) :
    1 / 10000 ≤ clampBias bias ∧ clampBias bias ≤ 10000 := by
  unfold clampBias
  split_ifs with a b
  · norm_num
  · exact ⟨le_min (by norm_num) h1, (min_le_right _ _).trans h2⟩
  · exact ⟨le_max_of_le_left (by norm_num), max_le (by norm_num) h2⟩

/-- The facts about the constructed spring that everything else follows from. `k` is the acceleration the start lies on. -/
theorem make_facts (h : make cur curD tgt typD typX bias = some s) :
    ∃ k tc : ℝ, 0 < tc ∧ 0 < k ∧ tc = typD / (typX * typX) ∧ 0 < s.bias ∧ s.bias = clampBias bias ∧ s.target = tgt ∧
      (0 ≤ (tgt - cur) * curD → k = tc) ∧ (¬ 0 ≤ (tgt - cur) * curD → k = tc / s.bias) ∧
      s.awayCoeff = (if tgt - cur < 0 then -1 else 1) * (tc / s.bias) ∧
      curD = 2 * ((if tgt - cur < 0 then -1 else 1) * k) * s.startX ∧
      s.peak = -((tgt - cur) + (if tgt - cur < 0 then -1 else 1) * k * s.startX ^ 2) ∧
      |s.peak| = |tgt - cur| + k * s.startX ^ 2 ∧ s.peak = -(if tgt - cur < 0 then -1 else 1) * |s.peak| ∧
      s.sqrtB = Real.sqrt s.bias ∧ s.logRecip = 1 / Real.log s.sqrtB ∧
      s.r = if s.bias = 1 then 2 * Real.sqrt (|s.peak| / (tc / s.bias))
        else Real.sqrt (|s.peak| / (tc / s.bias)) * (1 + s.bias) / (s.sqrtB - s.bias) := by
  unfold make at h
  simp only at h
  by_cases h0 : typX = 0 ∨ typD ≤ 0 ∨ clampBias bias ≤ 0
  · rw [if_pos h0] at h; exact absurd h (by simp)
  rw [if_neg h0] at h
  push Not at h0
  obtain ⟨hx, hD, hb⟩ := h0
  have hx2 : 0 < typX * typX := mul_self_pos.mpr hx
  have htc : 0 < typD / (typX * typX) := div_pos hD hx2
  set tc := typD / (typX * typX) with htcd
  have hac : 0 < tc / clampBias bias := div_pos htc hb
  set k := (if 0 ≤ (tgt - cur) * curD then tc else tc / clampBias bias) with hk
  have hk0 : 0 < k := by rw [hk]; split_ifs <;> assumption
  set sg : ℝ := (if tgt - cur < 0 then -1 else 1) with hsg
  have hsv : ∀ v : ℝ, (if tgt - cur < 0 then -v else v) = sg * v := by
    intro v; rw [hsg]; split_ifs <;> ring
  rw [hsv, hsv] at h
  have hsg1 : sg * sg = 1 := by rw [hsg]; split_ifs <;> norm_num
  have hsg0 : sg ≠ 0 := by intro h; rw [h] at hsg1; norm_num at hsg1
  cases h
  refine ⟨k, tc, htc, hk0, rfl, hb, rfl, rfl, fun h => by rw [hk, if_pos h], fun h => by rw [hk, if_neg h], rfl, ?_, ?_,
    ?_, ?_, rfl, rfl, rfl⟩
  · simp only; field_simp
  · simp only; ring
  all_goals
    simp only
    set px := 1 / 2 * curD / (sg * k)
    have hd : sg * |tgt - cur| = tgt - cur := by
      rw [hsg]; split_ifs with hn
      · rw [abs_of_neg hn]; ring
      · rw [abs_of_nonneg (not_lt.mp hn)]; ring
    have e : -(tgt - cur + sg * k * px * px) = -sg * (|tgt - cur| + k * px ^ 2) := by
      linear_combination hd
    have hnn : 0 ≤ |tgt - cur| + k * px ^ 2 := by positivity
    have habs : |(-sg)| = 1 := by rw [abs_neg, hsg]; split_ifs <;> norm_num
    rw [e, abs_mul, habs, one_mul, abs_of_nonneg hnn]

theorem make_wf (h : make cur curD tgt typD typX bias = some s) (hm : tgt ≠ cur ∨ curD ≠ 0) :
    ∃ d, s.WF d ∧ ∃ tc, 0 < tc ∧ tc = typD / (typX * typX) ∧ d ^ 2 = |s.peak| / (tc / s.bias) := by
  obtain ⟨k, tc, htc, hk, htcd, hb, -, -, -, -, hac, hcD, -, hpa, hps, hS, hl, hr⟩ := make_facts h
  have hp : 0 < |s.peak| := by
    rw [hpa]
    rcases hm with hm | hm
    · have : 0 < |tgt - cur| := abs_pos.mpr (sub_ne_zero.mpr hm)
      positivity
    · have : s.startX ≠ 0 := fun h0 => hm (by rw [hcD, h0]; ring)
      have : 0 < k * s.startX ^ 2 := by positivity
      have := abs_nonneg (tgt - cur)
      linarith
  have hq : 0 < |s.peak| / (tc / s.bias) := by positivity
  refine ⟨Real.sqrt (|s.peak| / (tc / s.bias)), ⟨hb, hS, Real.sqrt_pos.mpr hq, ?_, ?_, hr, hl⟩, tc, htc, htcd,
    Real.sq_sqrt hq.le⟩
  · rw [Real.sq_sqrt hq.le, hac]
    have h1 := htc.ne'
    have h2 := hb.ne'
    rw [hps, abs_mul, abs_abs]
    split_ifs <;> field_simp <;> simp
  · rw [hac]; split_ifs <;> simp [htc.ne', hb.ne']

theorem xPeak_zero (s : Spring) : s.xPeak 0 = 0 := by unfold xPeak; split_ifs <;> simp

theorem xZero_zero {d : ℝ} (_ : s.WF d) : s.xZero d 0 = d / s.sqrtB := by
  unfold xZero; rw [xPeak_zero, zero_add, zero_sub, zpow_neg_one, div_eq_mul_inv]

theorem xZero_neg_one {d : ℝ} (h : s.WF d) : s.xZero d (-1) = -d := by
  have := xPeak_succ h (-1)
  rw [show (-1 : Int) + 1 = 0 by norm_num, xPeak_zero, zpow_zero] at this; linarith

theorem S_bounds {d : ℝ} (h : s.WF d) (h1 : 1 / 10000 ≤ s.bias) (h2 : s.bias ≤ 10000) :
    1 / 100 ≤ s.sqrtB ∧ s.sqrtB ≤ 100 := by
  have := h.S_sq
  have := h.S_pos
  constructor <;> nlinarith

/-- Anything between the crossing before the first peak and the crossing after it is before the cut-off. -/
theorem running_near {d : ℝ} (h : s.WF d) (h1 : 1 / 10000 ≤ s.bias) (h2 : s.bias ≤ 10000) {x : ℝ}
    (hl : -d ≤ s.internal x) (hu : s.internal x ≤ d / s.sqrtB) : s.Running x := by
  by_cases hb : s.bias = 1
  · exact Or.inl hb
  right
  obtain ⟨s1, s2⟩ := S_bounds h h1 h2
  have hS := h.S_pos
  have hSS := h.S_sq
  have hd := h.d_pos
  have hrm := h.r_mul hb
  set y := s.internal x
  rcases lt_or_gt_of_ne (h.S_ne hb) with hlt | hgt
  · have hr : 0 < s.r := by
      by_contra hc
      have : s.r * (1 - s.sqrtB) * s.sqrtB ≤ 0 :=
        mul_nonpos_of_nonpos_of_nonneg (mul_nonpos_of_nonpos_of_nonneg (not_lt.mp hc) (by linarith)) hS.le
      have : 0 < d * (1 + s.bias) := mul_pos hd (by linarith [h.bias_pos])
      linarith
    have : y / s.r < 99 / 100 := by
      rw [div_lt_iff₀ hr]
      have hyS : y * s.sqrtB ≤ d := by rwa [le_div_iff₀ hS] at hu
      -- d (1 + b) = r (1 - S) S
      have e : d * (1 + s.bias) ≤ 99 / 100 * (s.r * s.sqrtB) := by
        rw [← hrm]
        have : s.r * s.sqrtB * (1 - s.sqrtB) ≤ s.r * s.sqrtB * (99 / 100) :=
          mul_le_mul_of_nonneg_left (by linarith) (by positivity)
        linarith
      have e2 : d < 99 / 100 * (s.r * s.sqrtB) := by nlinarith [mul_pos hd h.bias_pos]
      have e3 : y * s.sqrtB < 99 / 100 * s.r * s.sqrtB := by linarith
      exact lt_of_mul_lt_mul_right e3 hS.le
    linarith
  · have hr : s.r < 0 := by
      by_contra hc
      have : s.r * (1 - s.sqrtB) * s.sqrtB ≤ 0 :=
        mul_nonpos_of_nonpos_of_nonneg (mul_nonpos_of_nonneg_of_nonpos (not_lt.mp hc) (by linarith)) hS.le
      have : 0 < d * (1 + s.bias) := mul_pos hd (by linarith [h.bias_pos])
      linarith
    have : y / s.r < 99 / 100 := by
      rw [div_lt_iff_of_neg hr]
      -- -d <= y, so it is enough that 99/100 r < -d
      have e : (-s.r) * ((s.sqrtB - 1) * s.sqrtB) = d * (1 + s.bias) := by rw [← hrm]; ring
      have hpos : 0 < (s.sqrtB - 1) * s.sqrtB := mul_pos (by linarith) hS
      have e2 : (s.sqrtB - 1) * s.sqrtB < 99 / 100 * (1 + s.bias) := by rw [← hSS]; nlinarith
      have e3 : d * ((s.sqrtB - 1) * s.sqrtB) < 99 / 100 * (-s.r) * ((s.sqrtB - 1) * s.sqrtB) := by
        calc d * ((s.sqrtB - 1) * s.sqrtB) < d * (99 / 100 * (1 + s.bias)) := mul_lt_mul_of_pos_left e2 hd
          _ = 99 / 100 * (-s.r) * ((s.sqrtB - 1) * s.sqrtB) := by linear_combination (-99 / 100) * e
      have e4 := lt_of_mul_lt_mul_right e3 hpos.le
      linarith
    linarith

end Make

theorem start_facts {cur curD tgt typD typX bias : ℝ} {s : Spring} (h : make cur curD tgt typD typX bias = some s)
    (hb1 : 1 / 10000 ≤ bias) (hb2 : bias ≤ 10000) (hm : tgt ≠ cur ∨ 0 < curD) :
    ∃ d, s.WF d ∧ -d ≤ s.internal 0 ∧ s.Running 0 ∧
    s.eval 0 = some cur ∧ s.deriv 0 = some curD ∧ |tgt - cur| ≤ |s.peak| := by
  obtain ⟨d, hw, tc', htc', htcd', hd2⟩ := make_wf h (hm.imp id ne_of_gt)
  obtain ⟨k, tc, htc, hk, htcd, hb, hbc, htg, hk1, hk2, hac, hcD, hpk, hpa, hps, -, -, -⟩ := make_facts h
  obtain rfl : tc' = tc := by rw [htcd, htcd']
  have hbb := clampBias_bounds hb1 hb2
  rw [← hbc] at hbb
  set sg : ℝ := (if tgt - cur < 0 then -1 else 1) with hsg
  have hsg1 : sg * sg = 1 := by rw [hsg]; split_ifs <;> norm_num
  have hS := hw.S_pos
  have hd := hw.d_pos
  have hd3 : d ^ 2 * tc' = |s.peak| * s.bias := by rw [hd2]; field_simp
  have hI : s.internal 0 = s.startX := by unfold internal; ring
  have hpk0 : s.peakAt 0 = s.peak := by unfold peakAt; simp
  have hpeak : |tgt - cur| ≤ |s.peak| := by
    rw [hpa]; have := mul_nonneg hk.le (sq_nonneg s.startX); linarith
  have hsgd : 0 ≤ sg * (tgt - cur) := by
    rw [hsg]; split_ifs with g
    · linarith
    · linarith [not_lt.mp g]
  by_cases ht : 0 ≤ (tgt - cur) * curD
  · -- moving toward the target
    have hkt := hk1 ht
    have hx0 : 0 ≤ s.startX := by
      by_contra hc
      push Not at hc
      have h2 : sg * (tgt - cur) ≤ 0 := by
        by_contra hp
        push Not at hp
        have h3 : (tgt - cur) * curD = 2 * (sg * (tgt - cur) * k * s.startX) := by rw [hcD]; ring
        have h4 : sg * (tgt - cur) * k * s.startX < 0 := mul_neg_of_pos_of_neg (mul_pos hp hk) hc
        linarith
      have h3 : tgt - cur = 0 := by
        have h4 : sg * (tgt - cur) = 0 := le_antisymm h2 hsgd
        have : sg * sg * (tgt - cur) = 0 := by rw [mul_assoc, h4, mul_zero]
        rwa [hsg1, one_mul] at this
      rcases hm with hm | hm
      · exact hm (by linarith)
      · have h5 : sg = 1 := by rw [hsg, if_neg (by linarith)]
        rw [hcD, h5, one_mul] at hm
        have := mul_neg_of_pos_of_neg hk hc
        linarith
    have hx1 : s.startX ≤ d / s.sqrtB := by
      rw [le_div_iff₀ hS]
      refine abs_le_of_sq_le_sq' (a := s.startX * s.sqrtB) (b := d) ?_ hd.le |>.2
      have : (s.startX * s.sqrtB) ^ 2 = s.startX ^ 2 * s.bias := by rw [mul_pow, sq s.sqrtB, hw.S_sq]
      rw [this]
      have h1 : tc' * (s.startX ^ 2 * s.bias) ≤ tc' * d ^ 2 := by
        rw [mul_comm tc' (d ^ 2), hd3, hpa, hkt]
        have := mul_nonneg (abs_nonneg (tgt - cur)) hb.le
        have e : (|tgt - cur| + tc' * s.startX ^ 2) * s.bias = |tgt - cur| * s.bias + tc' * (s.startX ^ 2 * s.bias) := by
          ring
        rw [e]; linarith
      exact le_of_mul_le_mul_left h1 htc
    have hrun : s.Running 0 := running_near hw hbb.1 hbb.2 (by rw [hI]; linarith) (by rw [hI]; exact hx1)
    obtain ⟨e1, e2⟩ := eval_toward hw hrun (m := 0) (by rw [xPeak_zero, hI]; exact hx0)
      (by rw [xZero_zero hw, hI]; exact hx1)
    rw [e1, e2, hI, xPeak_zero, hpk0, zpow_zero, hac, htg]
    have hbb0 := hb.ne'
    refine ⟨d, hw, by linarith, hrun, ?_, ?_, hpeak⟩
    · congr 1
      rw [hpk, hkt]; field_simp; ring
    · congr 1
      rw [hcD, hkt]; field_simp; ring
  · -- moving away from the target
    have hka := hk2 ht
    have hx0 : s.startX < 0 := by
      by_contra hc
      push Not at hc
      apply ht
      have h3 : (tgt - cur) * curD = 2 * (sg * (tgt - cur) * k * s.startX) := by rw [hcD]; ring
      have : 0 ≤ sg * (tgt - cur) * k * s.startX := mul_nonneg (mul_nonneg hsgd hk.le) hc
      linarith
    have hx1 : -d ≤ s.startX := by
      refine abs_le_of_sq_le_sq' (a := s.startX) (b := d) ?_ hd.le |>.1
      have h1 : tc' * s.startX ^ 2 ≤ tc' * d ^ 2 := by
        rw [mul_comm tc' (d ^ 2), hd3, hpa, hka]
        have : (|tgt - cur| + tc' / s.bias * s.startX ^ 2) * s.bias = |tgt - cur| * s.bias + tc' * s.startX ^ 2 := by
          field_simp
        rw [this]
        have := mul_nonneg (abs_nonneg (tgt - cur)) hb.le
        linarith
      exact le_of_mul_le_mul_left h1 htc
    have hrun : s.Running 0 := running_near hw hbb.1 hbb.2 (by rw [hI]; exact hx1)
      (by rw [hI]; have := div_pos hd hS; linarith)
    obtain ⟨e1, e2⟩ := eval_away hw hrun (m := -1) (by rw [xZero_neg_one hw, hI]; exact hx1)
      (by rw [show (-1 : Int) + 1 = 0 by norm_num, xPeak_zero, hI]; exact hx0.le)
    rw [show (-1 : Int) + 1 = 0 by norm_num] at e1 e2
    rw [e1, e2, hI, xPeak_zero, hpk0, zpow_zero, hac, htg]
    refine ⟨d, hw, hx1, hrun, ?_, ?_, hpeak⟩
    · congr 1
      rw [hpk, hka]; ring
    · congr 1
      rw [hcD, hka]; ring

/-- C37: for every start (other than one exactly on the target and moving down, see `C37_jump_on_target`), every target
and shape with bias between 1/10000 and 10000, the spring starts at the current value with the current velocity, and its
first peak is at least as far from the target as the start. -/
theorem C37_starts {cur curD tgt typD typX bias : ℝ} {s : Spring} (h : make cur curD tgt typD typX bias = some s)
    (hb1 : 1 / 10000 ≤ bias) (hb2 : bias ≤ 10000) (hm : tgt ≠ cur ∨ 0 < curD) :
    s.eval 0 = some cur ∧ s.deriv 0 = some curD ∧ |tgt - cur| ≤ |s.peak| := by
  obtain ⟨-, -, -, -, h⟩ := start_facts h hb1 hb2 hm
  exact h

/-- C37, calibration of the shape: from rest at the typical distance, on either side, the spring first reaches the target
exactly after the typical time. -/
theorem C37_typical {cur tgt typD typX bias : ℝ} (hD : 0 < typD) (hX : 0 < typX) (hb1 : 1 / 10000 ≤ bias)
    (hb2 : bias ≤ 10000) (hdist : |tgt - cur| = typD) :
    ∃ s, make cur 0 tgt typD typX bias = some s ∧ s.eval typX = some tgt ∧
      ∀ x, 0 ≤ x → x < typX → ∃ v, s.eval x = some v ∧ v ≠ tgt := by
  have hbb := clampBias_bounds hb1 hb2
  obtain ⟨s, h⟩ : ∃ s, make cur 0 tgt typD typX bias = some s := by
    unfold make
    simp only
    rw [if_neg (by push Not; exact ⟨hX.ne', hD, by linarith [hbb.1]⟩)]
    exact ⟨_, rfl⟩
  refine ⟨s, h, ?_⟩
  have hne : tgt ≠ cur := by rintro rfl; rw [sub_self, abs_zero] at hdist; linarith
  obtain ⟨d, hw, tc', htc', htcd', hd2⟩ := make_wf h (Or.inl hne)
  obtain ⟨k, tc, htc, hk, htcd, hb, hbc, htg, hk1, hk2, hac, hcD, hpk, hpa, hps, -, -, -⟩ := make_facts h
  obtain rfl : tc' = tc := by rw [htcd, htcd']
  rw [← hbc] at hbb
  have hx0 : s.startX = 0 := by
    have hsg : (if tgt - cur < 0 then (-1 : ℝ) else 1) * k ≠ 0 := by split_ifs <;> simp [hk.ne']
    have : 2 * ((if tgt - cur < 0 then (-1 : ℝ) else 1) * k) ≠ 0 := mul_ne_zero (by norm_num) hsg
    exact (mul_eq_zero.mp hcD.symm).resolve_left this
  have hS := hw.S_pos
  have hd := hw.d_pos
  have hI : ∀ x, s.internal x = x := fun x => by unfold internal; rw [hx0, add_zero]
  have hdS : d / s.sqrtB = typX := by
    rw [div_eq_iff hS.ne']
    have h1 : d ^ 2 = (typX * s.sqrtB) ^ 2 := by
      rw [hd2, mul_pow, sq s.sqrtB, hw.S_sq, hpa, hdist, hx0, htcd']; field_simp; ring
    exact (sq_eq_sq₀ hd.le (by positivity)).mp h1
  have hpk0 : s.peakAt 0 = s.peak := by unfold peakAt; simp
  have hev : ∀ x, 0 ≤ x → x ≤ typX → s.eval x = some (tgt + s.peak + s.awayCoeff * s.bias * x ^ 2) := by
    intro x h1 h2
    have hrun : s.Running x := running_near hw hbb.1 hbb.2 (by rw [hI]; linarith) (by rw [hI, hdS]; exact h2)
    rw [(eval_toward hw hrun (m := 0) (by rw [xPeak_zero, hI]; exact h1)
      (by rw [xZero_zero hw, hI, hdS]; exact h2)).1]
    rw [hI, xPeak_zero, hpk0, zpow_zero, htg]; congr 1; ring
  have hz := toward_zero hw 0
  rw [zpow_zero, hpk0, zero_sub, zpow_neg_one, ← div_eq_mul_inv, hdS] at hz
  constructor
  · rw [hev typX hX.le le_rfl]; congr 1; linear_combination hz
  · intro x h1 h2
    refine ⟨_, hev x h1 h2.le, fun hc => ?_⟩
    have e : s.awayCoeff * s.bias * (typX ^ 2 - x ^ 2) = 0 := by linear_combination hz - hc
    have hne' : s.awayCoeff * s.bias ≠ 0 := mul_ne_zero hw.away_ne hb.ne'
    have := (mul_eq_zero.mp e).resolve_left hne'
    nlinarith

/-- Hypotheses of `C37_starts` are met, with a moving start. -/
example : ∃ s, make 1 (-1) 0 1 1 (1 / 4) = some s ∧ ((0 : ℝ) ≠ 1 ∨ (0 : ℝ) < -1) := by
  refine ⟨_, by unfold make clampBias; norm_num; rfl, Or.inl (by norm_num)⟩

theorem sqrt_quarter : Real.sqrt (1 / 4) = 1 / 2 := by
  rw [show (1 / 4 : ℝ) = (1 / 2) ^ 2 by norm_num, Real.sqrt_sq (by norm_num)]

/-- The spring that starts exactly on its target with velocity -1. -/
theorem make_jump : make 0 (-1) 0 1 1 (1 / 4) =
    some ⟨4, -(1 / 4), -(1 / 2), 0, 1 / 4, 5 / 4, 1 / 2, 1 / Real.log (1 / 2)⟩ := by
  unfold make clampBias
  norm_num
  have h4 : Real.sqrt 4 = 2 := by rw [show (4 : ℝ) = 2 ^ 2 by norm_num, Real.sqrt_sq (by norm_num)]
  have h16 : Real.sqrt 16 = 4 := by rw [show (16 : ℝ) = 4 ^ 2 by norm_num, Real.sqrt_sq (by norm_num)]
  rw [h4, h16, show (1 / 2 : ℝ) = 2⁻¹ by norm_num, Real.log_inv, inv_neg]
  norm_num

/-- C37, disagreement. A spring that starts exactly on its target and is moving down does not start there: with value 0,
velocity -1 and target 0 the curve starts at 7/16 with velocity -3/2. (`delta * current_derivative >= 0` counts as moving
toward the target, and the sign of `delta` is taken as positive; moving up the same start is correct.) -/
theorem C37_jump_on_target :
    ∃ s, make 0 (-1) 0 1 1 (1 / 4) = some s ∧ s.eval 0 = some (7 / 16) ∧ s.deriv 0 = some (-3 / 2) := by
  refine ⟨_, make_jump, ?_⟩
  set s : Spring := ⟨4, -(1 / 4), -(1 / 2), 0, 1 / 4, 5 / 4, 1 / 2, 1 / Real.log (1 / 2)⟩ with hs
  have hw : s.WF (1 / 4) := by
    refine ⟨?_, sqrt_quarter.symm, ?_, ?_, ?_, ?_, rfl⟩ <;> (try simp only [hs]) <;> norm_num
  have hI : s.internal 0 = -(1 / 2) := by simp [internal, hs]
  have hrun : s.Running 0 := Or.inr (by rw [hI]; simp only [hs]; norm_num)
  have hP : s.xPeak (-1) = -(5 / 4) := by
    unfold xPeak
    rw [if_neg (by simp only [hs]; norm_num)]
    simp only [hs]; norm_num
  have hZ : s.xZero (1 / 4) (-1) = -(1 / 4) := xZero_neg_one hw
  have hpk : s.peakAt (-1) = 1 := by
    unfold peakAt; simp only [hs]; norm_num
  obtain ⟨e1, e2⟩ := eval_toward hw hrun (m := -1) (by rw [hP, hI]; norm_num) (by rw [hZ, hI]; norm_num)
  rw [e1, e2, hP, hI, hpk]
  constructor <;> congr 1 <;> simp only [hs] <;> norm_num

/-- C37, disagreement. A spring of bias 1 at rest on its target cannot be evaluated: `x / r_` is 0/0 and converting the
NaN iteration number to int is undefined (curve_util.cpp:569-579). -/
theorem C37_rest_bias_one :
    ∃ s, make 0 0 0 1 1 1 = some s ∧ s.eval 0 = none := by
  refine ⟨_, by unfold make clampBias; norm_num; rfl, ?_⟩
  unfold eval context contextAt contextOne
  simp

/-- C37, disagreement. For bias 1 `IterationX` leaves out the conversion to external x. With start 0, velocity 2 and
target 1 the first peak after the start is at `IterationX(1) - start_x_`, not at `IterationX(1)`: the curve is still moving
there. -/
theorem C37_iteration_x_bias_one :
    ∃ s, make 0 2 1 1 1 1 = some s ∧ s.startX ≠ 0 ∧ s.deriv (s.iterationX 1) ≠ some 0 ∧
      s.deriv (s.external (s.iterationX 1)) = some 0 := by
  obtain ⟨s, h⟩ : ∃ s, make 0 2 1 1 1 1 = some s := ⟨_, by unfold make clampBias; norm_num; rfl⟩
  obtain ⟨d, hw, tc', htc', htcd', hd2⟩ := make_wf h (Or.inl (by norm_num))
  obtain ⟨k, tc, htc, hk, htcd, hb, hbc, htg, hk1, hk2, hac, hcD, hpk, hpa, hps, -, -, -⟩ := make_facts h
  have hb1 : s.bias = 1 := by rw [hbc]; unfold clampBias; rw [if_pos rfl]
  have htc1 : tc = 1 := by rw [htcd]; norm_num
  have hk' : k = 1 := by rw [hk1 (by norm_num), htc1]
  have hx : s.startX = 1 := by
    rw [hk', if_neg (by norm_num)] at hcD; linarith
  have hac' : s.awayCoeff = 1 := by rw [hac, htc1, hb1, if_neg (by norm_num)]; norm_num
  have hpk2 : |s.peak| = 2 := by rw [hpa, hk', hx]; norm_num
  have hd : 0 < d := hw.d_pos
  have hdd : d ^ 2 = 2 := by rw [hd2, hpk2, htcd', hb1]; norm_num
  have hd1 : 1 < d := by nlinarith
  have hr : s.r = 2 * d := by rw [hw.r_eq, if_pos hb1]
  have hit : s.iterationX 1 = 2 * d := by unfold iterationX; rw [if_pos hb1, hr]; norm_num
  have hP : ∀ n : Int, s.xPeak n = 2 * d * n := by intro n; unfold xPeak; rw [if_pos hb1, hr]
  have hZ : ∀ n : Int, s.xZero d n = 2 * d * n + d := by
    intro n; unfold xZero; rw [hP, hw.S_one hb1, one_zpow, mul_one]
  refine ⟨s, h, by rw [hx]; norm_num, ?_, ?_⟩
  · have hI : s.internal (s.iterationX 1) = 2 * d + 1 := by unfold internal; rw [hit, hx]
    rw [(eval_toward hw (Or.inl hb1) (m := 1) (by rw [hI, hP]; norm_num) (by rw [hI, hZ]; norm_num; linarith)).2,
      hI, hP, hac', hb1]
    norm_num
  · have hI : s.internal (s.external (s.iterationX 1)) = 2 * d := by unfold internal external; rw [hit, hx]; ring
    rw [(eval_toward hw (Or.inl hb1) (m := 1) (by rw [hI, hP]; norm_num) (by rw [hI, hZ]; norm_num; linarith)).2,
      hI, hP, hac', hb1]
    norm_num

end

end Motive.Curve.Spring
