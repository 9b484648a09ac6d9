import Verif.Curve.EaseProps
import Verif.Curve.RootRange
/-!
# C36 for the motions people use

For shapes with a typical time between 16 and 65536 (milliseconds), a typical distance between 1/1024 and 1024 and a bias
that is not extreme, for targets that are neither very near nor very far in proportion, and for velocities up to 256 times
the typical one, the root finder is exact: `C36_ease_partial` applies without further conditions.
-/

namespace Motive.Curve

open Quad Ease

noncomputable section

/-- A motion from `start`, moving at `startD`, to `endV`, moving at `endD`, for the shape with typical distance `D`,
typical time `T` and the given bias. -/
structure UsualMotion (D T bias start startD endV endD : ℝ) : Prop where
  /-- the typical distance -/
  distance : 1 / 1024 ≤ D ∧ D ≤ 1024
  /-- the typical time -/
  time : 16 ≤ T ∧ T ≤ 65536
  /-- the bias is not extreme -/
  bias : 1 / 64 ≤ bias ∧ bias ≤ 63 / 64
  /-- the target is not where the motion starts -/
  far : D / 4194304 < |endV - start|
  /-- nor is it far beyond the typical distance -/
  near : |endV - start| ≤ 1024 * D
  /-- the start velocity is not far above the typical one -/
  startSpeed : |startD| ≤ 256 * (D / T)
  /-- nor is the end velocity -/
  endSpeed : |endD| ≤ 256 * (D / T)

namespace Ease

/-- Sizes that follow from `UsualMotion`: `w` is twice the typical distance over the square of the typical time, `V` the
greatest speed. -/
structure Sizes (D w V delta : ℝ) : Prop where
  D1 : 1 / 1024 ≤ D
  D2 : D ≤ 1024
  w1 : 1 / 2 ^ 41 ≤ w
  w2 : w ≤ 8
  wD : w ≤ D / 128
  V0 : 0 ≤ V
  V1 : V ≤ 2 ^ 14
  VV : V ^ 2 = 32768 * (D * w)
  d1 : D / 4194304 ≤ delta
  d2 : delta ≤ 1024 * D

theorem shift_proportioned {D w V delta m : ℝ} (hz : Sizes D w V delta) (hm1 : 2 * w ≤ m) (hm2 : m ≤ 128 * w)
    {q : Quad ℝ} {d : ℝ} (h2 : q.c2 = -(w * m)) (h1 : |q.c1| ≤ 2 * m * V) (h0 : q.c0 = d ^ 2 + 2 * m * delta)
    (hd : |d| ≤ 2 * V) : q.Proportioned := by
  obtain ⟨D1, D2, w1, w2, wD, V0, V1, VV, d1, d2⟩ := hz
  have pD : 0 < D := by linarith
  have pw : 0 < w := lt_of_lt_of_le (by norm_num) w1
  have pm : 0 < m := by linarith
  have pd : 0 < delta := lt_of_lt_of_le (by positivity) d1
  have m1 : 1 / 2 ^ 40 ≤ m := by norm_num at w1 ⊢; linarith
  have m2 : m ≤ 1024 := by linarith
  have e1 : 1 / 2 ^ 32 ≤ delta := by norm_num at d1 ⊢; linarith
  have e2 : delta ≤ 2 ^ 20 := by norm_num; linarith
  have a2 : |q.c2| = w * m := by rw [h2, abs_neg, abs_of_pos (by positivity)]
  have a0 : |q.c0| = d ^ 2 + 2 * m * delta := by rw [h0, abs_of_pos (by positivity)]
  have md1 : 1 / 2 ^ 72 ≤ m * delta := by
    have := mul_le_mul m1 e1 (by norm_num) pm.le
    norm_num at this ⊢; linarith
  have md2 : m * delta ≤ 2 ^ 30 := by
    have := mul_le_mul m2 e2 pd.le (by norm_num)
    norm_num at this ⊢; linarith
  have dd : d ^ 2 ≤ 2 ^ 30 := by
    have h3 : |d| ≤ 2 ^ 15 := by norm_num at V1 ⊢; linarith
    rw [← sq_abs]
    have := pow_le_pow_left₀ (abs_nonneg _) h3 2
    norm_num at this ⊢; linarith
  have c0l : 1 / 2 ^ 71 ≤ |q.c0| := by
    rw [a0]; norm_num at md1 ⊢; linarith [sq_nonneg d]
  have c0u : |q.c0| ≤ 2 ^ 32 := by
    rw [a0]; norm_num at md2 dd ⊢; linarith
  have c2l : 1 / 2 ^ 81 ≤ |q.c2| := by
    rw [a2]
    have := mul_le_mul w1 m1 (by norm_num) pw.le
    norm_num at this ⊢; linarith
  have c2u : |q.c2| ≤ 2 ^ 13 := by
    rw [a2]
    have := mul_le_mul w2 m2 pm.le (by norm_num)
    norm_num at this ⊢; linarith
  have c1u : |q.c1| ≤ 2 ^ 25 := by
    refine h1.trans ?_
    have := mul_le_mul m2 V1 V0 (by norm_num)
    norm_num at this ⊢; linarith
  have c1q : q.c1 ^ 2 ≤ 131072 * (m ^ 2 * (D * w)) := by
    rw [← sq_abs]
    have := pow_le_pow_left₀ (abs_nonneg _) h1 2
    have e3 : (2 * m * V) ^ 2 = 131072 * (m ^ 2 * (D * w)) := by
      calc (2 * m * V) ^ 2 = 4 * m ^ 2 * V ^ 2 := by ring
        _ = 131072 * (m ^ 2 * (D * w)) := by rw [VV]; ring
    linarith
  have c0m : 2 * m * (D / 4194304) ≤ |q.c0| := by
    rw [a0]
    have : 2 * m * (D / 4194304) ≤ 2 * m * delta := mul_le_mul_of_nonneg_left d1 (by linarith)
    linarith [sq_nonneg d]
  have pc2 : 0 < |q.c2| := by rw [a2]; positivity
  refine ⟨?_, ?_, fun _ => ⟨?_, ?_, ?_, ?_, ?_⟩, fun hc => ⟨?_, ?_, ?_, ?_, ?_⟩⟩
  · rw [h2, h0]
    have : 0 ≤ w * m * (d ^ 2 + 2 * m * delta) := by positivity
    linarith
  · exact abs_pos.mp pc2
  · norm_num at c0l ⊢; linarith
  · norm_num at c0u ⊢; linarith
  · norm_num at c0u c2l ⊢; linarith
  · norm_num at c0l c2u ⊢; linarith
  · refine c1q.trans ?_
    have h5 := mul_le_mul_of_nonneg_right c0m pc2.le
    rw [a2] at h5 ⊢
    have h6 : 2 * m * (D / 4194304) * (w * m) = 1 / 2097152 * (m ^ 2 * (D * w)) := by ring
    rw [h6] at h5
    norm_num
    linarith
  · norm_num at c1u c2l ⊢; linarith
  · have : 1 / 2 ^ 71 ≤ |q.c1| := c0l.trans hc
    norm_num at this c2u ⊢; linarith
  · have h6 : 2 * m * delta ≤ |q.c0| := by rw [a0]; linarith [sq_nonneg d]
    have h7 : (2 * m * delta) ^ 2 ≤ q.c1 ^ 2 := by
      rw [← sq_abs q.c1]; exact pow_le_pow_left₀ (by positivity) (h6.trans hc) 2
    have h8 : (1 / 2 ^ 32) * (1 / 2 ^ 32) ≤ delta * delta := mul_le_mul e1 e1 (by norm_num) pd.le
    have h9 : w * m ≤ m * m := mul_le_mul_of_nonneg_right (by linarith) pm.le
    have h10 : (1 / 2 ^ 32) * (1 / 2 ^ 32) * (m * m) ≤ delta * delta * (m * m) :=
      mul_le_mul_of_nonneg_right h8 (by positivity)
    have h11 : (2 * m * delta) ^ 2 = 4 * (delta * delta * (m * m)) := by ring
    have h12 : 0 < w * m := by positivity
    rw [a2]
    rw [h11] at h7
    norm_num at h10 ⊢
    linarith
  · refine c1q.trans ?_
    rw [a2]
    have : m * D ≤ 2 ^ 20 := by
      have := mul_le_mul m2 D2 pD.le (by norm_num)
      norm_num at this ⊢; linarith
    have h5 : m ^ 2 * (D * w) = m * D * (w * m) := by ring
    rw [h5]
    have h6 := mul_le_mul_of_nonneg_right this (by positivity : 0 ≤ w * m)
    norm_num at h6 ⊢
    have : 0 < w * m := by positivity
    linarith
  · have h5 : |q.c2| ≤ 2 ^ 20 * |q.c0| := by
      refine le_trans ?_ (mul_le_mul_of_nonneg_left c0m (by norm_num))
      rw [a2]
      have h6 : w * m ≤ D / 128 * m := mul_le_mul_of_nonneg_right wD pm.le
      have h7 : 0 < D * m := by positivity
      norm_num
      linarith
    have h6 : |q.c0| * |q.c2| ≤ |q.c0| * (2 ^ 20 * |q.c0|) := mul_le_mul_of_nonneg_left h5 (abs_nonneg _)
    have h7 : |q.c0| ^ 2 ≤ q.c1 ^ 2 := by
      rw [← sq_abs q.c1]; exact pow_le_pow_left₀ (abs_nonneg _) hc 2
    have h8 : |q.c0| * (2 ^ 20 * |q.c0|) = 2 ^ 20 * |q.c0| ^ 2 := by ring
    linarith

theorem flyOut_proportioned {D w V delta M : ℝ} (hz : Sizes D w V delta) (hM1 : w ≤ M) (hM2 : M ≤ 64 * w)
    {q : Quad ℝ} (h2 : |q.c2| = M / 2) (h1 : |q.c1| ≤ V) (h0 : |q.c0| = delta) (hs : q.c2 * q.c0 ≤ 0) :
    q.Proportioned := by
  obtain ⟨D1, D2, w1, w2, wD, V0, V1, VV, d1, d2⟩ := hz
  have pD : 0 < D := by linarith
  have pw : 0 < w := lt_of_lt_of_le (by norm_num) w1
  have pM : 0 < M := by linarith
  have pd : 0 < delta := lt_of_lt_of_le (by positivity) d1
  have e1 : 1 / 2 ^ 32 ≤ delta := by norm_num at d1 ⊢; linarith
  have e2 : delta ≤ 2 ^ 20 := by norm_num; linarith
  have M1 : 1 / 2 ^ 42 ≤ M / 2 := by norm_num at w1 ⊢; linarith
  have M2 : M / 2 ≤ 256 := by linarith
  have c1q : q.c1 ^ 2 ≤ 32768 * (D * w) := by
    rw [← sq_abs, ← VV]
    exact pow_le_pow_left₀ (abs_nonneg _) h1 2
  refine ⟨hs, ?_, fun _ => ⟨?_, ?_, ?_, ?_, ?_⟩, fun hc => ⟨?_, ?_, ?_, ?_, ?_⟩⟩
  · apply abs_pos.mp; rw [h2]; linarith
  · rw [h0]; norm_num at e1 ⊢; linarith
  · rw [h0]; norm_num at e2 ⊢; linarith
  · rw [h0, h2]; norm_num at e2 M1 ⊢; linarith
  · rw [h0, h2]; norm_num at e1 ⊢; linarith
  · refine c1q.trans ?_
    rw [h0, h2]
    have := mul_le_mul d1 (by linarith : w / 2 ≤ M / 2) (by positivity) pd.le
    norm_num
    nlinarith
  · rw [h2]; norm_num at V1 M1 ⊢; linarith
  · rw [h2]; rw [h0] at hc; norm_num at e1 ⊢; linarith
  · rw [h2]
    have h5 : (1 / 2 ^ 32) ^ 2 ≤ |q.c1| ^ 2 := pow_le_pow_left₀ (by norm_num) (e1.trans (h0 ▸ hc)) 2
    rw [sq_abs] at h5
    norm_num at h5 ⊢; linarith
  · refine c1q.trans ?_
    rw [h2]
    have : D * w ≤ 1024 * M := mul_le_mul D2 hM1 pw.le (by norm_num)
    norm_num; linarith
  · rw [h0, h2]
    have h5 : M / 2 ≤ 2 ^ 20 * delta := by norm_num; linarith
    have h6 := mul_le_mul_of_nonneg_left h5 pd.le
    have h7 : delta ^ 2 ≤ q.c1 ^ 2 := by
      rw [← sq_abs q.c1, ← h0]; exact pow_le_pow_left₀ (abs_nonneg _) hc 2
    nlinarith

end Ease

/-- C36 for usual motions, without conditions on the root finder: the accelerations of the shape are computed, the curve
exists, starts at the start value and velocity, is joined smoothly (up to the step at a junction snapped to 0), ends at
the end value, and has the end velocity if any motion with these accelerations has. -/
theorem C36_usual_partial {D T bias start startD endV endD : ℝ} (h : UsualMotion D T bias start startD endV endD) :
    ∃ s e : ℝ, typicalSecond D T bias = some ((s : WithTop ℝ), (e : WithTop ℝ)) ∧
      ∃ c, calculate start startD s endV endD e D T = some c ∧ EaseSpec c start startD endV s e T ∧
        ∀ u t, TwoPhase start startD s endV endD e (if start ≤ endV then 1 else -1) u t →
          |c.outC.deriv c.total - endD| ≤ epsScale * (D / T) := by
  obtain ⟨⟨D1, D2⟩, ⟨T1, T2⟩, ⟨b1, b2⟩, far, near, hv0, hv1⟩ := h
  have pD : 0 < D := by linarith
  have pT : 0 < T := by linarith
  have pb : 0 < bias := by linarith
  have pb' : 0 < 1 - bias := by linarith
  set w := 2 * D / (T * T) with hw
  have pw : 0 < w := by positivity
  have hwT : w * (T * T) = 2 * D := by rw [hw]; field_simp
  set s := w / bias with hs
  set e := w / (1 - bias) with he
  have hsb : s * bias = w := by rw [hs]; field_simp
  have heb : e * (1 - bias) = w := by rw [he]; field_simp
  have ps : 0 < s := by positivity
  have pe : 0 < e := by positivity
  have hse : s * e = w * (s + e) := by
    rw [hs, he]; field_simp; ring
  have s1 : w ≤ s := by nlinarith
  have e1 : w ≤ e := by nlinarith
  have s2 : s ≤ 64 * w := by nlinarith
  have e2 : e ≤ 64 * w := by nlinarith
  set V := 256 * (D / T) with hV
  have hz : Sizes D w V |endV - start| := by
    refine ⟨D1, D2, ?_, ?_, ?_, by positivity, ?_, ?_, far.le, near⟩
    · rw [hw, le_div_iff₀ (by positivity)]
      have : T * T ≤ 65536 * 65536 := mul_le_mul T2 T2 pT.le (by norm_num)
      norm_num at this ⊢; linarith
    · rw [hw, div_le_iff₀ (by positivity)]
      nlinarith
    · rw [hw, div_le_iff₀ (by positivity)]
      have : 256 ≤ T * T := by nlinarith
      nlinarith
    · rw [hV]
      have : D / T ≤ 64 := by rw [div_le_iff₀ pT]; nlinarith
      norm_num; linarith
    · rw [hV, hw]; field_simp; ring
  have htyp : typicalSecond D T bias = some ((s : WithTop ℝ), (e : WithTop ℝ)) := by
    unfold typicalSecond
    rw [if_neg (by push Not; exact ⟨pb.le, by linarith, pT, pD⟩)]
    have x1 : 2 * D / (bias * (T * T)) = s := by rw [hs, hw]; field_simp
    have x2 : 2 * D / ((1 - bias) * (T * T)) = e := by rw [he, hw]; field_simp
    by_cases hb : 1 / 2 ≤ bias
    · simp only [if_pos hb, if_neg (by linarith : ¬ bias = 1), x1, x2]
    · simp only [if_neg hb, sub_sub_cancel, if_neg (by linarith : ¬ 1 - bias = 1), x1, x2]
  have hk : curvature start startD endV D = if start ≤ endV then 1 else -1 := by
    unfold curvature
    rw [if_neg]
    unfold epsScale
    rw [not_le]; linarith
  have hkk : ∃ k : ℝ, (k = 1 ∨ k = -1) ∧ k * (endV - start) = |endV - start| ∧
      curvature start startD endV D = k ∧ (if start ≤ endV then (1 : ℝ) else -1) = k := by
    by_cases hle : start ≤ endV
    · exact ⟨1, Or.inl rfl, by rw [abs_of_nonneg (by linarith), one_mul], by rw [hk, if_pos hle], if_pos hle⟩
    · refine ⟨-1, Or.inr rfl, ?_, by rw [hk, if_neg hle], if_neg hle⟩
      rw [abs_of_neg (by linarith)]; ring
  obtain ⟨k, hk1, hkd, hkc, hki⟩ := hkk
  have hk2 : k * k = 1 := by rcases hk1 with h | h <;> rw [h] <;> norm_num
  have hkabs : |k| = 1 := by rcases hk1 with h | h <;> rw [h] <;> norm_num
  have hw1 : (shiftQuad (inPiece start startD s k) (outPiece endV endD e k)).WellConditioned := by
    refine wellConditioned_proportioned (shift_proportioned hz (m := s + e) (by linarith) (by linarith)
      (d := startD - endD) ?_ ?_ ?_ ?_)
    · simp only [shiftQuad, inPiece, outPiece, initOrigin]
      rw [← hse]
      linear_combination (-(s * e)) * hk2
    · have : (shiftQuad (inPiece start startD s k) (outPiece endV endD e k)).c1 = -2 * k * (e * startD + s * endD) := by
        simp only [shiftQuad, inPiece, outPiece, initOrigin, Quad.sub]; ring
      rw [this, abs_mul, abs_mul, hkabs, abs_neg, abs_of_pos (by norm_num : (0 : ℝ) < 2), mul_one]
      have h5 : |e * startD + s * endD| ≤ e * V + s * V := by
        refine (abs_add_le _ _).trans (add_le_add ?_ ?_)
        · rw [abs_mul, abs_of_pos pe]; exact mul_le_mul_of_nonneg_left hv0 pe.le
        · rw [abs_mul, abs_of_pos ps]; exact mul_le_mul_of_nonneg_left hv1 ps.le
      linarith
    · simp only [shiftQuad, inPiece, outPiece, initOrigin, Quad.sub]
      rw [← hkd]; ring
    · refine (abs_sub _ _).trans ?_
      linarith
  have hw2 : (flyOutEq start endV startD (max s e)).WellConditioned := by
    refine wellConditioned_proportioned (flyOut_proportioned hz (M := max s e) (le_max_of_le_left s1)
      (max_le s2 e2) ?_ hv0 ?_ ?_)
    · simp only [flyOutEq, hki]
      rw [abs_div, abs_mul, hkabs, one_mul, abs_of_pos (lt_max_of_lt_left ps), abs_of_pos (by norm_num : (0 : ℝ) < 2)]
    · simp only [flyOutEq]; rw [abs_sub_comm]
    · simp only [flyOutEq, hki]
      have : 0 ≤ max s e * (k * (endV - start)) :=
        mul_nonneg (le_max_of_le_left ps.le) (by rw [hkd]; exact abs_nonneg _)
      nlinarith
  refine ⟨s, e, htyp, ?_⟩
  have main := C36_ease_partial start startD s endV endD e D T ps pe pD pT
    (fun hc => by unfold epsScale at hc; exfalso; linarith) (by rw [hkc]; exact hw1) (fun _ => hw2)
  rw [hkc] at main
  rw [hki]
  exact main

/-- A motion of 0.3 in about half a second, starting with a velocity away from the target. -/
example : UsualMotion 1 500 (1 / 3) 2 (-1 / 1000) (23 / 10) 0 :=
  ⟨by norm_num, by norm_num, by norm_num, by norm_num [abs_of_pos], by norm_num [abs_of_pos],
    by norm_num [abs_of_neg], by norm_num⟩

end

end Motive.Curve
