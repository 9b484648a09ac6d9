import Verif.Curve.Props
import Mathlib.Analysis.SpecificLimits.Basic
import Mathlib.Analysis.Complex.Norm
import Mathlib.Tactic.Linarith
import Mathlib.Tactic.FieldSimp
import Mathlib.Tactic.Ring
import Mathlib.Tactic.NormNum

/-!
# Setting the same target in every frame (C129)

Source: src/samples/duck2f/duck2f.cpp:72-89, the first example of docs/src/programmers_guide/motivator.md: while the screen is touched, every frame calls
`SetTarget` with the position of the touch and the same time to get there, and then `AdvanceFrame`.

One dimension of a motivator driven by splines.  `SetTarget` makes a cubic from the current value and velocity to the target (spline_processor.cpp:149-202,
`CubicCurve::Init`), and the frame moves along it.  Idealisation: exact arithmetic, and the nodes of the spline are not rounded to 16 bits; what the
rounding does to one `SetTarget` is C41.
-/

namespace Motive.Curve.Retarget

open Motive.Curve Filter Topology

variable {K : Type} [Field K] [LinearOrder K]

/-- `Value()` and `Velocity()`. -/
structure State (K : Type) where
  value : K
  velocity : K

/-- One round of the loop of the sample (duck2f.cpp:73-89): `SetTarget(Target1f(p, 0, T))` and `AdvanceFrame(h)`. -/
def round (p T h : K) (x : State K) : State K :=
  let c := Cubic.init ⟨x.value, x.velocity, p, 0, T⟩
  ⟨c.eval h, c.deriv h⟩

/-- The state after `n` rounds. -/
def rounds (p T h : K) : ℕ → State K → State K
  | 0, x => x
  | n + 1, x => round p T h (rounds p T h n x)

/-- One round in terms of the part of the time that passes, the distance to the target and the way that would be covered at the current speed. -/
theorem round_eq {p T h : ℝ} (hT : 0 < T) (x : State ℝ) :
    (round p T h x).value - p = (1 - h / T) ^ 2 * (1 + 2 * (h / T)) * (x.value - p) + h / T * (1 - h / T) ^ 2 * (T * x.velocity) ∧
    T * (round p T h x).velocity = -6 * (h / T) * (1 - h / T) * (x.value - p) + (1 - h / T) * (1 - 3 * (h / T)) * (T * x.velocity) := by
  have hne := hT.ne'
  simp only [round, Cubic.init, if_pos hT, Cubic.eval, Cubic.deriv]
  constructor <;> field_simp <;> ring

/-- The energy that a round multiplies by the fourth power of the part of the time that is left. -/
noncomputable def energy (p T h : ℝ) (x : State ℝ) : ℝ :=
  6 * (x.value - p) ^ 2 + 2 * (2 - h / T) * (x.value - p) * (T * x.velocity) + (1 - h / T) * (T * x.velocity) ^ 2

theorem energy_round {p T h : ℝ} (hT : 0 < T) (x : State ℝ) : energy p T h (round p T h x) = (1 - h / T) ^ 4 * energy p T h x := by
  obtain ⟨h1, h2⟩ := round_eq (p := p) (h := h) hT x
  simp only [energy, h1, h2]
  ring

/-- C129: the exact law of the motion: each frame multiplies a quadratic form of the distance to the target and the velocity by (1 - h/T)^4.  Up to
frames of 73 hundredths of the target time the form is zero only at rest on the target. -/
theorem C129_energy (p T h : ℝ) (hT : 0 < T) (x : State ℝ) (n : ℕ) :
    energy p T h (rounds p T h n x) = ((1 - h / T) ^ 4) ^ n * energy p T h x ∧
    (0 < h → h ≤ 73 / 100 * T → ∀ y : State ℝ, 0 ≤ energy p T h y ∧ (energy p T h y = 0 → y.value = p ∧ y.velocity = 0)) := by
  refine ⟨?_, fun h0 h1 y => ?_⟩
  · induction n with
    | zero => simp [rounds]
    | succ n ih => rw [rounds, energy_round hT, ih]; ring
  · have hs0 : 0 < h / T := div_pos h0 hT
    have hs1 : h / T ≤ 73 / 100 := by rw [div_le_iff₀ hT]; linarith
    simp only [energy]
    generalize h / T = s at *
    generalize ew : T * y.velocity = w
    generalize ee : y.value - p = e
    have hk : 0 < 2 - 2 * s - s ^ 2 := by nlinarith
    have key : 6 * (6 * e ^ 2 + 2 * (2 - s) * e * w + (1 - s) * w ^ 2) = (6 * e + (2 - s) * w) ^ 2 + (2 - 2 * s - s ^ 2) * w ^ 2 := by ring
    have h2 : 0 ≤ (2 - 2 * s - s ^ 2) * w ^ 2 := mul_nonneg hk.le (sq_nonneg _)
    refine ⟨by nlinarith [sq_nonneg (6 * e + (2 - s) * w)], fun hz => ?_⟩
    rw [hz] at key
    have h3 : (2 - 2 * s - s ^ 2) * w ^ 2 = 0 := by nlinarith [sq_nonneg (6 * e + (2 - s) * w)]
    have hw : w = 0 := by
      rcases mul_eq_zero.1 h3 with h | h
      · exact absurd h hk.ne'
      · exact pow_eq_zero_iff (two_ne_zero) |>.1 h
    have he : e = 0 := by
      rw [hw] at key
      have : e ^ 2 = 0 := by nlinarith
      exact pow_eq_zero_iff (two_ne_zero) |>.1 this
    rw [hw] at ew; rw [he] at ee
    exact ⟨by linarith, (mul_eq_zero.1 ew).resolve_left hT.ne'⟩

theorem to_zero {a : ℕ → ℝ} {C r : ℝ} (hr0 : 0 ≤ r) (hr1 : r < 1) (h : ∀ n, a n ^ 2 ≤ C * r ^ n) : Tendsto a atTop (𝓝 0) := by
  have h1 : Tendsto (fun n => C * r ^ n) atTop (𝓝 0) := by
    simpa using (tendsto_pow_atTop_nhds_zero_of_lt_one hr0 hr1).const_mul C
  have h2 : Tendsto (fun n => a n ^ 2) atTop (𝓝 0) := squeeze_zero (fun n => sq_nonneg _) h h1
  have h3 := (Real.continuous_sqrt.tendsto 0).comp h2
  rw [Real.sqrt_zero] at h3
  refine (tendsto_zero_iff_abs_tendsto_zero _).2 ?_
  refine h3.congr fun n => ?_
  simp [Real.sqrt_sq_eq_abs]

/-- C129: renewing the target in every frame still gets there: whatever the value and the velocity at first, and whatever the length of the frames, the
value approaches the target and the velocity approaches 0. -/
theorem C129_arrives (p T h : ℝ) (hT : 0 < T) (h0 : 0 < h) (hh : h ≤ T) (x : State ℝ) :
    Tendsto (fun n => (rounds p T h n x).value) atTop (𝓝 p) ∧ Tendsto (fun n => (rounds p T h n x).velocity) atTop (𝓝 0) := by
  suffices hs : Tendsto (fun n => (rounds p T h n x).value - p) atTop (𝓝 0) ∧ Tendsto (fun n => T * (rounds p T h n x).velocity) atTop (𝓝 0) by
    refine ⟨?_, ?_⟩
    · simpa using hs.1.add_const p
    · have := hs.2.const_mul T⁻¹
      simpa [← mul_assoc, inv_mul_cancel₀ hT.ne'] using this
  have hs0 : 0 < h / T := div_pos h0 hT
  have hs1 : h / T ≤ 1 := by rw [div_le_one hT]; exact hh
  rcases le_or_gt (h / T) (1 / 2) with hc | hc
  · have hr0 : (0 : ℝ) ≤ (1 - h / T) ^ 4 := by positivity
    have hr1 : (1 - h / T) ^ 4 < 1 := pow_lt_one₀ (by linarith) (by linarith) (by norm_num)
    have hE := fun n => (C129_energy p T h hT x n).1
    have key : ∀ y : State ℝ, (y.value - p) ^ 2 ≤ 8 * energy p T h y ∧ (T * y.velocity) ^ 2 ≤ 8 * energy p T h y := by
      intro y
      simp only [energy]
      generalize h / T = s at *
      generalize T * y.velocity = w
      generalize y.value - p = e
      have hk : 3 / 4 ≤ 2 - 2 * s - s ^ 2 := by nlinarith
      have k1 : 6 * (6 * e ^ 2 + 2 * (2 - s) * e * w + (1 - s) * w ^ 2) = (6 * e + (2 - s) * w) ^ 2 + (2 - 2 * s - s ^ 2) * w ^ 2 := by ring
      have k2 : (1 - s) * (6 * e ^ 2 + 2 * (2 - s) * e * w + (1 - s) * w ^ 2) = ((1 - s) * w + (2 - s) * e) ^ 2 + (2 - 2 * s - s ^ 2) * e ^ 2 := by ring
      generalize hQ : 6 * e ^ 2 + 2 * (2 - s) * e * w + (1 - s) * w ^ 2 = Q at *
      have m1 := mul_le_mul_of_nonneg_right hk (sq_nonneg w)
      have m2 := mul_le_mul_of_nonneg_right hk (sq_nonneg e)
      have q0 : 0 ≤ Q := by nlinarith [sq_nonneg (6 * e + (2 - s) * w), sq_nonneg w]
      constructor
      · nlinarith [sq_nonneg ((1 - s) * w + (2 - s) * e)]
      · nlinarith [sq_nonneg (6 * e + (2 - s) * w)]
    refine ⟨to_zero (C := 8 * energy p T h x) hr0 hr1 fun n => ?_, to_zero (C := 8 * energy p T h x) hr0 hr1 fun n => ?_⟩
    · have := (key (rounds p T h n x)).1
      rw [hE n] at this; linarith
    · have := (key (rounds p T h n x)).2
      rw [hE n] at this; linarith
  · -- long frames: the larger of the distance and a third of the speed shrinks
    have hb : ∀ n, |(rounds p T h n x).value - p| ≤ (7 / 8) ^ n * (|x.value - p| + |T * x.velocity|) ∧
        |T * (rounds p T h n x).velocity| ≤ 3 * ((7 / 8) ^ n * (|x.value - p| + |T * x.velocity|)) := by
      intro n
      induction n with
      | zero =>
        simp only [rounds, pow_zero, one_mul]
        constructor <;> linarith [abs_nonneg (x.value - p), abs_nonneg (T * x.velocity)]
      | succ n ih =>
        obtain ⟨e1, e2⟩ := round_eq (p := p) (h := h) hT (rounds p T h n x)
        obtain ⟨i1, i2⟩ := ih
        simp only [rounds]
        rw [e1, e2]
        generalize h / T = s at *
        generalize hB : (7 / 8 : ℝ) ^ n * (|x.value - p| + |T * x.velocity|) = B at *
        have hB' : (7 / 8 : ℝ) ^ (n + 1) * (|x.value - p| + |T * x.velocity|) = 7 / 8 * B := by rw [← hB]; ring
        rw [hB']
        have B0 : 0 ≤ B := le_trans (abs_nonneg _) i1
        generalize (rounds p T h n x).value - p = e at *
        generalize T * (rounds p T h n x).velocity = w at *
        have a1 : (1 - s) ^ 2 * (1 + 2 * s) ≤ 1 / 2 := by nlinarith [mul_nonneg (sub_nonneg.2 hs1) (sub_nonneg.2 hc.le), mul_nonneg (sub_nonneg.2 hs1) (sub_nonneg.2 hs1)]
        have a0 : 0 ≤ (1 - s) ^ 2 * (1 + 2 * s) := by positivity
        have b1 : s * (1 - s) ^ 2 ≤ 1 / 8 := by nlinarith [mul_nonneg (sub_nonneg.2 hs1) (sub_nonneg.2 hc.le), mul_nonneg (sub_nonneg.2 hs1) (sub_nonneg.2 hs1)]
        have b0 : 0 ≤ s * (1 - s) ^ 2 := by positivity
        have c1 : |(-6 : ℝ) * s * (1 - s)| ≤ 3 / 2 := by rw [abs_le]; constructor <;> nlinarith [mul_nonneg (sub_nonneg.2 hs1) (sub_nonneg.2 hc.le)]
        have d1 : |(1 - s) * (1 - 3 * s)| ≤ 1 / 3 := by rw [abs_le]; constructor <;> nlinarith [mul_nonneg (sub_nonneg.2 hs1) (sub_nonneg.2 hc.le), sq_nonneg (3 * s - 2)]
        constructor
        · calc |(1 - s) ^ 2 * (1 + 2 * s) * e + s * (1 - s) ^ 2 * w| ≤ |(1 - s) ^ 2 * (1 + 2 * s) * e| + |s * (1 - s) ^ 2 * w| := abs_add_le _ _
            _ = (1 - s) ^ 2 * (1 + 2 * s) * |e| + s * (1 - s) ^ 2 * |w| := by rw [abs_mul, abs_mul _ w, abs_of_nonneg a0, abs_of_nonneg b0]
            _ ≤ 1 / 2 * B + 1 / 8 * (3 * B) := add_le_add (mul_le_mul a1 i1 (abs_nonneg _) (by norm_num)) (mul_le_mul b1 i2 (abs_nonneg _) (by norm_num))
            _ = 7 / 8 * B := by ring
        · calc |-6 * s * (1 - s) * e + (1 - s) * (1 - 3 * s) * w| ≤ |-6 * s * (1 - s) * e| + |(1 - s) * (1 - 3 * s) * w| := abs_add_le _ _
            _ = |-6 * s * (1 - s)| * |e| + |(1 - s) * (1 - 3 * s)| * |w| := by rw [abs_mul, abs_mul _ w]
            _ ≤ 3 / 2 * B + 1 / 3 * (3 * B) := add_le_add (mul_le_mul c1 i1 (abs_nonneg _) (by norm_num)) (mul_le_mul d1 i2 (abs_nonneg _) (by norm_num))
            _ ≤ 3 * (7 / 8 * B) := by linarith
    have hr : (0 : ℝ) ≤ (7 / 8) ^ 2 := by positivity
    have hr1 : (7 / 8 : ℝ) ^ 2 < 1 := by norm_num
    generalize |x.value - p| + |T * x.velocity| = A at *
    refine ⟨to_zero (C := A ^ 2) hr hr1 fun n => ?_, to_zero (C := 9 * A ^ 2) hr hr1 fun n => ?_⟩
    · have := pow_le_pow_left₀ (abs_nonneg _) (hb n).1 2
      rw [sq_abs] at this
      calc _ ≤ _ := this
        _ = A ^ 2 * ((7 / 8) ^ 2) ^ n := by rw [mul_pow, ← pow_mul, ← pow_mul, mul_comm n 2]; ring
    · have := pow_le_pow_left₀ (abs_nonneg _) (hb n).2 2
      rw [sq_abs] at this
      calc _ ≤ _ := this
        _ = 9 * A ^ 2 * ((7 / 8) ^ 2) ^ n := by rw [mul_pow, mul_pow, ← pow_mul, ← pow_mul, mul_comm n 2]; ring

/-- The duck of the sample: from 1 to 0 in 1000, in frames of 32. -/
example : Tendsto (fun n => (rounds (0 : ℝ) 1000 32 n ⟨1, 0⟩).value) atTop (𝓝 0) :=
  (C129_arrives 0 1000 32 (by norm_num) (by norm_num) (by norm_num) ⟨1, 0⟩).1

/-- C129 is false of the time: the motivator is never at rest on the target if the target is renewed in every frame, after any number of frames, unless it
was at first. -/
theorem C129_never_there (p T h : ℝ) (hT : 0 < T) (h0 : 0 < h) (hh : h ≤ 73 / 100 * T) (x : State ℝ) (n : ℕ)
    (hn : (rounds p T h n x).value = p ∧ (rounds p T h n x).velocity = 0) : x.value = p ∧ x.velocity = 0 := by
  obtain ⟨e1, e2⟩ := C129_energy p T h hT x n
  have hz : energy p T h (rounds p T h n x) = 0 := by simp [energy, hn.1, hn.2]
  rw [hz] at e1
  have hs : h / T < 1 := by rw [div_lt_one hT]; linarith
  have hp : ((1 - h / T) ^ 4) ^ n ≠ 0 := pow_ne_zero _ (pow_ne_zero _ (by linarith))
  exact (e2 h0 hh x).2 ((mul_eq_zero.1 e1.symm).resolve_left hp)

/-- The duck of the sample is never there. -/
example (n : ℕ) : ¬ ((rounds (0 : ℝ) 1000 32 n ⟨1, 0⟩).value = 0 ∧ (rounds (0 : ℝ) 1000 32 n ⟨1, 0⟩).velocity = 0) := fun h => by
  have := (C129_never_there 0 1000 32 (by norm_num) (by norm_num) (by norm_num) ⟨1, 0⟩ n h).1
  norm_num at this

/-- The numbers of the sample (duck2f.cpp:34-43): 1000 to get there, frames of 32, from 1 to 0.  After 32 frames, 1024, more than a sixth of the way is left; with one
call of `SetTarget` it would be there.  Later it goes past the target and comes back from the other side. -/
theorem C129_duck :
    1 / 6 < (rounds (0 : ℚ) 1000 32 32 ⟨1, 0⟩).value ∧ (Cubic.init (⟨1, 0, 0, 0, 1000⟩ : CubicInit ℚ)).eval 1000 = 0 ∧
    (rounds (0 : ℚ) 1000 32 75 ⟨1, 0⟩).value < 0 := by
  decide +kernel

/-! ### A target that moves -/

/-- The loop of the sample with a touch that moves (duck2f.cpp:73-89): `p n` is the position of the touch in frame `n`. -/
def chase (p : ℕ → K) (T h : K) (x : State K) : ℕ → State K
  | 0 => x
  | n + 1 => round (p n) T h (chase p T h x n)

/-- The energy as the square of a length in the plane. -/
noncomputable def point (s e w : ℝ) : ℂ := ⟨6 * e + (2 - s) * w, Real.sqrt (2 - 2 * s - s ^ 2) * w⟩

theorem point_sq {s : ℝ} (hk : 0 ≤ 2 - 2 * s - s ^ 2) (e w : ℝ) :
    ‖point s e w‖ ^ 2 = (6 * e + (2 - s) * w) ^ 2 + (2 - 2 * s - s ^ 2) * w ^ 2 := by
  rw [Complex.sq_norm, Complex.normSq_apply]
  simp only [point]
  have := Real.mul_self_sqrt hk
  linear_combination w ^ 2 * this

theorem point_round {s : ℝ} (hk : 0 ≤ 2 - 2 * s - s ^ 2) (e w : ℝ) :
    ‖point s ((1 - s) ^ 2 * (1 + 2 * s) * e + s * (1 - s) ^ 2 * w) (-6 * s * (1 - s) * e + (1 - s) * (1 - 3 * s) * w)‖ = (1 - s) ^ 2 * ‖point s e w‖ := by
  have h0 : 0 ≤ (1 - s) ^ 2 * ‖point s e w‖ := by positivity
  refine (pow_left_inj₀ (norm_nonneg _) h0 two_ne_zero).1 ?_
  rw [mul_pow, point_sq hk, point_sq hk]
  ring

theorem point_shift (s e w d : ℝ) : ‖point s (e - d) w‖ ≤ ‖point s e w‖ + 6 * |d| := by
  have : point s (e - d) w = point s e w - ((6 * d : ℝ) : ℂ) := by
    apply Complex.ext <;> simp [point]
    ring
  rw [this]
  refine (norm_sub_le _ _).trans ?_
  rw [Complex.norm_real, Real.norm_eq_abs, abs_mul, abs_of_pos (by norm_num : (0 : ℝ) < 6)]

theorem point_first {s : ℝ} (h0 : 0 < s) (hs : s ≤ 1 / 2) (e w : ℝ) : |e| ≤ ‖point s e w‖ / 3 ∧ ‖point s e w‖ ≤ 6 * |e| + 4 * |w| := by
  have hk : 3 / 4 ≤ 2 - 2 * s - s ^ 2 := by nlinarith
  have hq := point_sq (by linarith : (0 : ℝ) ≤ 2 - 2 * s - s ^ 2) e w
  constructor
  · refine abs_le_of_sq_le_sq (b := ‖point s e w‖ / 3) ?_ (by positivity)
    have k2 : (1 - s) * ((6 * e + (2 - s) * w) ^ 2 + (2 - 2 * s - s ^ 2) * w ^ 2) =
        6 * ((1 - s) * w + (2 - s) * e) ^ 2 + 6 * (2 - 2 * s - s ^ 2) * e ^ 2 := by ring
    rw [← hq] at k2
    have k3 : 9 * (1 - s) ≤ 6 * (2 - 2 * s - s ^ 2) := by nlinarith
    have k4 := mul_le_mul_of_nonneg_right k3 (sq_nonneg e)
    have k5 : (1 - s) * (9 * e ^ 2) ≤ (1 - s) * ‖point s e w‖ ^ 2 := by nlinarith [sq_nonneg ((1 - s) * w + (2 - s) * e)]
    have k6 := le_of_mul_le_mul_left k5 (by linarith)
    rw [div_pow]; linarith
  · refine abs_le_of_sq_le_sq' ?_ (by positivity) |>.2
    rw [hq]
    have a1 : e * w ≤ |e| * |w| := by rw [← abs_mul]; exact le_abs_self _
    have a2 : 0 ≤ |e| * |w| := by positivity
    have e2 := sq_abs e
    have w2 := sq_abs w
    have a3 : (2 - s) * (e * w) ≤ 2 * (|e| * |w|) := by nlinarith
    nlinarith [sq_nonneg w]

theorem point_add (s e w e' w' : ℝ) : point s (e + e') (w + w') = point s e w + point s e' w' := by
  apply Complex.ext <;> simp [point] <;> ring

/-- C129, following with errors: as `C129_follows` below, for any sequence of states in which each round may be wrong, by rounding for instance, by up to `r`
in value and up to `q` in what the velocity covers in the time `T`. -/
theorem C129_follows_rounded (p : ℕ → ℝ) (T h d r q : ℝ) (h0 : 0 < h) (hh : h ≤ T / 2) (hp : ∀ n, |p (n + 1) - p n| ≤ d) (x : ℕ → State ℝ)
    (hv : ∀ n, |(x (n + 1)).value - (round (p n) T h (x n)).value| ≤ r)
    (hw : ∀ n, T * |(x (n + 1)).velocity - (round (p n) T h (x n)).velocity| ≤ q) (n : ℕ) :
    |(x n).value - p n| ≤
      (1 - h / T) ^ (2 * n) * (2 * |(x 0).value - p 0| + 4 / 3 * T * |(x 0).velocity|) + 4 / 3 * T * ((d + r + 2 / 3 * q) / h) := by
  have hT : 0 < T := by linarith
  have hs0 : 0 < h / T := div_pos h0 hT
  have hs1 : h / T ≤ 1 / 2 := by rw [div_le_iff₀ hT]; linarith
  have hd : 0 ≤ d := le_trans (abs_nonneg _) (hp 0)
  have hr : 0 ≤ r := le_trans (abs_nonneg _) (hv 0)
  have hq : 0 ≤ q := le_trans (by positivity) (hw 0)
  have hd' : 0 ≤ d + r + 2 / 3 * q := by positivity
  have key : ∀ n, ‖point (h / T) ((x n).value - p n) (T * (x n).velocity)‖ ≤
      (1 - h / T) ^ (2 * n) * ‖point (h / T) ((x 0).value - p 0) (T * (x 0).velocity)‖ + 4 * ((d + r + 2 / 3 * q) / (h / T)) := by
    intro n
    induction n with
    | zero =>
      simp only [mul_zero, pow_zero, one_mul]
      have : 0 ≤ (d + r + 2 / 3 * q) / (h / T) := by positivity
      linarith
    | succ n ih =>
      obtain ⟨e1, e2⟩ := round_eq (p := p n) (h := h) hT (x n)
      have e3 : (x (n + 1)).value - p (n + 1) = ((round (p n) T h (x n)).value - p n) +
          ((x (n + 1)).value - (round (p n) T h (x n)).value) - (p (n + 1) - p n) := by ring
      have e4 : T * (x (n + 1)).velocity = T * (round (p n) T h (x n)).velocity + T * ((x (n + 1)).velocity - (round (p n) T h (x n)).velocity) := by ring
      have h6 := (point_first hs0 hs1 ((x (n + 1)).value - (round (p n) T h (x n)).value)
        (T * ((x (n + 1)).velocity - (round (p n) T h (x n)).velocity))).2
      rw [abs_mul, abs_of_pos hT] at h6
      have h7 := hv n
      have h8 := hw n
      rw [e3, e4]
      refine (point_shift _ _ _ _).trans ?_
      rw [point_add]
      have h9 := norm_add_le (point (h / T) ((round (p n) T h (x n)).value - p n) (T * (round (p n) T h (x n)).velocity))
        (point (h / T) ((x (n + 1)).value - (round (p n) T h (x n)).value) (T * ((x (n + 1)).velocity - (round (p n) T h (x n)).velocity)))
      rw [e1, e2] at h9 ⊢
      generalize h / T = s at *
      have hk : 0 ≤ 2 - 2 * s - s ^ 2 := by nlinarith
      rw [point_round hk] at h9
      generalize ‖point s ((x n).value - p n) (T * (x n).velocity)‖ = Z at *
      generalize ‖point s ((x 0).value - p 0) (T * (x 0).velocity)‖ = Z0 at *
      have h1 := hp n
      have h2 := mul_le_mul_of_nonneg_left ih (sq_nonneg (1 - s))
      generalize hc : d + r + 2 / 3 * q = c at *
      have h3 : c = c / s * s := by field_simp
      have hds : 0 ≤ c / s := by positivity
      generalize c / s = D at *
      have h4 : (1 - s) ^ 2 * (4 * D) + 6 * (D * s) ≤ 4 * D := by
        have : (1 - s) ^ 2 * 4 + 6 * s ≤ 4 := by nlinarith
        nlinarith
      have h5 : (1 - s) ^ (2 * (n + 1)) * Z0 = (1 - s) ^ 2 * ((1 - s) ^ (2 * n) * Z0) := by ring
      rw [h5]
      rw [mul_add] at h2
      generalize (1 - s) ^ 2 * ((1 - s) ^ (2 * n) * Z0) = A at *
      linarith
  have hn := key n
  obtain ⟨b1, -⟩ := point_first hs0 hs1 ((x n).value - p n) (T * (x n).velocity)
  obtain ⟨-, b2⟩ := point_first hs0 hs1 ((x 0).value - p 0) (T * (x 0).velocity)
  have hpow : 0 ≤ (1 - h / T) ^ (2 * n) := pow_nonneg (by linarith) _
  have b3 := mul_le_mul_of_nonneg_left b2 hpow
  have e1 : 4 / 3 * T * ((d + r + 2 / 3 * q) / h) = 4 / 3 * ((d + r + 2 / 3 * q) / (h / T)) := by field_simp
  have e2 : 4 / 3 * T * |(x 0).velocity| = 4 / 3 * |T * (x 0).velocity| := by rw [abs_mul, abs_of_pos hT]; ring
  rw [e1, e2]
  generalize (1 - h / T) ^ (2 * n) = r at *
  nlinarith

/-- C129, following: if the touch moves by at most `d` per frame, the value stays behind by at most 4/3 of the way the touch can go in the time `T` (`d/h`
is its speed), after a transient that dies out like (1 - h/T)^(2n).  For all movements of the touch, starts, and frames up to half of the time. -/
theorem C129_follows (p : ℕ → ℝ) (T h d : ℝ) (h0 : 0 < h) (hh : h ≤ T / 2) (hp : ∀ n, |p (n + 1) - p n| ≤ d) (x : State ℝ) (n : ℕ) :
    |(chase p T h x n).value - p n| ≤
      (1 - h / T) ^ (2 * n) * (2 * |x.value - p 0| + 4 / 3 * T * |x.velocity|) + 4 / 3 * T * (d / h) := by
  have := C129_follows_rounded p T h d 0 0 h0 hh hp (chase p T h x) (fun n => by simp [chase]) (fun n => by simp [chase]) n
  simpa [chase] using this

/-- The numbers of the sample with a touch that moves by 1 per frame, from rest on the touch: the duck is never more than 42 behind. -/
example (n : ℕ) : |(chase (fun n => (n : ℝ)) 1000 32 ⟨0, 0⟩ n).value - n| ≤ 42 := by
  have := C129_follows (fun n => (n : ℝ)) 1000 32 1 (by norm_num) (by norm_num) (by intro n; norm_num) ⟨0, 0⟩ n
  norm_num at this
  linarith

/-- A duck whose position is rounded down to whole pixels in every frame. -/
noncomputable def pixels (p : ℕ → ℝ) (T h : ℝ) (x : State ℝ) : ℕ → State ℝ
  | 0 => x
  | n + 1 => ⟨(⌊(round (p n) T h (pixels p T h x n)).value⌋ : ℤ), (round (p n) T h (pixels p T h x n)).velocity⟩

/-- It meets the hypotheses of `C129_follows_rounded`. -/
example (n : ℕ) : |(pixels (fun _ => 0) 1000 32 ⟨600, 0⟩ n).value| ≤ (1 - 32 / 1000) ^ (2 * n) * 1200 + 42 := by
  have := C129_follows_rounded (fun _ => 0) 1000 32 0 1 0 (by norm_num) (by norm_num) (by intro n; simp) (pixels (fun _ => 0) 1000 32 ⟨600, 0⟩)
    (fun n => by
      simp only [pixels]
      rw [abs_sub_comm, abs_le]
      constructor <;> linarith [Int.floor_le (round (0 : ℝ) 1000 32 (pixels (fun _ => 0) 1000 32 ⟨600, 0⟩ n)).value,
        Int.lt_floor_add_one (round (0 : ℝ) 1000 32 (pixels (fun _ => 0) 1000 32 ⟨600, 0⟩ n)).value])
    (fun n => by simp [pixels]) n
  simp only [pixels, sub_zero, abs_zero, mul_zero, add_zero] at this
  norm_num at this ⊢
  linarith

end Motive.Curve.Retarget
