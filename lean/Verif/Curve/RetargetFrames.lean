import Verif.Curve.Retarget
import Mathlib.Analysis.Complex.Exponential

/-!
# Setting the same target in every frame, with frames of any lengths (C129)

As `Verif.Curve.Retarget`, but the lengths of the frames vary, as they do on a real screen.
-/

namespace Motive.Curve.Retarget

open Motive.Curve

/-- The loop of the sample (duck2f.cpp:73-89) with the same touch and frames of these lengths. -/
def runFrames {K : Type} [Field K] [LinearOrder K] (p T : K) (x : State K) (hs : List K) : State K := hs.foldl (fun y h => round p T h y) x

/-- A measure of the distance from rest on the target that no frame makes larger, whatever its length. -/
def measure (e w : ℝ) : ℝ := 7 * e ^ 2 + (e + w) ^ 2

/-- A frame that takes the part `s` of the target time takes at least that part of the measure away. -/
theorem measure_decay {s : ℝ} (h0 : 0 ≤ s) (h1 : s ≤ 1) (e w : ℝ) :
    measure ((1 - s) ^ 2 * (1 + 2 * s) * e + s * (1 - s) ^ 2 * w) (-6 * s * (1 - s) * e + (1 - s) * (1 - 3 * s) * w) ≤ (1 - s) * measure e w := by
  have ht : 0 ≤ 1 - s := by linarith
  -- the form that is left after a factor s (1 - s)
  have hq : 0 < 4 + 4 * s + 8 * s ^ 2 - 40 * s ^ 3 + 32 * s ^ 4 := by
    have e1 : 4 + 4 * s + 8 * s ^ 2 - 40 * s ^ 3 + 32 * s ^ 4 =
        4 * (1 - s) ^ 4 + 20 * (s * (1 - s) ^ 3) + 44 * (s ^ 2 * (1 - s) ^ 2) + 4 * (s ^ 3 * (1 - s)) + 8 * s ^ 4 := by ring
    have a1 : 0 ≤ s * (1 - s) ^ 3 := by positivity
    have a2 : 0 ≤ s ^ 2 * (1 - s) ^ 2 := by positivity
    have a3 : 0 ≤ s ^ 3 * (1 - s) := by positivity
    have a4 : 0 < 4 * (1 - s) ^ 4 + 8 * s ^ 4 := by
      rcases h0.eq_or_lt with rfl | h
      · norm_num
      · have : 0 < s ^ 4 := by positivity
        have : 0 ≤ (1 - s) ^ 4 := by positivity
        linarith
    rw [e1]; linarith
  have hd : 0 ≤ (4 + 4 * s + 8 * s ^ 2 - 40 * s ^ 3 + 32 * s ^ 4) * (5 - 13 * s + 19 * s ^ 2 - 18 * s ^ 3 + 8 * s ^ 4) -
      (1 - 7 * s + 19 * s ^ 2 - 28 * s ^ 3 + 16 * s ^ 4) ^ 2 := by
    have e1 : (4 + 4 * s + 8 * s ^ 2 - 40 * s ^ 3 + 32 * s ^ 4) * (5 - 13 * s + 19 * s ^ 2 - 18 * s ^ 3 + 8 * s ^ 4) -
        (1 - 7 * s + 19 * s ^ 2 - 28 * s ^ 3 + 16 * s ^ 4) ^ 2 =
        19 * (1 - s) ^ 5 + 77 * (s * (1 - s) ^ 4) + 95 * (s ^ 2 * (1 - s) ^ 3) + 35 * (s ^ 3 * (1 - s) ^ 2) + 5 * (s ^ 4 * (1 - s)) + 7 * s ^ 5 := by ring
    rw [e1]; positivity
  generalize eA : 4 + 4 * s + 8 * s ^ 2 - 40 * s ^ 3 + 32 * s ^ 4 = A at hq hd
  generalize eB : 1 - 7 * s + 19 * s ^ 2 - 28 * s ^ 3 + 16 * s ^ 4 = B at hd
  generalize eC : 5 - 13 * s + 19 * s ^ 2 - 18 * s ^ 3 + 8 * s ^ 4 = C at hd
  have form : 0 ≤ A * e ^ 2 + 2 * B * (e * w) + C * w ^ 2 := by
    have k : A * (A * e ^ 2 + 2 * B * (e * w) + C * w ^ 2) = (A * e + B * w) ^ 2 + (A * C - B ^ 2) * w ^ 2 := by ring
    have : 0 ≤ A * (A * e ^ 2 + 2 * B * (e * w) + C * w ^ 2) := by
      rw [k]; exact add_nonneg (sq_nonneg _) (mul_nonneg hd (sq_nonneg _))
    exact nonneg_of_mul_nonneg_right this hq
  have id : (1 - s) * measure e w -
      measure ((1 - s) ^ 2 * (1 + 2 * s) * e + s * (1 - s) ^ 2 * w) (-6 * s * (1 - s) * e + (1 - s) * (1 - 3 * s) * w) =
      s * (1 - s) * (A * e ^ 2 + 2 * B * (e * w) + C * w ^ 2) := by
    rw [← eA, ← eB, ← eC]; unfold measure; ring
  have := mul_nonneg (mul_nonneg h0 ht) form
  linarith

/-- C129, any frames: from any start and with frames of any lengths up to the target time, different ones if need be, after the time `t` that they take
together the square of the distance to the target is at most exp(-t/T) times a measure of the start.  So it tends to 0 as time passes. -/
theorem C129_any_frames (p T : ℝ) (hT : 0 < T) (x : State ℝ) (hs : List ℝ) (h : ∀ t ∈ hs, 0 ≤ t ∧ t ≤ T) :
    ((runFrames p T x hs).value - p) ^ 2 ≤ Real.exp (-(hs.sum / T)) * ((x.value - p) ^ 2 + (x.value - p + T * x.velocity) ^ 2 / 7) := by
  have key : ∀ (hs : List ℝ) (x : State ℝ), (∀ t ∈ hs, 0 ≤ t ∧ t ≤ T) →
      measure ((runFrames p T x hs).value - p) (T * (runFrames p T x hs).velocity) ≤ Real.exp (-(hs.sum / T)) * measure (x.value - p) (T * x.velocity) := by
    intro hs
    induction hs with
    | nil => intro x _; simp [runFrames]
    | cons t hs ih =>
      intro x ht
      have i := ih (round p T t x) fun u hu => ht u (List.mem_cons_of_mem _ hu)
      obtain ⟨t0, t1⟩ := ht t List.mem_cons_self
      obtain ⟨e1, e2⟩ := round_eq (p := p) (h := t) hT x
      have d := measure_decay (div_nonneg t0 hT.le) ((div_le_one hT).2 t1) (x.value - p) (T * x.velocity)
      rw [← e1, ← e2] at d
      have m0 : 0 ≤ measure (x.value - p) (T * x.velocity) := by unfold measure; positivity
      have ex := Real.one_sub_le_exp_neg (t / T)
      have f : runFrames p T x (t :: hs) = runFrames p T (round p T t x) hs := rfl
      rw [f, List.sum_cons, add_div, neg_add, Real.exp_add, mul_comm (Real.exp (-(t / T))), mul_assoc]
      exact i.trans (mul_le_mul_of_nonneg_left (d.trans (mul_le_mul_of_nonneg_right ex m0)) (Real.exp_nonneg _))
  have k := key hs x h
  have hsq := sq_nonneg ((runFrames p T x hs).value - p + T * (runFrames p T x hs).velocity)
  unfold measure at k
  have e : Real.exp (-(hs.sum / T)) * (7 * (x.value - p) ^ 2 + (x.value - p + T * x.velocity) ^ 2) =
      7 * (Real.exp (-(hs.sum / T)) * ((x.value - p) ^ 2 + (x.value - p + T * x.velocity) ^ 2 / 7)) := by ring
  rw [e] at k
  linarith

/-- The duck of the sample from rest at 1, with a hundred frames that alternate between 16 and 48: the bound is below 1/4. -/
example : ((runFrames (0 : ℝ) 1000 ⟨1, 0⟩ ((List.replicate 50 [16, 48]).flatten)).value - 0) ^ 2 ≤ Real.exp (-(3200 / 1000)) * (8 / 7) := by
  have h : ∀ t ∈ (List.replicate 50 [(16 : ℝ), 48]).flatten, 0 ≤ t ∧ t ≤ 1000 := by
    intro t ht
    rw [List.mem_flatten] at ht
    obtain ⟨l, hl, hm⟩ := ht
    rw [List.eq_of_mem_replicate hl] at hm
    simp only [List.mem_cons, List.not_mem_nil, or_false] at hm
    rcases hm with rfl | rfl <;> norm_num
  have := C129_any_frames 0 1000 (by norm_num) ⟨1, 0⟩ _ h
  have e : ((List.replicate 50 [(16 : ℝ), 48]).flatten).sum = 3200 := by
    rw [List.sum_flatten, List.map_replicate, List.sum_replicate]; norm_num
  rw [e] at this
  norm_num at this ⊢
  exact this

end Motive.Curve.Retarget
