import Verif.Float.Quantize

/-!
# Clocks in single precision (C85)

Springs and ease curves keep the time since their target was set in a `float` of milliseconds, and splines keep the
position in their current cubic in one.  The frames are whole milliseconds.
-/

namespace Motive.Float.Time

open Motive.Float.Range
open Motive.Float.Quantize (memI)

/-! ### Model -/

section Model
variable (rnd : ℚ → ℚ)

/-- `d.elapsed_time += static_cast<float>(delta_time)` (ease_in_ease_out_processor.cpp:73, spring_processor.cpp:58). -/
def tick (e : ℚ) (dt : ℤ) : ℚ := rnd (e + rnd dt)

/-- `cubic_xs_[i] += delta_x * sources_[i].rate` (bulk_spline_evaluator.cpp:240, 288), `delta_x` being the frame as a
`float` (spline_processor.cpp:37). -/
def advanceX (rate x : ℚ) (dt : ℤ) : ℚ := rnd (x + rnd (rnd dt * rate))

/-- The clock after a list of frames: `elapsed_time` starts from 0 (spring_processor.cpp:80,
ease_in_ease_out_processor.cpp:133). -/
def clock (frames : List ℤ) : ℚ := frames.foldl (tick rnd) 0

end Model

variable {rnd : ℚ → ℚ}

theorem tick_exact (h : Nearest f32 rnd) {a d : ℤ} (ha : 0 ≤ a) (hd : 0 ≤ d) (hs : a + d ≤ 2 ^ 24) :
    tick rnd a d = ((a + d : ℤ) : ℚ) := by
  unfold tick
  rw [h.exact (memI d (by rw [abs_of_nonneg hd]; omega)), ← Int.cast_add,
    h.exact (memI (a + d) (by rw [abs_of_nonneg (by omega)]; exact hs))]

theorem clock_exact_from (h : Nearest f32 rnd) (frames : List ℤ) :
    ∀ a : ℤ, 0 ≤ a → (∀ d ∈ frames, 0 ≤ d) → a + frames.sum ≤ 2 ^ 24 →
      frames.foldl (tick rnd) (a : ℚ) = ((a + frames.sum : ℤ) : ℚ) := by
  induction frames with
  | nil => intro a _ _ _; simp
  | cons d l ih =>
    intro a ha hf hs
    have hd : 0 ≤ d := hf d (by simp)
    have hl : 0 ≤ l.sum := List.sum_nonneg fun x hx => hf x (by simp [hx])
    rw [List.sum_cons] at hs
    rw [List.foldl_cons, tick_exact h ha hd (by omega), ih (a + d) (by omega) (fun x hx => hf x (by simp [hx])) (by omega),
      List.sum_cons, add_assoc]

/-- **C85**: up to `2 ^ 24` milliseconds (4.66 hours) the clock is exact: it shows the sum of the frames. -/
theorem C85_exact (h : Nearest f32 rnd) {frames : List ℤ} (hf : ∀ d ∈ frames, 0 ≤ d) (hs : frames.sum ≤ 2 ^ 24) :
    clock rnd frames = frames.sum := by
  have := clock_exact_from h frames 0 le_rfl hf (by omega)
  simpa [clock] using this

/-- **C85**: so, until then, it does not matter how a time is divided into frames. -/
theorem C85_division_of_time (h : Nearest f32 rnd) {f g : List ℤ} (hf : ∀ d ∈ f, 0 ≤ d) (hg : ∀ d ∈ g, 0 ≤ d)
    (hfg : f.sum = g.sum) (hs : f.sum ≤ 2 ^ 24) : clock rnd f = clock rnd g := by
  rw [C85_exact h hf hs, C85_exact h hg (hfg ▸ hs), hfg]

/-- **C85**: time does not run backwards, on a clock or in a spline that is played forwards. -/
theorem C85_forwards (h : Nearest f32 rnd) {x rate : ℚ} {dt : ℤ} (hx : f32.Mem x) (hr : 0 ≤ rate) (hd : 0 ≤ dt) :
    x ≤ tick rnd x dt ∧ x ≤ advanceX rnd rate x dt ∧ advanceX rnd 0 x dt = x := by
  have h0 : 0 ≤ rnd dt := h.ge_of_ge mem_zero (by exact_mod_cast hd)
  refine ⟨h.ge_of_ge hx (by linarith), h.ge_of_ge hx ?_, ?_⟩
  · have := h.ge_of_ge mem_zero (mul_nonneg h0 hr)
    linarith
  · unfold advanceX
    rw [mul_zero, h.zero, add_zero, h.exact hx]

theorem drift_from (h : Nearest f32 rnd) {j : ℤ} (hj : -100 ≤ j) (frames : List ℤ) :
    ∀ (a : ℚ) (t : ℤ) (n : ℕ), 0 ≤ t → (∀ d ∈ frames, 0 ≤ d ∧ d ≤ 2 ^ 24) → ((t + frames.sum : ℤ) : ℚ) ≤ 2 ^ j →
      n + frames.length ≤ 2 ^ 24 → |a - t| ≤ n * 2 ^ (j - 24) →
      |frames.foldl (tick rnd) a - ((t + frames.sum : ℤ) : ℚ)| ≤ (n + frames.length : ℕ) * 2 ^ (j - 24) := by
  induction frames with
  | nil => intro a t n _ _ _ _ ha; simpa using ha
  | cons d l ih =>
    intro a t n ht hf hs hn ha
    obtain ⟨hd0, hd1⟩ := hf d (by simp)
    have hl : 0 ≤ l.sum := List.sum_nonneg fun x hx => (hf x (by simp [hx])).1
    rw [List.sum_cons] at hs
    rw [List.length_cons] at hn
    have hdr : rnd (d : ℚ) = d := h.exact (memI d (by rw [abs_of_nonneg hd0]; exact hd1))
    have hpos := two_zpow_pos (j - 24)
    have e24 : (2 : ℚ) ^ j = 2 ^ 24 * 2 ^ (j - 24) := by
      have : j = 24 + (j - 24) := by ring
      conv_lhs => rw [this, zpow_split]
      norm_num
    have hn' : (n : ℚ) ≤ 2 ^ 24 := by
      have : n ≤ 2 ^ 24 := by omega
      exact_mod_cast this
    have hlq : (0 : ℚ) ≤ ((l.sum : ℤ) : ℚ) := by exact_mod_cast hl
    have htq : (0 : ℚ) ≤ (t : ℚ) := by exact_mod_cast ht
    have hdq : (0 : ℚ) ≤ (d : ℚ) := by exact_mod_cast hd0
    have hb : |a + d| ≤ 2 ^ (j + 1) := by
      have e2 : (2 : ℚ) ^ (j + 1) = 2 ^ j + 2 ^ j := by rw [zpow_split]; norm_num; ring
      have hnn : n * (2 : ℚ) ^ (j - 24) ≤ 2 ^ j := by
        rw [e24]; exact mul_le_mul_of_nonneg_right hn' hpos.le
      push_cast at hs
      rw [abs_le] at ha ⊢
      rw [e2]
      constructor <;> linarith [ha.1, ha.2]
    have er := h.err (x := a + d) (k := j + 1) (by norm_num [f32]; omega) hb
    have ee : j + 1 - (f32.p : ℤ) - 1 = j - 24 := by simp only [f32]; ring
    rw [ee] at er
    have hstep : |tick rnd a d - ((t + d : ℤ) : ℚ)| ≤ ((n + 1 : ℕ) : ℚ) * 2 ^ (j - 24) := by
      unfold tick
      rw [hdr]
      have e : rnd (a + d) - ((t + d : ℤ) : ℚ) = (rnd (a + d) - (a + d)) + (a - t) := by push_cast; ring
      rw [e]
      refine (abs_add_le _ _).trans ?_
      push_cast
      linarith
    have := ih (tick rnd a d) (t + d) (n + 1) (by omega) (fun x hx => hf x (by simp [hx]))
      (by rw [add_assoc]; exact hs) (by omega) hstep
    rw [List.foldl_cons, List.sum_cons, List.length_cons, ← add_assoc]
    have e : n + (l.length + 1) = n + 1 + l.length := by omega
    rw [e]
    exact this

/-- **C85**: beyond, the clock drifts by at most the unit of its largest value in each frame. -/
theorem C85_drift (h : Nearest f32 rnd) {j : ℤ} (hj : -100 ≤ j) {frames : List ℤ}
    (hf : ∀ d ∈ frames, 0 ≤ d ∧ d ≤ 2 ^ 24) (hs : (frames.sum : ℚ) ≤ 2 ^ j) (hn : frames.length ≤ 2 ^ 24) :
    |clock rnd frames - frames.sum| ≤ frames.length * 2 ^ (j - 24) := by
  have := drift_from h hj frames 0 0 0 le_rfl hf (by simpa using hs) (by omega) (by simp)
  simpa [clock] using this

/-- The spacing of the floats from `2 ^ k` on. -/
theorem grid {k : ℤ} (y : ℚ) (hmem : f32.Mem y) (hy : (2 : ℚ) ^ k ≤ y) : ∃ n : ℤ, y = n * 2 ^ (k - 23) := by
  obtain ⟨m, e, hm, he, rfl⟩ := hmem
  have hek : k - 23 ≤ e := by
    by_contra hc
    push Not at hc
    have hm' : (m : ℚ) < 2 ^ 24 := by
      have h3 : m < (2 ^ 24 : ℤ) := lt_of_le_of_lt (le_abs_self m) hm
      have : (m : ℚ) < ((2 ^ 24 : ℤ) : ℚ) := by exact_mod_cast h3
      push_cast at this; exact this
    have h2 : (2 : ℚ) ^ e ≤ 2 ^ (k - 24) := zpow_le_zpow_right₀ (by norm_num) (by omega)
    have h5 : (m : ℚ) * 2 ^ e < 2 ^ 24 * 2 ^ e := mul_lt_mul_of_pos_right hm' (two_zpow_pos e)
    have h6 : (2 : ℚ) ^ 24 * 2 ^ e ≤ 2 ^ 24 * 2 ^ (k - 24) := mul_le_mul_of_nonneg_left h2 (by norm_num)
    have h7 : (2 : ℚ) ^ 24 * 2 ^ (k - 24) = 2 ^ k := by
      rw [← zpow_natCast, ← zpow_split]; congr 1; norm_num
    linarith
  exact rescale m hek

/-- A float does not change when less than half of its unit is added. -/
theorem absorbs (h : Nearest f32 rnd) {x d : ℚ} {k : ℤ} (hx : f32.Mem x) (hkx : (2 : ℚ) ^ k ≤ x) (h0 : 0 ≤ d)
    (hd : d < 2 ^ (k - 24)) : rnd (x + d) = x := by
  have hge := h.ge_of_ge hx (x := x + d) (by linarith)
  have hnear := h.near (x + d) x hx
  rw [show x - (x + d) = -d by ring, abs_neg, abs_of_nonneg h0, abs_le] at hnear
  have hle : rnd (x + d) < x + 2 ^ (k - 23) := by
    have e : (2 : ℚ) ^ (k - 23) = 2 ^ (k - 24) + 2 ^ (k - 24) := by
      rw [show k - 23 = (k - 24) + 1 by ring, zpow_split]; norm_num; ring
    rw [e]; linarith [hnear.2]
  by_contra hne
  have hgt : x < rnd (x + d) := lt_of_le_of_ne hge (Ne.symm hne)
  obtain ⟨a, ha⟩ := grid x hx hkx
  obtain ⟨b, hb⟩ := grid _ (h.mem (x + d)) (hkx.trans hge)
  rw [hb] at hgt hle
  rw [ha] at hgt hle
  have hpos := two_zpow_pos (k - 23)
  have h1 : (a : ℚ) < b := lt_of_mul_lt_mul_right hgt hpos.le
  have h2 : (b : ℚ) < a + 1 := by
    have : (b : ℚ) * 2 ^ (k - 23) < (a + 1) * 2 ^ (k - 23) := by rw [add_mul, one_mul]; exact hle
    exact lt_of_mul_lt_mul_right this hpos.le
  have h1' : a < b := by exact_mod_cast h1
  have h2' : b < a + 1 := by exact_mod_cast h2
  omega

/-- **C85**: in the end time stops.  From a reading of `2 ^ k` milliseconds on, frames shorter than `2 ^ (k - 24)`
milliseconds do not move the clock, however many there are; the same holds for a spline, whose frames are scaled by its
playback rate. -/
theorem C85_stops (h : Nearest f32 rnd) {x rate : ℚ} {k : ℤ} (hx : f32.Mem x) (hkx : (2 : ℚ) ^ k ≤ x)
    (frames : List ℤ) :
    ((∀ d ∈ frames, 0 ≤ d ∧ d ≤ 2 ^ 24 ∧ (d : ℚ) < 2 ^ (k - 24)) → frames.foldl (tick rnd) x = x) ∧
    ((∀ d ∈ frames, 0 ≤ d ∧ d ≤ 2 ^ 24 ∧ 0 ≤ rate ∧ rnd (d * rate) < 2 ^ (k - 24)) →
      frames.foldl (advanceX rnd rate) x = x) := by
  constructor
  · induction frames with
    | nil => intro _; rfl
    | cons d l ih =>
      intro hf
      obtain ⟨h0, h1, h2⟩ := hf d (by simp)
      have : tick rnd x d = x := by
        unfold tick
        rw [h.exact (memI d (by rw [abs_of_nonneg h0]; exact h1))]
        exact absorbs h hx hkx (by exact_mod_cast h0) h2
      rw [List.foldl_cons, this]
      exact ih fun y hy => hf y (by simp [hy])
  · induction frames with
    | nil => intro _; rfl
    | cons d l ih =>
      intro hf
      obtain ⟨h0, h1, hr, h2⟩ := hf d (by simp)
      have : advanceX rnd rate x d = x := by
        unfold advanceX
        rw [h.exact (memI d (by rw [abs_of_nonneg h0]; exact h1))]
        refine absorbs h hx hkx (h.ge_of_ge mem_zero (mul_nonneg (by exact_mod_cast h0) hr)) h2
      rw [List.foldl_cons, this]
      exact ih fun y hy => hf y (by simp [hy])

/-- **C85**: with frames of one millisecond, and ties to even, the clock stops at 4.66 hours: an hour more of frames, or
any number, leaves it there. -/
theorem C85_stops_after_hours (h : NearestEven f32 rnd) (n : ℕ) : clock rnd (List.replicate (2 ^ 24 + n) 1) = 2 ^ 24 := by
  have hn := h.toNearest
  rw [List.replicate_add]
  unfold clock
  rw [List.foldl_append]
  have h1 := C85_exact hn (frames := List.replicate (2 ^ 24) 1)
    (fun d hd => by rw [List.eq_of_mem_replicate hd]; norm_num) (by rw [List.sum_replicate]; simp)
  unfold clock at h1
  rw [h1, List.sum_replicate]
  have hstep : tick rnd (2 ^ 24) 1 = 2 ^ 24 := by
    unfold tick
    rw [hn.exact (memI 1 (by norm_num))]
    have m24 : f32.Mem (2 ^ 24) := mem32 1 24 _ (by norm_num) (by norm_num) (by norm_num)
    have m26 : f32.Mem (2 ^ 24 + 2) := mem32 8388609 1 _ (by norm_num) (by norm_num) (by norm_num)
    have hge := hn.ge_of_ge m24 (x := 2 ^ 24 + ((1 : ℤ) : ℚ)) (by norm_num)
    have hle := hn.le_of_le m26 (x := 2 ^ 24 + ((1 : ℤ) : ℚ)) (by norm_num)
    obtain ⟨q, hq⟩ := grid (k := 24) _ (hn.mem (2 ^ 24 + ((1 : ℤ) : ℚ))) (by
      refine le_trans (le_of_eq ?_) hge; norm_num)
    have hq' : rnd (2 ^ 24 + ((1 : ℤ) : ℚ)) = q * 2 := by rw [hq]; norm_num
    rw [hq'] at hge hle
    have h1' : (8388608 : ℤ) ≤ q := by
      have : (8388608 : ℚ) ≤ q := by norm_num at hge; linarith
      exact_mod_cast this
    have h2' : q ≤ (8388609 : ℤ) := by
      have : (q : ℚ) ≤ 8388609 := by norm_num at hle; linarith
      exact_mod_cast this
    by_cases hc : q = 8388608
    · rw [hq', hc]; norm_num
    · have hc' : q = 8388609 := by omega
      have := h.even (2 ^ 24 + ((1 : ℤ) : ℚ)) (2 ^ 24) 8388609 1 m24 (by rw [hq', hc']; norm_num)
        (by rw [hq', hc']; norm_num) (by rw [hq', hc']; norm_num) (by norm_num [f32]) (by norm_num [f32])
        (Or.inr (by norm_num [f32]))
      norm_num at this
  have hall : ∀ m : ℕ, (List.replicate m (1 : ℤ)).foldl (tick rnd) (2 ^ 24) = 2 ^ 24 := by
    intro m
    induction m with
    | zero => rfl
    | succ m ih => rw [List.replicate_succ, List.foldl_cons, hstep, ih]
  have e : (((2 ^ 24 • (1 : ℤ) : ℤ)) : ℚ) = 2 ^ 24 := by norm_num
  rw [e]
  exact hall n

/-! A minute at 60 frames per second. -/
example : clock (rne f32) (List.replicate 3600 17) = 61200 := by
  rw [C85_exact (rne_nearest f32) (fun d hd => by rw [List.eq_of_mem_replicate hd]; norm_num)
    (by rw [List.sum_replicate]; norm_num), List.sum_replicate]
  norm_num

/-! A spline that is played at a thousandth of its speed stops 17 seconds into a segment. -/
example (n : ℕ) : (List.replicate n (1 : ℤ)).foldl (advanceX (rne f32) (1 / 2048)) 16384 = 16384 := by
  have m : f32.Mem 16384 := by have := memI 16384 (by norm_num); simpa using this
  refine (C85_stops (rne_nearest f32) (k := 14) m (by norm_num) _).2 fun d hd => ?_
  rw [List.eq_of_mem_replicate hd]
  refine ⟨by norm_num, by norm_num, by norm_num, ?_⟩
  have : f32.Mem (((1 : ℤ) : ℚ) * (1 / 2048)) := mem32 1 (-11) _ (by norm_num) (by norm_num) (by norm_num)
  rw [(rne_nearest f32).exact this]
  norm_num

end Motive.Float.Time
