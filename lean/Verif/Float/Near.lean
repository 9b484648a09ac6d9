import Verif.Float.Quantize

/-!
# Accumulated rounding errors

`Near k B e a b`: the computed number `a` differs from the exact number `b`, which is at most `B` in absolute value, by
what `k` roundings to `float` of numbers up to `B` may add up to, and by `e` besides, which accounts for underflow.
-/

namespace Motive.Float

open Motive.Float.Quantize (err_add)

/-- Half a unit in the last place of 1. -/
def u : ℚ := 1 / 2 ^ 24
/-- Half the least positive float. -/
def eta : ℚ := 2 ^ (-150 : ℤ)

theorem u_pos : 0 < u := by norm_num [u]
theorem eta_pos : 0 < eta := by norm_num [eta]

/-- `a` approximates `b`. -/
def Near (k : ℕ) (B e a b : ℚ) : Prop := |b| ≤ B ∧ |a - b| ≤ ((1 + u) ^ k - 1) * B + e

variable {rnd : ℚ → ℚ} {j k : ℕ} {B C e f a b c d : ℚ}

theorem pow_ge (k : ℕ) : 1 ≤ (1 + u) ^ k := one_le_pow₀ (by linarith [u_pos])

theorem Near.refl (hb : |b| ≤ B) : Near 0 B 0 b b := ⟨hb, by simp⟩

theorem Near.pos (h : Near k B e a b) : 0 ≤ B := (abs_nonneg b).trans h.1

/-- What the computed number may be. -/
theorem Near.size (h : Near k B e a b) : |a| ≤ (1 + u) ^ k * B + e := by
  have : |a| ≤ |b| + |a - b| := by
    have e1 : a = b + (a - b) := by ring
    calc |a| = |b + (a - b)| := by rw [← e1]
      _ ≤ _ := abs_add_le _ _
  have h1 := h.1
  have h2 := h.2
  linarith

theorem Near.mono (h : Near k B e a b) (hk : k ≤ j) (hB : B ≤ C) (he : e ≤ f) : Near j C f a b := by
  refine ⟨h.1.trans hB, h.2.trans ?_⟩
  have h1 : (1 + u) ^ k ≤ (1 + u) ^ j := pow_le_pow_right₀ (by linarith [u_pos]) hk
  have h2 := pow_ge k
  have := mul_le_mul (show (1 + u) ^ k - 1 ≤ (1 + u) ^ j - 1 by linarith) hB h.pos (by linarith [pow_ge j])
  linarith

theorem Near.add (h : Near k B e a b) (g : Near k C f c d) : Near k (B + C) (e + f) (a + c) (b + d) := by
  refine ⟨(abs_add_le _ _).trans (add_le_add h.1 g.1), ?_⟩
  have e1 : a + c - (b + d) = (a - b) + (c - d) := by ring
  rw [e1]
  refine (abs_add_le _ _).trans ?_
  have h2 := h.2
  have g2 := g.2
  linarith

theorem Near.neg (h : Near k B e a b) : Near k B e (-a) (-b) := by
  refine ⟨by rw [abs_neg]; exact h.1, ?_⟩
  have e1 : -a - -b = -(a - b) := by ring
  rw [e1, abs_neg]; exact h.2

theorem Near.sub (h : Near k B e a b) (g : Near k C f c d) : Near k (B + C) (e + f) (a - c) (b - d) := by
  have := h.add g.neg
  simpa only [sub_eq_add_neg] using this

/-- The product with a number that suffered no underflow. -/
theorem Near.mul (h : Near j B e a b) (g : Near k C 0 c d) : Near (j + k) (B * C) (e * (1 + u) ^ k * C) (a * c) (b * d) := by
  have hB := h.pos
  have hC := g.pos
  refine ⟨by rw [abs_mul]; exact mul_le_mul h.1 g.1 (abs_nonneg _) hB, ?_⟩
  have e1 : a * c - b * d = (a - b) * c + b * (c - d) := by ring
  rw [e1]
  refine (abs_add_le _ _).trans ?_
  rw [abs_mul, abs_mul]
  have h1 := mul_le_mul h.2 g.size (abs_nonneg _) ((abs_nonneg _).trans h.2)
  have h2 := mul_le_mul h.1 g.2 (abs_nonneg _) hB
  rw [pow_add]
  nlinarith

/-- Multiplication with a number that is known exactly. -/
theorem Near.mul_right (h : Near k B e a b) (hc : |c| ≤ C) : Near k (B * C) (e * C) (a * c) (b * c) := by
  have := h.mul (Near.refl hc)
  simpa using this

theorem Near.mul_left (h : Near k B e a b) (hc : |c| ≤ C) : Near k (C * B) (C * e) (c * a) (c * b) := by
  have := h.mul_right hc
  rwa [mul_comm B, mul_comm e, mul_comm a, mul_comm b] at this

/-- The error of rounding a number in the normal range. -/
theorem err_normal (h : Nearest f32 rnd) {x : ℚ} (hl : (2 : ℚ) ^ (-125 : ℤ) ≤ |x|) : |rnd x - x| ≤ u * |x| := by
  have hx0 : 0 < |x| := lt_of_lt_of_le (two_zpow_pos _) hl
  have h1 := Int.lt_zpow_succ_log_self (b := 2) (by norm_num) |x|
  have h2 := Int.zpow_log_le_self (b := 2) (by norm_num) hx0
  rw [Nat.cast_ofNat] at h1 h2
  have hlog : -126 ≤ Int.log 2 |x| := by
    by_contra hc
    push Not at hc
    have : (2 : ℚ) ^ (Int.log 2 |x| + 1) ≤ 2 ^ (-125 : ℤ) := zpow_le_zpow_right₀ (by norm_num) (by omega)
    linarith
  have := h.err (k := Int.log 2 |x| + 1) (by norm_num [f32]; omega) h1.le
  have e1 : Int.log 2 |x| + 1 - (f32.p : ℤ) - 1 = Int.log 2 |x| - (24 : ℕ) := by simp only [f32]; ring
  rw [e1, zpow_sub₀ (by norm_num), zpow_natCast] at this
  have h3 := div_le_div_of_nonneg_right h2 (show (0 : ℚ) ≤ 2 ^ 24 by norm_num)
  have h4 : u * |x| = |x| / 2 ^ 24 := by rw [u]; ring
  linarith

/-- The error of rounding any number. -/
theorem err_any (h : Nearest f32 rnd) (x : ℚ) : |rnd x - x| ≤ u * |x| + eta := by
  rcases le_total |x| (2 ^ (-125 : ℤ)) with hs | hl
  · have := h.err (x := x) (k := -125) (by norm_num [f32]) hs
    have e1 : ((2 : ℚ) ^ ((-125 : ℤ) - (f32.p : ℤ) - 1)) = eta := by norm_num [f32, eta]
    rw [e1] at this
    have := mul_nonneg u_pos.le (abs_nonneg x)
    linarith
  · have := err_normal h hl
    have := eta_pos
    linarith

/-- Rounding adds one to the count. -/
theorem Near.rnd_of (g : Near k B e a b) {m : ℚ} (hm : |c - a| ≤ u * |a| + m) : Near (k + 1) B ((1 + u) * e + m) c b := by
  refine ⟨g.1, ?_⟩
  have e1 : c - b = (c - a) + (a - b) := by ring
  rw [e1]
  refine (abs_add_le _ _).trans ?_
  have h1 := mul_le_mul_of_nonneg_left g.size u_pos.le
  have h2 := g.2
  rw [pow_succ]
  nlinarith

theorem Near.round (h : Nearest f32 rnd) (g : Near k B e a b) : Near (k + 1) B ((1 + u) * e + eta) (rnd a) b :=
  g.rnd_of (err_any h a)

/-- Rounding a sum of floats. -/
theorem Near.rnd_add (h : Nearest f32 rnd) (ha : f32.Mem a) (hc : f32.Mem c) (g : Near k B e (a + c) b) :
    Near (k + 1) B ((1 + u) * e) (rnd (a + c)) b := by
  have h1 := err_add h ha hc
  have h2 : |a + c| / 2 ^ 24 = u * |a + c| := by rw [u]; ring
  have := g.rnd_of (c := rnd (a + c)) (m := 0) (by linarith)
  simpa using this

theorem Near.rnd_sub (h : Nearest f32 rnd) (ha : f32.Mem a) (hc : f32.Mem c) (g : Near k B e (a - c) b) :
    Near (k + 1) B ((1 + u) * e) (rnd (a - c)) b := by
  rw [sub_eq_add_neg] at g ⊢
  exact g.rnd_add h ha (mem_neg hc)

/-- Rounding a number in the normal range. -/
theorem Near.rnd_normal (h : Nearest f32 rnd) (hl : (2 : ℚ) ^ (-125 : ℤ) ≤ |a|) (g : Near k B e a b) :
    Near (k + 1) B ((1 + u) * e) (rnd a) b := by
  have := g.rnd_of (c := rnd a) (m := 0) (by have := err_normal h hl; linarith)
  simpa using this

end Motive.Float
