import Mathlib.Algebra.Order.Round
import Mathlib.Algebra.Order.Archimedean.Basic
import Mathlib.Data.Int.Log
import Mathlib.Data.Rat.Floor
import Mathlib.Tactic.Linarith
import Mathlib.Tactic.NormNum
import Mathlib.Tactic.Ring
import Mathlib.Tactic.Positivity
import Mathlib.Tactic.FieldSimp

/-!
# Binary floating-point numbers and rounding to nearest

A specification of IEEE 754 binary formats as sets of rational numbers.  A format has a precision `p` and a least
exponent `emin`; its numbers are `m * 2 ^ e` with `|m| < 2 ^ p` and `emin ≤ e`.  `float` is precision 24 and least
exponent -149; `double` is precision 53 and least exponent -1074.

Simplification: exponents are not bounded above, so overflow to infinity is not modelled; there are no NaNs and there
is one zero.  A rounding function is any function that returns a nearest number of the format (`Nearest`).  The rule
for ties is left open, so the theorems hold for ties to even, the IEEE default, and for every other rule.
-/

namespace Motive.Float

/-- A binary floating-point format. -/
structure Fmt where
  p : ℕ
  emin : ℤ
  ppos : 1 ≤ p

/-- IEEE 754 binary32. -/
def f32 : Fmt := ⟨24, -149, by norm_num⟩
/-- IEEE 754 binary64. -/
def f64 : Fmt := ⟨53, -1074, by norm_num⟩

/-- `x` is a number of the format. -/
def Fmt.Mem (F : Fmt) (x : ℚ) : Prop := ∃ m e : ℤ, |m| < 2 ^ F.p ∧ F.emin ≤ e ∧ x = m * 2 ^ e

/-- `rnd` rounds every rational to a number of the format that is nearest to it. -/
structure Nearest (F : Fmt) (rnd : ℚ → ℚ) : Prop where
  mem : ∀ x, F.Mem (rnd x)
  near : ∀ x y, F.Mem y → |rnd x - x| ≤ |y - x|

theorem round_mono {x y : ℚ} (h : x ≤ y) : round x ≤ round y := by
  rw [round_eq, round_eq]; exact Int.floor_le_floor (by linarith)

/-! ### Numbers of a format -/

variable {F : Fmt}

theorem two_zpow_pos (e : ℤ) : (0 : ℚ) < 2 ^ e := zpow_pos (by norm_num) e

theorem zpow_split (a b : ℤ) : (2 : ℚ) ^ (a + b) = 2 ^ a * 2 ^ b := zpow_add₀ (by norm_num) a b

/-- The bound on the significand may be reached. -/
theorem mem_of_le {m e : ℤ} (hm : |m| ≤ 2 ^ F.p) (he : F.emin ≤ e) : F.Mem (m * 2 ^ e) := by
  rcases lt_or_eq_of_le hm with h | h
  · exact ⟨m, e, h, he, rfl⟩
  · obtain ⟨k, hk⟩ : ∃ k, F.p = k + 1 := ⟨F.p - 1, by have := F.ppos; omega⟩
    rcases (abs_eq (show (0 : ℤ) ≤ 2 ^ F.p by positivity)).mp h with h | h
    · refine ⟨2 ^ k, e + 1, ?_, by omega, ?_⟩
      · rw [abs_of_pos (by positivity), hk, pow_succ]
        have : (0 : ℤ) < 2 ^ k := by positivity
        omega
      · rw [h, hk, zpow_split]; push_cast; ring
    · refine ⟨-2 ^ k, e + 1, ?_, by omega, ?_⟩
      · rw [abs_neg, abs_of_pos (by positivity), hk, pow_succ]
        have : (0 : ℤ) < 2 ^ k := by positivity
        omega
      · rw [h, hk, zpow_split]; push_cast; ring

theorem mem_zero : F.Mem 0 := ⟨0, F.emin, by simp, le_rfl, by simp⟩

theorem mem_neg {x : ℚ} (h : F.Mem x) : F.Mem (-x) := by
  obtain ⟨m, e, hm, he, rfl⟩ := h
  exact ⟨-m, e, by rwa [abs_neg], he, by push_cast; ring⟩

theorem mem_abs {x : ℚ} (h : F.Mem x) : F.Mem |x| := by
  rcases abs_choice x with h' | h' <;> rw [h']
  · exact h
  · exact mem_neg h

/-- Integers up to `2 ^ p` are numbers of the format. -/
theorem mem_int {n : ℤ} (hn : |n| ≤ 2 ^ F.p) (he : F.emin ≤ 0) : F.Mem n := by
  have := mem_of_le hn he
  simpa using this

theorem mem_zpow {e : ℤ} (he : F.emin ≤ e) : F.Mem (2 ^ e) := by
  have h : |(1 : ℤ)| ≤ 2 ^ F.p := by
    rw [abs_one]; exact one_le_pow₀ (by norm_num)
  have := mem_of_le h he
  simpa using this

/-- Scaling up by a power of two. -/
theorem mem_mul_zpow {x : ℚ} {k : ℤ} (hk : 0 ≤ k) (h : F.Mem x) : F.Mem (x * 2 ^ k) := by
  obtain ⟨m, e, hm, he, rfl⟩ := h
  exact ⟨m, e + k, hm, by omega, by rw [zpow_split]; ring⟩

/-- A wider format has all the numbers. -/
theorem mem_wider {G : Fmt} (hp : F.p ≤ G.p) (he : G.emin ≤ F.emin) {x : ℚ} (h : F.Mem x) : G.Mem x := by
  obtain ⟨m, e, hm, hme, rfl⟩ := h
  exact ⟨m, e, lt_of_lt_of_le hm (pow_le_pow_right₀ (by norm_num) hp), by omega, rfl⟩

/-- A multiple of a unit that is not larger than a number with that unit is a number. -/
theorem mem_of_abs_le {k m e : ℤ} (hm : |m| < 2 ^ F.p) (he : F.emin ≤ e)
    (h : |(k : ℚ) * 2 ^ e| ≤ |(m : ℚ) * 2 ^ e|) : F.Mem (k * 2 ^ e) := by
  refine ⟨k, e, ?_, he, rfl⟩
  rw [abs_mul, abs_mul] at h
  have h2 : (0 : ℚ) < |(2 : ℚ) ^ e| := abs_pos.mpr (two_zpow_pos e).ne'
  have h3 := le_of_mul_le_mul_right h h2
  have h4 : |k| ≤ |m| := by exact_mod_cast h3
  omega

/-- Rewriting a number with a smaller unit. -/
theorem rescale (m : ℤ) {e g : ℤ} (h : g ≤ e) : ∃ k : ℤ, (m : ℚ) * 2 ^ e = k * 2 ^ g := by
  refine ⟨m * 2 ^ (e - g).toNat, ?_⟩
  have : e = ((e - g).toNat : ℤ) + g := by omega
  conv_lhs => rw [this, zpow_split, zpow_natCast]
  push_cast; ring

/-- **Sterbenz**: the difference of two numbers within a factor of two of each other is a number. -/
theorem sterbenz {x y : ℚ} (hx : F.Mem x) (hy : F.Mem y) (h1 : y ≤ 2 * x) (h2 : x ≤ 2 * y) : F.Mem (x - y) := by
  obtain ⟨m, e, hm, he, rfl⟩ := hx
  obtain ⟨n, f, hn, hf, rfl⟩ := hy
  rcases le_total e f with hef | hef
  · obtain ⟨k, hk⟩ := rescale n hef
    rw [hk] at h1 h2 ⊢
    rw [← sub_mul, ← Int.cast_sub]
    refine mem_of_abs_le hm he ?_
    push_cast
    rw [sub_mul]
    have hx0 : 0 ≤ (m : ℚ) * 2 ^ e := by linarith
    rw [abs_of_nonneg hx0, abs_le]
    constructor <;> linarith
  · obtain ⟨k, hk⟩ := rescale m hef
    rw [hk] at h1 h2 ⊢
    rw [← sub_mul, ← Int.cast_sub]
    refine mem_of_abs_le hn hf ?_
    push_cast
    rw [sub_mul]
    have hy0 : 0 ≤ (n : ℚ) * 2 ^ f := by linarith
    rw [abs_of_nonneg hy0, abs_le]
    constructor <;> linarith

/-- The integer part of a number is a number. -/
theorem mem_floor {x : ℚ} (hx : F.Mem x) (he0 : F.emin ≤ 0) : F.Mem (⌊x⌋ : ℚ) := by
  obtain ⟨m, e, hm, he, rfl⟩ := hx
  rcases le_or_gt 0 e with h | h
  · obtain ⟨k, hk⟩ := rescale m h
    have : (⌊(m : ℚ) * 2 ^ e⌋ : ℚ) = (m : ℚ) * 2 ^ e := by
      rw [hk]; simp
    rw [this]
    exact ⟨m, e, hm, he, rfl⟩
  · refine mem_int ?_ he0
    have hlt : (2 : ℚ) ^ e ≤ 1 := by
      have := zpow_le_zpow_right₀ (a := (2 : ℚ)) (by norm_num) (show e ≤ 0 by omega)
      simpa using this
    have hpos := two_zpow_pos e
    have hm' : |(m : ℚ)| ≤ 2 ^ F.p - 1 := by
      have : |m| ≤ 2 ^ F.p - 1 := by omega
      have h3 : ((|m| : ℤ) : ℚ) ≤ ((2 ^ F.p - 1 : ℤ) : ℚ) := by exact_mod_cast this
      push_cast at h3; exact h3
    have hb : |(m : ℚ) * 2 ^ e| ≤ 2 ^ F.p - 1 := by
      rw [abs_mul, abs_of_pos hpos]
      have h0 := abs_nonneg (m : ℚ)
      nlinarith
    rw [abs_le] at hb ⊢
    constructor
    · have h1 := Int.lt_floor_add_one ((m : ℚ) * 2 ^ e)
      have h2 : ((-(2 ^ F.p) : ℤ) : ℚ) ≤ (⌊(m : ℚ) * 2 ^ e⌋ : ℚ) := by push_cast; linarith
      exact_mod_cast h2
    · have h1 := Int.floor_le ((m : ℚ) * 2 ^ e)
      have h2 : (⌊(m : ℚ) * 2 ^ e⌋ : ℚ) ≤ (((2 ^ F.p) : ℤ) : ℚ) := by push_cast; linarith
      exact_mod_cast h2

/-! ### Rounding -/

variable {rnd : ℚ → ℚ}

/-- Numbers of the format are not changed. -/
theorem Nearest.exact (h : Nearest F rnd) {x : ℚ} (hx : F.Mem x) : rnd x = x := by
  have := h.near x x hx
  rw [sub_self, abs_zero] at this
  exact sub_eq_zero.mp (abs_nonpos_iff.mp this)

/-- Rounding preserves order. -/
theorem Nearest.mono (h : Nearest F rnd) {x y : ℚ} (hxy : x ≤ y) : rnd x ≤ rnd y := by
  rcases eq_or_lt_of_le hxy with rfl | hlt
  · exact le_rfl
  by_contra hc
  push Not at hc
  have h1 := h.near x (rnd y) (h.mem y)
  have h2 := h.near y (rnd x) (h.mem x)
  rw [abs_le] at h1 h2
  rcases abs_cases (rnd y - x) with ⟨ha, ha'⟩ | ⟨ha, ha'⟩ <;>
    rcases abs_cases (rnd x - y) with ⟨hb, hb'⟩ | ⟨hb, hb'⟩ <;> rw [ha] at h1 <;> rw [hb] at h2 <;> linarith [h1.1, h1.2, h2.1, h2.2]

theorem Nearest.le_of_le (h : Nearest F rnd) {x y : ℚ} (hy : F.Mem y) (hxy : x ≤ y) : rnd x ≤ y := by
  rw [← h.exact hy]; exact h.mono hxy

theorem Nearest.ge_of_ge (h : Nearest F rnd) {x y : ℚ} (hy : F.Mem y) (hxy : y ≤ x) : y ≤ rnd x := by
  rw [← h.exact hy]; exact h.mono hxy

theorem Nearest.zero (h : Nearest F rnd) : rnd 0 = 0 := h.exact mem_zero

/-- The rounding error of a number below `2 ^ k` is at most half a unit in the last place. -/
theorem Nearest.err (h : Nearest F rnd) {x : ℚ} {k : ℤ} (hk : F.emin ≤ k - F.p) (hx : |x| ≤ 2 ^ k) :
    |rnd x - x| ≤ 2 ^ (k - F.p - 1) := by
  set e := k - (F.p : ℤ) with he
  have hpos := two_zpow_pos e
  have hle : |x / 2 ^ e| ≤ 2 ^ F.p := by
    rw [abs_div, abs_of_pos hpos, div_le_iff₀ hpos]
    have : (2 : ℚ) ^ k = 2 ^ F.p * 2 ^ e := by
      rw [← zpow_natCast, ← zpow_split]; congr 1; omega
    rwa [← this]
  have hround : |round (x / 2 ^ e)| ≤ 2 ^ F.p := by
    rw [abs_le] at hle ⊢
    constructor
    · have h1 : ((-(2 ^ F.p) : ℤ) : ℚ) ≤ x / 2 ^ e := by push_cast; exact hle.1
      have := round_mono h1
      rwa [round_intCast] at this
    · have h1 : x / 2 ^ e ≤ (((2 ^ F.p) : ℤ) : ℚ) := by push_cast; exact hle.2
      have := round_mono h1
      rwa [round_intCast] at this
  have hn := h.near x _ (mem_of_le hround hk)
  refine hn.trans ?_
  have hr := abs_sub_round (x / 2 ^ e)
  have hx' : x = x / 2 ^ e * 2 ^ e := by field_simp
  have : (round (x / 2 ^ e) : ℚ) * 2 ^ e - x = -((x / 2 ^ e - round (x / 2 ^ e)) * 2 ^ e) := by
    rw [sub_mul, ← hx']; ring
  rw [this, abs_neg, abs_mul, abs_of_pos hpos]
  have h2 : (2 : ℚ) ^ (e - 1) = 1 / 2 * 2 ^ e := by
    rw [zpow_sub₀ (by norm_num)]; norm_num; ring
  rw [h2]
  exact mul_le_mul_of_nonneg_right hr hpos.le

/-- What is not a multiple of a number's unit, rounds to the multiple that is nearer than half a unit. -/
theorem Nearest.eq_of_close (h : Nearest F rnd) {x : ℚ} {n e : ℤ} (hn : |n| < 2 ^ F.p) (he : F.emin ≤ e)
    (hfull : e = F.emin ∨ 2 ^ (F.p - 1) < |n|) (hx : |x - n * 2 ^ e| < 2 ^ (e - 1)) : rnd x = n * 2 ^ e := by
  have hpos := two_zpow_pos e
  have hhalf : (2 : ℚ) ^ (e - 1) = 1 / 2 * 2 ^ e := by
    rw [zpow_sub₀ (by norm_num)]; norm_num; ring
  rw [hhalf] at hx
  by_contra hne
  have hnear := h.near x _ ⟨n, e, hn, he, rfl⟩
  rw [abs_sub_comm (n * 2 ^ e : ℚ) x] at hnear
  have hdist : |rnd x - n * 2 ^ e| < 2 ^ e := by
    have : rnd x - n * 2 ^ e = (rnd x - x) + (x - n * 2 ^ e) := by ring
    rw [this]
    refine lt_of_le_of_lt (abs_add_le _ _) ?_
    linarith
  obtain ⟨m, f, hm, hf, hmf⟩ := h.mem x
  rcases le_or_gt e f with hef | hef
  · obtain ⟨k, hk⟩ := rescale m hef
    rw [hmf, hk] at hdist hne
    rw [← sub_mul, abs_mul, abs_of_pos hpos] at hdist
    have h1 : |(k : ℚ) - n| < 1 := by
      by_contra hc; push Not at hc
      nlinarith
    have h2 : |k - n| < 1 := by exact_mod_cast h1
    have : k = n := by
      have := Int.abs_lt_one_iff.mp h2; omega
    exact hne (by rw [this])
  · rcases hfull with h0 | h0
    · omega
    · -- the number found has a smaller unit, so it is smaller than the least significand
      have hb : |rnd x| ≤ 2 ^ (F.p - 1) * 2 ^ e := by
        rw [hmf, abs_mul, abs_of_pos (two_zpow_pos f)]
        have hmm : |(m : ℚ)| ≤ 2 ^ F.p := by
          have : |m| ≤ 2 ^ F.p := hm.le
          have h3 : ((|m| : ℤ) : ℚ) ≤ ((2 ^ F.p : ℤ) : ℚ) := by exact_mod_cast this
          push_cast at h3; exact h3
        have hfe : (2 : ℚ) ^ f ≤ 2 ^ (e - 1) := zpow_le_zpow_right₀ (by norm_num) (by omega)
        rw [hhalf] at hfe
        obtain ⟨q, hq⟩ : ∃ q, F.p = q + 1 := ⟨F.p - 1, by have := F.ppos; omega⟩
        rw [hq] at hmm ⊢
        rw [pow_succ] at hmm
        have hq0 : (0 : ℚ) < 2 ^ q := by positivity
        have hf0 := two_zpow_pos f
        calc |(m : ℚ)| * 2 ^ f ≤ (2 ^ q * 2) * (1 / 2 * 2 ^ e) := by
              apply mul_le_mul hmm hfe hf0.le (by positivity)
          _ = 2 ^ (q + 1 - 1) * 2 ^ e := by rw [Nat.add_sub_cancel]; ring
      have hn' : (2 : ℚ) ^ (F.p - 1) + 1 ≤ |(n : ℚ)| := by
        have : 2 ^ (F.p - 1) + 1 ≤ |n| := by omega
        have h3 : ((2 ^ (F.p - 1) + 1 : ℤ) : ℚ) ≤ ((|n| : ℤ) : ℚ) := by exact_mod_cast this
        push_cast at h3; exact h3
      have h4 : |(n : ℚ) * 2 ^ e| ≤ |rnd x| + |rnd x - n * 2 ^ e| := by
        have : (n : ℚ) * 2 ^ e = rnd x - (rnd x - n * 2 ^ e) := by ring
        calc |(n : ℚ) * 2 ^ e| = |rnd x - (rnd x - n * 2 ^ e)| := by rw [← this]
          _ ≤ _ := abs_sub _ _
      rw [abs_mul, abs_of_pos hpos] at h4
      nlinarith

/-! ### A rounding function exists -/

/-- The exponent of the unit in the last place of `x`. -/
def ulpExp (F : Fmt) (x : ℚ) : ℤ := max F.emin (Int.log 2 |x| - (F.p - 1))

/-- The nearest integer; the even one of two (`IEEE 754` roundTiesToEven on integers). -/
def rintEven (q : ℚ) : ℤ :=
  if q - ⌊q⌋ < 1 / 2 then ⌊q⌋
  else if 1 / 2 < q - ⌊q⌋ then ⌊q⌋ + 1
  else if ⌊q⌋ % 2 = 0 then ⌊q⌋ else ⌊q⌋ + 1

theorem abs_sub_rintEven (q : ℚ) : |q - rintEven q| ≤ 1 / 2 := by
  have h1 := Int.floor_le q
  have h2 := Int.lt_floor_add_one q
  unfold rintEven
  rw [abs_le]
  split_ifs with a b c <;> push_cast <;> constructor <;> linarith

theorem rintEven_even {q : ℚ} {k : ℤ} (hk : k ≠ rintEven q) (h : |q - k| = |q - rintEven q|) : rintEven q % 2 = 0 := by
  have h1 := Int.floor_le q
  have h2 := Int.lt_floor_add_one q
  have hh := abs_sub_rintEven q
  have hk' : (1 : ℚ) ≤ |(k : ℚ) - rintEven q| := by
    have : 1 ≤ |k - rintEven q| := Int.one_le_abs (sub_ne_zero.mpr hk)
    exact_mod_cast this
  have htri : |(k : ℚ) - rintEven q| ≤ |q - k| + |q - rintEven q| := by
    have : (k : ℚ) - rintEven q = -(q - k) + (q - rintEven q) := by ring
    rw [this]
    refine (abs_add_le _ _).trans ?_
    rw [abs_neg]
  have hhalf : |q - rintEven q| = 1 / 2 := by linarith
  unfold rintEven at hhalf ⊢
  split_ifs at hhalf ⊢ with a b c
  · rw [abs_of_nonneg (by linarith)] at hhalf; linarith
  · push_cast at hhalf; rw [abs_of_nonpos (by linarith)] at hhalf; linarith
  · exact c
  · omega

/-- Rounding to nearest, ties to even (IEEE 754 roundTiesToEven, without overflow). -/
def rne (F : Fmt) (x : ℚ) : ℚ := rintEven (x / 2 ^ ulpExp F x) * 2 ^ ulpExp F x

theorem abs_lt_zpow_ulp (F : Fmt) (x : ℚ) : |x| < 2 ^ F.p * 2 ^ ulpExp F x := by
  have h1 := Int.lt_zpow_succ_log_self (b := 2) (by norm_num) |x|
  refine lt_of_lt_of_le h1 ?_
  rw [Nat.cast_ofNat, ← zpow_natCast, ← zpow_split]
  refine zpow_le_zpow_right₀ (by norm_num) ?_
  have := le_max_right F.emin (Int.log 2 |x| - (F.p - 1))
  unfold ulpExp; omega

/-- A number with a unit smaller than that of `x` is at most a power of two that is at most `|x|`. -/
theorem small_unit {F : Fmt} {x : ℚ} (hx0 : x ≠ 0) {m f : ℤ} (hm : |m| < 2 ^ F.p) (hf : F.emin ≤ f)
    (hef : f < ulpExp F x) :
    |(m : ℚ) * 2 ^ f| < 2 ^ (F.p - 1) * 2 ^ ulpExp F x ∧ 2 ^ (F.p - 1) * 2 ^ ulpExp F x ≤ |x| := by
  have hu : ulpExp F x = Int.log 2 |x| - (F.p - 1) := by
    unfold ulpExp at hef ⊢
    rcases max_choice F.emin (Int.log 2 |x| - (F.p - 1)) with h | h
    · rw [h] at hef; omega
    · exact h
  have hlog := Int.zpow_log_le_self (b := 2) (by norm_num) (abs_pos.mpr hx0)
  have hlog' : (2 : ℚ) ^ (Int.log 2 |x|) = 2 ^ (F.p - 1) * 2 ^ ulpExp F x := by
    rw [← zpow_natCast, ← zpow_split]; congr 1
    have := F.ppos
    omega
  refine ⟨?_, by rw [Nat.cast_ofNat, hlog'] at hlog; exact hlog⟩
  rw [abs_mul, abs_of_pos (two_zpow_pos f)]
  have hmm : |(m : ℚ)| < 2 ^ F.p := by
    have h3 : ((|m| : ℤ) : ℚ) < ((2 ^ F.p : ℤ) : ℚ) := by exact_mod_cast hm
    push_cast at h3; exact h3
  have hfe : (2 : ℚ) ^ f ≤ 2 ^ (ulpExp F x - 1) := zpow_le_zpow_right₀ (by norm_num) (by omega)
  have hp : (2 : ℚ) ^ F.p * 2 ^ (ulpExp F x - 1) = 2 ^ (F.p - 1) * 2 ^ ulpExp F x := by
    rw [← zpow_natCast, ← zpow_natCast, ← zpow_split, ← zpow_split]; congr 1
    have := F.ppos
    omega
  rw [← hp]
  exact mul_lt_mul hmm hfe (two_zpow_pos f) (by positivity)

theorem rne_grid (F : Fmt) (x : ℚ) (k : ℤ) : |rne F x - x| ≤ |k * 2 ^ ulpExp F x - x| := by
  have hpos := two_zpow_pos (ulpExp F x)
  have hr : |x / 2 ^ ulpExp F x - rintEven (x / 2 ^ ulpExp F x)| ≤ |x / 2 ^ ulpExp F x - k| := by
    have h1 := abs_sub_rintEven (x / 2 ^ ulpExp F x)
    by_cases hk : k = rintEven (x / 2 ^ ulpExp F x)
    · rw [hk]
    · have hk' : (1 : ℚ) ≤ |(k : ℚ) - rintEven (x / 2 ^ ulpExp F x)| := by
        have : 1 ≤ |k - rintEven (x / 2 ^ ulpExp F x)| := Int.one_le_abs (sub_ne_zero.mpr hk)
        exact_mod_cast this
      have htri : |(k : ℚ) - rintEven (x / 2 ^ ulpExp F x)| ≤
          |x / 2 ^ ulpExp F x - k| + |x / 2 ^ ulpExp F x - rintEven (x / 2 ^ ulpExp F x)| := by
        have : (k : ℚ) - rintEven (x / 2 ^ ulpExp F x) =
            -(x / 2 ^ ulpExp F x - k) + (x / 2 ^ ulpExp F x - rintEven (x / 2 ^ ulpExp F x)) := by ring
        rw [this]
        refine (abs_add_le _ _).trans ?_
        rw [abs_neg]
      linarith
  have e1 : rne F x - x = -((x / 2 ^ ulpExp F x - rintEven (x / 2 ^ ulpExp F x)) * 2 ^ ulpExp F x) := by
    unfold rne; field_simp; ring
  have e2 : (k : ℚ) * 2 ^ ulpExp F x - x = -((x / 2 ^ ulpExp F x - k) * 2 ^ ulpExp F x) := by
    field_simp; ring
  rw [e1, e2, abs_neg, abs_neg, abs_mul, abs_mul, abs_of_pos hpos]
  exact mul_le_mul_of_nonneg_right hr hpos.le

/-- A number with a smaller unit is strictly farther. -/
theorem rne_small {F : Fmt} {x : ℚ} {m f : ℤ} (hm : |m| < 2 ^ F.p) (hf : F.emin ≤ f) (hef : f < ulpExp F x)
    (hne : (m : ℚ) * 2 ^ f ≠ 0 ∨ x ≠ 0) : |rne F x - x| < |(m : ℚ) * 2 ^ f - x| := by
  have hpos := two_zpow_pos (ulpExp F x)
  by_cases hx0 : x = 0
  · subst hx0
    have := rne_grid F 0 0
    simp only [Int.cast_zero, zero_mul, sub_zero, abs_zero] at this ⊢
    rcases hne with h | h
    · exact lt_of_le_of_lt this (abs_pos.mpr h)
    · exact absurd rfl h
  obtain ⟨hy, hlog⟩ := small_unit hx0 hm hf hef
  have hA : (0 : ℚ) < 2 ^ (F.p - 1) * 2 ^ ulpExp F x := by positivity
  rcases le_or_gt 0 x with h0 | h0
  · have := rne_grid F x (2 ^ (F.p - 1))
    push_cast at this
    refine lt_of_le_of_lt this ?_
    rw [abs_of_nonneg h0] at hlog
    rw [abs_lt] at hy
    rw [abs_of_nonpos (by linarith), abs_of_nonpos (by linarith [hy.2])]
    linarith [hy.2]
  · have := rne_grid F x (-2 ^ (F.p - 1))
    push_cast at this
    refine lt_of_le_of_lt this ?_
    rw [abs_of_neg h0] at hlog
    rw [abs_lt] at hy
    rw [abs_of_nonneg (by linarith), abs_of_nonneg (by linarith [hy.1])]
    linarith [hy.1]

theorem rne_nearest (F : Fmt) : Nearest F (rne F) := by
  constructor
  · intro x
    refine mem_of_le ?_ (le_max_left _ _)
    have hpos := two_zpow_pos (ulpExp F x)
    have hlt := abs_lt_zpow_ulp F x
    have hle : |x / 2 ^ ulpExp F x| < 2 ^ F.p := by
      rw [abs_div, abs_of_pos hpos, div_lt_iff₀ hpos]; exact hlt
    have hr := abs_sub_rintEven (x / 2 ^ ulpExp F x)
    have h1 : |(rintEven (x / 2 ^ ulpExp F x) : ℚ)| < 2 ^ F.p + 1 := by
      have : (rintEven (x / 2 ^ ulpExp F x) : ℚ) = x / 2 ^ ulpExp F x - (x / 2 ^ ulpExp F x - rintEven (x / 2 ^ ulpExp F x)) := by
        ring
      rw [this]
      refine lt_of_le_of_lt (abs_sub _ _) ?_
      linarith
    have h2 : |rintEven (x / 2 ^ ulpExp F x)| < 2 ^ F.p + 1 := by exact_mod_cast h1
    omega
  · intro x y hy
    obtain ⟨m, f, hm, hf, rfl⟩ := hy
    rcases le_or_gt (ulpExp F x) f with hef | hef
    · obtain ⟨k, hk⟩ := rescale m hef
      rw [hk]; exact rne_grid F x k
    · by_cases hz : (m : ℚ) * 2 ^ f ≠ 0 ∨ x ≠ 0
      · exact (rne_small hm hf hef hz).le
      · push Not at hz
        have := rne_grid F x 0
        rw [hz.1]
        simpa using this

/-- `rnd` rounds to nearest, and of two nearest numbers takes the one whose significand is even, where the significand
is the integer `m` of `m * 2 ^ e` with all `p` bits used, or with the least exponent. -/
structure NearestEven (F : Fmt) (rnd : ℚ → ℚ) : Prop extends Nearest F rnd where
  even : ∀ (x y : ℚ) (m e : ℤ), F.Mem y → y ≠ rnd x → |y - x| = |rnd x - x| → rnd x = m * 2 ^ e →
    |m| < 2 ^ F.p → F.emin ≤ e → (e = F.emin ∨ 2 ^ (F.p - 1) ≤ |m|) → m % 2 = 0

/-- `rne` is IEEE rounding. -/
theorem rne_even (F : Fmt) (hp : 2 ≤ F.p) : NearestEven F (rne F) := by
  refine ⟨rne_nearest F, ?_⟩
  intro x y m e hy hne heq hm hmb he hfull
  set u := ulpExp F x with hu
  have hpos := two_zpow_pos u
  have hyy := hy
  obtain ⟨n, f, hn, hf, hnf⟩ := hy
  -- `y` has a unit at least that of `x`
  have huf : u ≤ f := by
    by_contra hc
    push Not at hc
    by_cases hz : (n : ℚ) * 2 ^ f ≠ 0 ∨ x ≠ 0
    · have := rne_small hn hf hc hz
      rw [← hnf] at this; linarith
    · push Not at hz
      have h0 : rne F x = 0 := by
        rw [hz.2]; exact (rne_nearest F).zero
      exact hne (by rw [hnf, hz.1, h0])
  obtain ⟨k, hk⟩ := rescale n huf
  have hyk : y = k * 2 ^ u := hnf.trans hk
  have hev : rintEven (x / 2 ^ u) % 2 = 0 := by
    refine rintEven_even (k := k) ?_ ?_
    · intro hc
      exact hne (by rw [hyk, hc]; rfl)
    · have e1 : rne F x - x = -((x / 2 ^ u - rintEven (x / 2 ^ u)) * 2 ^ u) := by
        unfold rne; rw [← hu]; field_simp; ring
      have e2 : y - x = -((x / 2 ^ u - k) * 2 ^ u) := by
        rw [hyk]; field_simp; ring
      rw [e1, e2, abs_neg, abs_neg, abs_mul, abs_mul, abs_of_pos hpos] at heq
      exact mul_right_cancel₀ hpos.ne' heq
  have hr : rne F x = rintEven (x / 2 ^ u) * 2 ^ u := rfl
  rw [hr] at hm
  rcases le_or_gt e u with heu | heu
  · -- `m` is a multiple of the even integer
    obtain ⟨d, hd⟩ : ∃ d : ℕ, u = d + e := ⟨(u - e).toNat, by omega⟩
    generalize rintEven (x / 2 ^ u) = r at hm hev
    rw [hd, zpow_split, zpow_natCast, ← mul_assoc] at hm
    have h3 := mul_right_cancel₀ (two_zpow_pos e).ne' hm
    have h4 : r * 2 ^ d = m := by exact_mod_cast h3
    rw [← h4, Int.mul_emod, hev]; simp
  · -- a larger unit than that of `x`: the result is the next power of two
    have h1 : e ≠ F.emin := by
      have := le_max_left F.emin (Int.log 2 |x| - (F.p - 1))
      have h5 : F.emin ≤ u := this
      omega
    have hge : 2 ^ (F.p - 1) ≤ |m| := hfull.resolve_left h1
    have hle : |rintEven (x / 2 ^ u)| ≤ 2 ^ F.p := by
      have hlt := abs_lt_zpow_ulp F x
      rw [← hu] at hlt
      have hle : |x / 2 ^ u| < 2 ^ F.p := by
        rw [abs_div, abs_of_pos hpos, div_lt_iff₀ hpos]; exact hlt
      have hr := abs_sub_rintEven (x / 2 ^ u)
      have h1 : |(rintEven (x / 2 ^ u) : ℚ)| < 2 ^ F.p + 1 := by
        have : (rintEven (x / 2 ^ u) : ℚ) = x / 2 ^ u - (x / 2 ^ u - rintEven (x / 2 ^ u)) := by ring
        rw [this]
        refine lt_of_le_of_lt (abs_sub _ _) ?_
        linarith
      have h2 : |rintEven (x / 2 ^ u)| < 2 ^ F.p + 1 := by exact_mod_cast h1
      omega
    obtain ⟨d, hd⟩ : ∃ d : ℕ, e = (d + 1 : ℕ) + u := ⟨(e - u - 1).toNat, by omega⟩
    rw [hd, zpow_split, zpow_natCast, ← mul_assoc] at hm
    have h3 := mul_right_cancel₀ hpos.ne' hm
    have h4 : rintEven (x / 2 ^ u) = m * 2 ^ (d + 1) := by exact_mod_cast h3
    rw [h4, abs_mul, abs_of_pos (show (0 : ℤ) < 2 ^ (d + 1) by positivity)] at hle
    obtain ⟨q, hq⟩ : ∃ q, F.p = q + 2 := ⟨F.p - 2, by omega⟩
    rw [hq] at hle hge
    have hge' : 2 ^ (q + 1) ≤ |m| := hge
    have hd1 : (1 : ℤ) ≤ 2 ^ d := one_le_pow₀ (by norm_num)
    have hm2 : |m| * 2 ≤ 2 ^ (q + 2) := by
      rw [pow_succ 2 d, ← mul_assoc] at hle
      have : |m| * 1 ≤ |m| * 2 ^ d := Int.mul_le_mul_of_nonneg_left hd1 (abs_nonneg m)
      omega
    have : |m| = 2 ^ (q + 1) := by
      rw [pow_succ 2 (q + 1)] at hm2; omega
    rcases (abs_eq (show (0 : ℤ) ≤ 2 ^ (q + 1) by positivity)).mp this with h | h <;> rw [h, pow_succ] <;> omega

end Motive.Float
