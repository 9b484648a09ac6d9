import Verif.Math.Range
import Mathlib.Tactic.Linarith
import Mathlib.Tactic.Ring
import Mathlib.Tactic.FieldSimp
import Mathlib.Tactic.NormNum
import Mathlib.Tactic.Positivity
import Mathlib.Data.Rat.Floor
import Mathlib.Algebra.Order.Archimedean.Basic

/-!
# Properties C16-C18: modular arithmetic and set operations on ranges
-/

set_option linter.unusedSectionVars false

namespace Motive.Math

variable {K : Type} [Field K] [LinearOrder K] [IsStrictOrderedRing K]

/-- `x` and `y` differ by an integer multiple of `m`. -/
def Cong (m x y : K) : Prop := ∃ k : ℤ, y = x + k * m

theorem Cong.refl (m x : K) : Cong m x x := ⟨0, by simp⟩
theorem Cong.symm {m x y : K} (h : Cong m x y) : Cong m y x := by
  obtain ⟨k, rfl⟩ := h; exact ⟨-k, by push_cast; ring⟩
theorem Cong.trans {m x y z : K} (h : Cong m x y) (h' : Cong m y z) : Cong m x z := by
  obtain ⟨k, rfl⟩ := h; obtain ⟨l, rfl⟩ := h'; exact ⟨k + l, by push_cast; ring⟩
theorem Cong.add {m x y x' y' : K} (h : Cong m x y) (h' : Cong m x' y') : Cong m (x + x') (y + y') := by
  obtain ⟨k, rfl⟩ := h; obtain ⟨l, rfl⟩ := h'; exact ⟨k + l, by push_cast; ring⟩
theorem Cong.neg {m x y : K} (h : Cong m x y) : Cong m (-x) (-y) := by
  obtain ⟨k, rfl⟩ := h; exact ⟨-k, by push_cast; ring⟩
theorem Cong.sub {m x y x' y' : K} (h : Cong m x y) (h' : Cong m x' y') : Cong m (x - x') (y - y') := by
  rw [sub_eq_add_neg, sub_eq_add_neg]; exact h.add h'.neg

/-- Two congruent numbers less than one modulus apart are equal. -/
theorem Cong.eq_of_close {m x y : K} (hm : 0 < m) (h : Cong m x y) (h1 : y - x < m) (h2 : x - y < m) :
    x = y := by
  obtain ⟨k, rfl⟩ := h
  have h1' : (k : K) * m < 1 * m := by linarith
  have h2' : (-1 : K) * m < k * m := by linarith
  have a := lt_of_mul_lt_mul_right h1' hm.le
  have b := lt_of_mul_lt_mul_right h2' hm.le
  have a' : k < 1 := by exact_mod_cast a
  have b' : -1 < k := by exact_mod_cast b
  have : k = 0 := by omega
  subst this; simp

namespace Range

/-- `y` is *the* representative of `x` in the half open range `(start, end]`. -/
def IsRep (r : Range K) (x y : K) : Prop := r.start < y ∧ y ≤ r.stop ∧ Cong (r.stop - r.start) x y

theorem IsRep.unique {r : Range K} {x y z : K} (hr : r.start < r.stop) (hy : r.IsRep x y)
    (hz : r.IsRep x z) : y = z := by
  obtain ⟨a, b, c⟩ := hy; obtain ⟨d, e, f⟩ := hz
  exact (c.symm.trans f).eq_of_close (by linarith) (by linarith) (by linarith)

theorem isRep_self {r : Range K} {x : K} (h1 : r.start < x) (h2 : x ≤ r.stop) : r.IsRep x x :=
  ⟨h1, h2, Cong.refl _ _⟩

theorem normalize_rep {r : Range K} (hr : r.start < r.stop) {x : K}
    (h1 : r.start - (r.stop - r.start) < x) (h2 : x ≤ r.stop + (r.stop - r.start)) :
    ∃ y, r.normalize x = some y ∧ r.IsRep x y := by
  unfold normalize modularAdjustment containsExclStart length
  by_cases c1 : x ≤ r.start
  · refine ⟨x + (r.stop - r.start), ?_, ?_, ?_, ⟨1, by simp⟩⟩
    · simp only [c1, if_true]; rw [if_pos]; constructor <;> linarith
    · linarith
    · linarith
  · by_cases c2 : r.stop < x
    · refine ⟨x + -(r.stop - r.start), ?_, ?_, ?_, ⟨-1, by simp⟩⟩
      · simp only [c1, c2, if_true, if_false]; rw [if_pos]; constructor <;> linarith
      · linarith
      · linarith
    · refine ⟨x + 0, ?_, ?_, ?_, ⟨0, by simp⟩⟩
      · simp only [c1, c2, if_false]; rw [if_pos]; constructor <;> linarith
      · linarith
      · linarith

theorem normalizeWild_rep [FloorRing K] {r : Range K} (hr : r.start < r.stop) (x : K) :
    ∃ y, r.normalizeWild x = some y ∧ r.IsRep x y := by
  have hL : 0 < r.length := by unfold length; linarith
  have e : (x - r.start) / r.length * r.length = x - r.start := div_mul_cancel₀ _ hL.ne'
  have f1 : (⌊(x - r.start) / r.length⌋ : K) * r.length ≤ x - r.start := by
    rw [← e]; exact mul_le_mul_of_nonneg_right (by rw [e]; exact Int.floor_le _) hL.le
  have f2 : x - r.start < ((⌊(x - r.start) / r.length⌋ : K) + 1) * r.length := by
    rw [← e]; exact mul_lt_mul_of_pos_right (by rw [e]; exact Int.lt_floor_add_one _) hL
  set k : ℤ := ⌊(x - r.start) / r.length⌋ with hk
  have hLe : r.length = r.stop - r.start := rfl
  unfold normalizeWild
  rw [if_neg hL.ne', ← hk]
  have g1 : r.start ≤ x - k * r.length := by linarith
  have g2 : x - k * r.length < r.stop := by
    have : ((k : K) + 1) * r.length = k * r.length + r.length := by ring
    linarith
  obtain ⟨y, hy, a, b, c⟩ := normalize_rep hr (x := x - k * r.length) (by linarith) (by linarith)
  refine ⟨y, hy, a, b, Cong.trans ⟨-k, ?_⟩ c⟩
  rw [hLe]; push_cast; ring

theorem closeBelow_rep [FloorRing K] {r : Range K} (hr : r.start < r.stop) (num : Nat) (x : K)
    (hx : x ≤ r.start) : ∃ y, r.closeBelow num x = some y ∧ r.IsRep x y := by
  have key : Cong (r.stop - r.start) x (x + r.length) := ⟨1, by simp [length]⟩
  unfold closeBelow
  by_cases h : 4 < num
  · rw [if_pos h]
    obtain ⟨y, hy, a, b, c⟩ := normalizeWild_rep hr (x + r.length)
    exact ⟨y, hy, a, b, key.trans c⟩
  · rw [if_neg h]
    by_cases h2 : x + r.length ≤ r.start
    · rw [if_pos h2]
      obtain ⟨y, hy, a, b, c⟩ := closeBelow_rep hr (num + 1) (x + r.length) h2
      exact ⟨y, hy, a, b, key.trans c⟩
    · rw [if_neg h2]
      refine ⟨_, rfl, by linarith, ?_, key⟩
      unfold length; linarith
termination_by 5 - num

theorem closeAbove_rep [FloorRing K] {r : Range K} (hr : r.start < r.stop) (num : Nat) (x : K)
    (hx : r.stop < x) : ∃ y, r.closeAbove num x = some y ∧ r.IsRep x y := by
  have key : Cong (r.stop - r.start) x (x - r.length) := ⟨-1, by simp [length]; ring⟩
  unfold closeAbove
  by_cases h : 4 < num
  · rw [if_pos h]
    obtain ⟨y, hy, a, b, c⟩ := normalizeWild_rep hr (x - r.length)
    exact ⟨y, hy, a, b, key.trans c⟩
  · rw [if_neg h]
    by_cases h2 : r.stop < x - r.length
    · rw [if_pos h2]
      obtain ⟨y, hy, a, b, c⟩ := closeAbove_rep hr (num + 1) (x - r.length) h2
      exact ⟨y, hy, a, b, key.trans c⟩
    · rw [if_neg h2]
      refine ⟨_, rfl, ?_, by linarith, key⟩
      unfold length; linarith
termination_by 5 - num

theorem normalizeClose_rep [FloorRing K] {r : Range K} (hr : r.start < r.stop) (x : K) :
    ∃ y, r.normalizeClose x = some y ∧ r.IsRep x y := by
  unfold normalizeClose
  by_cases h1 : x ≤ r.start
  · rw [if_neg (by simp [h1]), if_pos h1]; exact closeBelow_rep hr 0 x h1
  · by_cases h2 : r.stop < x
    · rw [if_neg (by simp [h2]), if_neg h1]; exact closeAbove_rep hr 0 x h2
    · rw [if_pos ⟨h1, h2⟩]
      exact ⟨x, rfl, isRep_self (by linarith) (by linarith)⟩

/-! ### C16 -/

/-- C16: on a range of positive length, `Normalize` (whenever `x` is within one length of the range),
`NormalizeCloseValue` and `NormalizeWildValue` (for any `x`) pass their assertions and return the same
value `y`, which lies in `(start, end]` and differs from `x` by an integer multiple of the length. No other
value has these two properties, and `y = x` if `x` was already in `(start, end]`. -/
theorem C16_normalise [FloorRing K] (r : Range K) (hr : r.start < r.stop) (x : K) :
    ∃ y, r.normalizeWild x = some y ∧ r.normalizeClose x = some y ∧
      (r.start - (r.stop - r.start) < x → x ≤ r.stop + (r.stop - r.start) → r.normalize x = some y) ∧
      (r.start < y ∧ y ≤ r.stop ∧ ∃ k : ℤ, y = x + k * (r.stop - r.start)) ∧
      (∀ z, r.start < z → z ≤ r.stop → (∃ k : ℤ, z = x + k * (r.stop - r.start)) → z = y) ∧
      (r.start < x → x ≤ r.stop → y = x) := by
  obtain ⟨y, hy, hrep⟩ := normalizeWild_rep hr x
  obtain ⟨y2, hy2, hrep2⟩ := normalizeClose_rep hr x
  have e2 := hrep2.unique hr hrep
  subst e2
  refine ⟨y2, hy, hy2, fun a b => ?_, hrep, fun z a b c => IsRep.unique hr ⟨a, b, c⟩ hrep, fun a b =>
    hrep.unique hr (isRep_self a b)⟩
  obtain ⟨y3, hy3, hrep3⟩ := normalize_rep hr a b
  rw [hy3, hrep3.unique hr hrep]

/-- The bounds on `x` in `Normalize` are exact: its assertion fails for every other `x`, in particular at
exactly one length below `start`, which the header comment ("within +-Length() of range bounds") admits. -/
theorem C16_normalize_domain (r : Range K) (hr : r.start < r.stop) (x : K)
    (h : x ≤ r.start - (r.stop - r.start) ∨ r.stop + (r.stop - r.start) < x) : r.normalize x = none := by
  unfold normalize modularAdjustment containsExclStart length
  rcases h with h | h
  · have c1 : x ≤ r.start := by linarith
    simp only [c1, if_true]; rw [if_neg]; rintro ⟨a, b⟩; linarith
  · have c1 : ¬ x ≤ r.start := by intro c; linarith
    have c2 : r.stop < x := by linarith
    simp only [c1, c2, if_true, if_false]; rw [if_neg]; rintro ⟨a, b⟩; linarith

example : (⟨-3, 3⟩ : Range ℚ).normalizeWild 100 = some (-2) ∧
    (⟨-3, 3⟩ : Range ℚ).normalizeClose 100 = some (-2) ∧
    (⟨-3, 3⟩ : Range ℚ).normalizeClose 7 = some 1 ∧ (⟨-3, 3⟩ : Range ℚ).normalize 7 = some 1 ∧
    (⟨-3, 3⟩ : Range ℚ).normalize (-9) = none := by decide +kernel

/-! ### C17 -/

/-- C17: for a range `(-h, h]` and `a`, `b` in it, the four modular differences are defined and are
congruent to `b - a` modulo the length `2h`; `close` is in `(-h, h]` and no number congruent to `b - a` has
a smaller magnitude; `far` goes the other way round (opposite sign, magnitudes adding to the length, so at
least half of it); `positive` is in `[0, 2h)`; `negative` is in `[-2h, 0)`. -/
theorem C17_modular_differences (r : Range K) (hr : r.start < r.stop) (hs : r.start = -r.stop) (a b : K)
    (ha : r.start < a ∧ a ≤ r.stop) (hb : r.start < b ∧ b ≤ r.stop) :
    ∃ close far pos neg,
      r.modDiff a b .closest = some close ∧ r.modDiff a b .farthest = some far ∧
      r.modDiff a b .positive = some pos ∧ r.modDiff a b .negative = some neg ∧
      r.modDiff a b .direct = some (b - a) ∧
      (∀ d ∈ [close, far, pos, neg], ∃ k : ℤ, d = (b - a) + k * (2 * r.stop)) ∧
      (-r.stop < close ∧ close ≤ r.stop ∧ ∀ k : ℤ, |close| ≤ |(b - a) + k * (2 * r.stop)|) ∧
      (|close| + |far| = 2 * r.stop ∧ r.stop ≤ |far| ∧ (0 ≤ close ∧ far < 0 ∨ close < 0 ∧ 0 < far)) ∧
      (0 ≤ pos ∧ pos < 2 * r.stop) ∧ (-(2 * r.stop) ≤ neg ∧ neg < 0) := by
  have hL : r.stop - r.start = 2 * r.stop := by rw [hs]; ring
  have hp : 0 < r.stop := by linarith
  obtain ⟨c, hc, c1, c2, k, ck⟩ := normalize_rep hr (x := b - a) (by linarith) (by linarith)
  have hmin : ∀ j : ℤ, |c| ≤ |(b - a) + j * (2 * r.stop)| := by
    intro j
    by_contra hlt
    push Not at hlt
    have hcong : Cong (2 * r.stop) c ((b - a) + j * (2 * r.stop)) :=
      ⟨j - k, by rw [ck, hL]; push_cast; ring⟩
    have habs : |c| ≤ r.stop := abs_le.mpr ⟨by linarith, c2⟩
    have h1 := abs_lt.mp hlt
    have h2 : -|c| ≤ c := neg_abs_le c
    have h3 : c ≤ |c| := le_abs_self c
    have := hcong.eq_of_close (by linarith) (by linarith) (by linarith)
    rw [← this] at hlt
    exact lt_irrefl _ hlt
  have hclose : r.modDiffClose a b = some c := hc
  have hlen : r.length = 2 * r.stop := hL
  rw [hL] at ck
  by_cases h0 : 0 ≤ c
  · refine ⟨c, c - 2 * r.stop, c, c - 2 * r.stop, hclose, ?_, ?_, ?_, rfl, ?_, ⟨by linarith, c2, hmin⟩, ?_, ?_, ?_⟩
    · simp [modDiff, modDiffFar, hclose, h0, hlen]
    · simp [modDiff, modDiffPositive, hclose, h0]
    · simp [modDiff, modDiffNegative, hclose, h0, hlen]
    · simp only [List.mem_cons, List.not_mem_nil, or_false]
      rintro d (rfl | rfl | rfl | rfl)
      · exact ⟨k, ck⟩
      · exact ⟨k - 1, by rw [ck]; push_cast; ring⟩
      · exact ⟨k, ck⟩
      · exact ⟨k - 1, by rw [ck]; push_cast; ring⟩
    · rw [abs_of_nonneg h0, abs_of_neg (by linarith)]
      exact ⟨by ring, by linarith, Or.inl ⟨h0, by linarith⟩⟩
    · exact ⟨h0, by linarith⟩
    · constructor <;> linarith
  · have h0' : c < 0 := by linarith
    refine ⟨c, c + 2 * r.stop, c + 2 * r.stop, c, hclose, ?_, ?_, ?_, rfl, ?_, ⟨by linarith, c2, hmin⟩, ?_, ?_, ?_⟩
    · simp [modDiff, modDiffFar, hclose, h0, hlen]
    · simp [modDiff, modDiffPositive, hclose, h0, hlen]
    · simp [modDiff, modDiffNegative, hclose, h0]
    · simp only [List.mem_cons, List.not_mem_nil, or_false]
      rintro d (rfl | rfl | rfl | rfl)
      · exact ⟨k, ck⟩
      · exact ⟨k + 1, by rw [ck]; push_cast; ring⟩
      · exact ⟨k + 1, by rw [ck]; push_cast; ring⟩
      · exact ⟨k, ck⟩
    · rw [abs_of_neg h0', abs_of_pos (by linarith)]
      exact ⟨by ring, by linarith, Or.inr ⟨h0', by linarith⟩⟩
    · constructor <;> linarith
    · exact ⟨by linarith, h0'⟩

example : (⟨-3, 3⟩ : Range ℚ).modDiff 2 (-2) .closest = some 2 ∧
    (⟨-3, 3⟩ : Range ℚ).modDiff 2 (-2) .farthest = some (-4) ∧
    (⟨-3, 3⟩ : Range ℚ).modDiff 2 (-2) .positive = some 2 ∧
    (⟨-3, 3⟩ : Range ℚ).modDiff 2 (-2) .negative = some (-4) := by decide +kernel

/-- **C62.** `Lengthen(p)` keeps the middle of the range and makes it longer by the share `p` of its length. -/
theorem C62_lengthen (r : Range K) (p : K) :
    (r.lengthen p).start + (r.lengthen p).stop = r.start + r.stop ∧
    (r.lengthen p).stop - (r.lengthen p).start = (r.stop - r.start) * (1 + p) := by
  simp only [lengthen, length]
  constructor <;> ring

/-- **C62**, the second half of the comment in range.h:256-257, "if 'percent' is < 1.0, then returned range will actually be
shorter", is false: for percentages from 0 to 1 the result contains the whole range, strictly. -/
theorem C62_lengthen_below_one_is_longer {r : Range K} (h : r.start < r.stop) {p : K} (h0 : 0 < p) (_h1 : p < 1) :
    (r.lengthen p).start < r.start ∧ r.stop < (r.lengthen p).stop := by
  have : 0 < (r.stop - r.start) * p := mul_pos (by linarith) h0
  simp only [lengthen, length]
  constructor <;> linarith

example : (⟨2, 6⟩ : Range ℚ).lengthen (1 / 2) = ⟨1, 7⟩ := by decide +kernel

end Range
end Motive.Math
