import Verif.Math.Range
import Verif.Math.AngleProps
import Mathlib.Tactic.Linarith
import Mathlib.Tactic.FieldSimp
import Mathlib.Data.Rat.Defs

/-!
# Half-open ranges, tolerance, scaling; order of angles

The members of `RangeT` that `Verif.Math.Range` leaves out (include/motive/math/range.h) and the comparison operators of `Angle`
(include/motive/math/angle.h).  Exact arithmetic, as there.
-/

namespace Motive.Math

variable {K : Type} [Field K] [LinearOrder K]

namespace Range

/-- `ContainsExcludingEnd` (range.h:239). -/
def containsExclEnd (r : Range K) (x : K) : Prop := r.start ≤ x ∧ x < r.stop

/-- `StrictlyContains` (range.h:242). -/
def strictlyContains (r : Range K) (x : K) : Prop := r.start < x ∧ x < r.stop

/-- `ContainsWithTolerance` (range.h:246-249). -/
def containsTol (r : Range K) (x percent : K) : Prop :=
  r.start - r.length * percent ≤ x ∧ x ≤ r.stop + r.length * percent

/-- `operator*` (range.h:276). -/
def scale (r : Range K) (s : K) : Range K := ⟨s * r.start, s * r.stop⟩

/-- `CreateValidRange` (range.h:511-514). -/
def createValid (a b : K) : Range K := ⟨min a b, max a b⟩

variable [IsStrictOrderedRing K]

/-- C127: ranges that follow each other split what they cover together: each point is in exactly one of them if the ends are left out, and also if
the starts are left out.  If both are left out the point in the middle is lost, if neither it is in both. -/
theorem C127_split (a b c x : K) (hab : a ≤ b) (hbc : b ≤ c) :
    ((⟨a, c⟩ : Range K).containsExclEnd x ↔ Xor ((⟨a, b⟩ : Range K).containsExclEnd x) ((⟨b, c⟩ : Range K).containsExclEnd x)) ∧
    ((⟨a, c⟩ : Range K).containsExclStart x ↔ Xor ((⟨a, b⟩ : Range K).containsExclStart x) ((⟨b, c⟩ : Range K).containsExclStart x)) ∧
    ¬ (⟨a, b⟩ : Range K).strictlyContains b ∧ ¬ (⟨b, c⟩ : Range K).strictlyContains b ∧
    (⟨a, b⟩ : Range K).contains b ∧ (⟨b, c⟩ : Range K).contains b := by
  refine ⟨?_, ?_, fun h => lt_irrefl _ h.2, fun h => lt_irrefl _ h.1, ⟨hab, le_refl _⟩, ⟨le_refl _, hbc⟩⟩
  · simp only [containsExclEnd, Xor]
    rcases lt_or_ge x b with h | h
    · constructor
      · rintro ⟨h1, -⟩; left; exact ⟨⟨h1, h⟩, fun q => absurd q.1 (not_le.2 h)⟩
      · rintro (⟨⟨h1, -⟩, -⟩ | ⟨⟨h1, -⟩, -⟩)
        · exact ⟨h1, lt_of_lt_of_le h hbc⟩
        · exact absurd h1 (not_le.2 h)
    · constructor
      · rintro ⟨-, h2⟩; right; exact ⟨⟨h, h2⟩, fun q => absurd q.2 (not_lt.2 h)⟩
      · rintro (⟨⟨-, h1⟩, -⟩ | ⟨⟨-, h1⟩, -⟩)
        · exact absurd h1 (not_lt.2 h)
        · exact ⟨hab.trans h, h1⟩
  · simp only [containsExclStart, Xor]
    rcases le_or_gt x b with h | h
    · constructor
      · rintro ⟨h1, -⟩; left; exact ⟨⟨h1, h⟩, fun q => absurd q.1 (not_lt.2 h)⟩
      · rintro (⟨⟨h1, -⟩, -⟩ | ⟨⟨h1, -⟩, -⟩)
        · exact ⟨h1, h.trans hbc⟩
        · exact absurd h1 (not_lt.2 h)
    · constructor
      · rintro ⟨-, h2⟩; right; exact ⟨⟨h, h2⟩, fun q => absurd q.2 (not_le.2 h)⟩
      · rintro (⟨⟨-, h1⟩, -⟩ | ⟨⟨-, h1⟩, -⟩)
        · exact absurd h1 (not_le.2 h)
        · exact ⟨lt_of_le_of_lt hab h, h1⟩

/-- C127: with a tolerance of `percent` a valid range contains the points whose distance from it is at most that part of its length. -/
theorem C127_tolerance (r : Range K) (hr : r.valid) (x p : K) (hp : 0 ≤ p) :
    r.containsTol x p ↔ ∃ y, r.contains y ∧ |x - y| ≤ p * (r.stop - r.start) := by
  have hl : (0 : K) ≤ r.stop - r.start := sub_nonneg.2 hr
  have ht : 0 ≤ p * (r.stop - r.start) := mul_nonneg hp hl
  simp only [containsTol, length, contains, valid] at *
  constructor
  · rintro ⟨h1, h2⟩
    rcases lt_or_ge x r.start with h | h
    · exact ⟨r.start, ⟨le_refl _, hr⟩, by rw [abs_of_neg (by linarith)]; linarith⟩
    · rcases lt_or_ge r.stop x with h' | h'
      · exact ⟨r.stop, ⟨hr, le_refl _⟩, by rw [abs_of_pos (by linarith)]; linarith⟩
      · exact ⟨x, ⟨h, h'⟩, by simpa using ht⟩
  · rintro ⟨y, ⟨h1, h2⟩, h3⟩
    obtain ⟨h4, h5⟩ := abs_le.1 h3
    constructor <;> linarith

/-- C127: multiplying a range by a positive number multiplies its points by it. -/
theorem C127_scale_partial (r : Range K) (s : K) (hs : 0 < s) :
    (∀ x, (r.scale s).contains (s * x) ↔ r.contains x) ∧ ((r.scale s).valid ↔ r.valid) ∧
    (r.scale s).length = s * r.length := by
  refine ⟨fun x => ?_, ?_, ?_⟩
  · simp only [contains, scale, mul_le_mul_iff_right₀ hs]
  · simp only [valid, scale, mul_le_mul_iff_right₀ hs]
  · simp only [length, scale]; ring

/-- C127 is false of negative numbers: multiplying a range by one swaps its bounds, and the result contains nothing at all. -/
theorem C127_scale_negative (r : Range K) (hr : r.start < r.stop) (s : K) (hs : s < 0) :
    ¬ (r.scale s).valid ∧ ∀ x, ¬ (r.scale s).contains x := by
  have h : s * r.stop < s * r.start := mul_lt_mul_of_neg_left hr hs
  exact ⟨not_le.2 h, fun x hx => absurd (hx.1.trans hx.2) (not_le.2 h)⟩

/-- C127: `CreateValidRange` is the smallest range that contains both numbers, whichever is larger. -/
theorem C127_create_valid (a b : K) :
    (createValid a b).valid ∧ (createValid a b).contains a ∧ (createValid a b).contains b ∧ createValid a b = createValid b a ∧
    ∀ r : Range K, r.contains a → r.contains b → ∀ x, (createValid a b).contains x → r.contains x := by
  refine ⟨min_le_max, ⟨min_le_left _ _, le_max_left _ _⟩, ⟨min_le_right _ _, le_max_right _ _⟩, ?_, ?_⟩
  · simp only [createValid, min_comm, max_comm]
  · rintro r ⟨h1, h2⟩ ⟨h3, h4⟩ x ⟨h5, h6⟩
    exact ⟨(le_min h1 h3).trans h5, h6.trans (max_le h2 h4)⟩

/-- Each of them, of literal ranges. -/
example : (⟨0, 2⟩ : Range ℚ).containsExclEnd 1 ∧ ¬ (⟨0, 1⟩ : Range ℚ).containsExclEnd 1 ∧ (⟨0, 10⟩ : Range ℚ).containsTol 11 (1 / 10) ∧
    ¬ (⟨0, 10⟩ : Range ℚ).containsTol 12 (1 / 10) ∧ (⟨1, 2⟩ : Range ℚ).scale (-1) = ⟨-1, -2⟩ ∧ createValid (3 : ℚ) 1 = ⟨1, 3⟩ := by
  refine ⟨by norm_num [containsExclEnd], by norm_num [containsExclEnd], by norm_num [containsTol, length], by norm_num [containsTol, length], ?_, ?_⟩
  · norm_num [scale]
  · norm_num [createValid]

end Range

namespace Angle

/-- `operator==` (angle.h:470-472). -/
def eq (a b : K) : Bool := decide (a = b)
/-- `operator!=` (angle.h:474-476). -/
def ne (a b : K) : Bool := !eq a b
/-- `operator<` (angle.h:478-480). -/
def lt (a b : K) : Bool := decide (a < b)
/-- `operator>=` (angle.h:482-484). -/
def ge (a b : K) : Bool := !lt a b
/-- `operator<=` (angle.h:486-488). -/
def le (a b : K) : Bool := decide (a ≤ b)
/-- `operator>` (angle.h:490-492). -/
def gt (a b : K) : Bool := !le a b

/-- C127: the six comparisons of angles agree with each other and with the angles in radians: exactly one of `<`, `==` and `>` holds, the others are
what they are called, and `<` can be chained. -/
theorem C127_order (a b c : K) :
    (lt a b = true ↔ a < b) ∧ (eq a b = true ↔ a = b) ∧ (gt a b = true ↔ b < a) ∧
    (le a b = true ↔ lt a b = true ∨ eq a b = true) ∧ (ge a b = true ↔ gt a b = true ∨ eq a b = true) ∧ (ne a b = true ↔ lt a b = true ∨ gt a b = true) ∧
    (lt a b = true → lt b c = true → lt a c = true) := by
  simp only [lt, eq, gt, le, ge, ne, decide_eq_true_eq, Bool.not_eq_true', decide_eq_false_iff_not, not_le, not_lt]
  refine ⟨trivial, trivial, trivial, le_iff_lt_or_eq, ?_, ?_, lt_trans⟩
  · rw [le_iff_lt_or_eq, eq_comm (a := b)]
  · exact lt_or_lt_iff_ne.symm

/-- C127: two angles made from radians are equal exactly if the radians differ by whole turns. -/
theorem C127_equal [IsStrictOrderedRing K] [FloorRing K] (pi : K) (hpi : 0 < pi) (x y a b : K)
    (ha : fromRadians pi x = some a) (hb : fromRadians pi y = some b) : eq a b = true ↔ ∃ k : ℤ, y = x + k * (2 * pi) := by
  rw [← C19_equal_iff_congruent pi hpi x y, ha, hb]
  simp [eq]

/-- C127: turning both angles does not keep their order: 0 is below a right angle, but after three eighths of a turn it is above. -/
theorem C127_order_not_kept_by_turns [IsStrictOrderedRing K] (pi : K) (hpi : 0 < pi) :
    Valid pi 0 ∧ Valid pi (pi / 2) ∧ Valid pi (3 * pi / 4) ∧ lt 0 (pi / 2) = true ∧
    ∃ a b, add pi 0 (3 * pi / 4) = some a ∧ add pi (pi / 2) (3 * pi / 4) = some b ∧ gt a b = true := by
  have e1 : add pi 0 (3 * pi / 4) = some (3 * pi / 4) := by
    have h1 : ¬ 3 * pi / 4 ≤ -pi := by linarith
    have h2 : ¬ pi < 3 * pi / 4 := by linarith
    have h3 : Valid pi (3 * pi / 4) := ⟨by linarith, by linarith⟩
    simp only [add, modWithinThreePi, zero_add, if_neg h1, if_neg h2, if_pos h3]
    exact if_pos ⟨by linarith, by linarith⟩
  have e2 : add pi (pi / 2) (3 * pi / 4) = some (pi / 2 + 3 * pi / 4 - 2 * pi) := by
    have h1 : ¬ pi / 2 + 3 * pi / 4 ≤ -pi := by linarith
    have h2 : pi < pi / 2 + 3 * pi / 4 := by linarith
    have h3 : Valid pi (pi / 2 + 3 * pi / 4 - 2 * pi) := ⟨by linarith, by linarith⟩
    simp only [add, modWithinThreePi, if_neg h1, if_pos h2, if_pos h3]
    exact if_pos ⟨by linarith, by linarith⟩
  refine ⟨⟨by linarith, by linarith⟩, ⟨by linarith, by linarith⟩, ⟨by linarith, by linarith⟩, by simp only [lt, decide_eq_true_eq]; linarith,
    _, _, e1, e2, ?_⟩
  simp only [gt, le, Bool.not_eq_true', decide_eq_false_iff_not, not_le]
  linarith

/-- Three angles in order. -/
example : lt (0 : ℚ) (1 / 2) = true ∧ lt (1 / 2 : ℚ) 1 = true ∧ eq (1 / 2 : ℚ) 1 = false := by decide +kernel

end Angle

end Motive.Math
