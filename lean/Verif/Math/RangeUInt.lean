import Verif.Math.Range
import Mathlib.Algebra.Order.Ring.Nat
import Mathlib.Tactic.NormNum

/-!
# Ranges of unsigned integers (C132)

`RangeUInt` (range.h:519) is `RangeT<unsigned int>`.  Numbers are natural numbers below 2^32, and sums and differences are taken modulo 2^32.
`std::numeric_limits<unsigned>::infinity()` is 0, as for `int` (C126).
-/

namespace Motive.Math.RangeUInt

/-- One more than the largest `unsigned int`. -/
def M : ℕ := 4294967296

/-- `a - b` of unsigned integers. -/
def sub (a b : ℕ) : ℕ := (a + (M - b)) % M

/-- `RangeT<unsigned int>` (range.h:504-505). -/
structure R where
  start : ℕ
  stop : ℕ
deriving DecidableEq

/-- `Valid` (range.h:57). -/
def valid (r : R) : Bool := r.start ≤ r.stop

/-- `Middle` (range.h:61): the sum wraps around. -/
def middle (r : R) : ℕ := ((r.start + r.stop) % M) / 2

/-- `Length` (range.h:65). -/
def length (r : R) : ℕ := sub r.stop r.start

/-- `Clamp` (range.h:70), `mathfu::Clamp`. -/
def clamp (r : R) (x : ℕ) : ℕ := max r.start (min x r.stop)

/-- `DistanceFrom` (range.h:82): the difference wraps around before `fabs` gets it. -/
def distanceFrom (r : R) (x : ℕ) : ℕ := sub x (clamp r x)

/-- `Contains` (range.h:229). -/
def contains (r : R) (x : ℕ) : Bool := r.start ≤ x ∧ x ≤ r.stop

/-- `Include` (range.h:265-267). -/
def incl (r : R) (x : ℕ) : R := ⟨min r.start x, max r.stop x⟩

/-- `Empty` (range.h:488-491): infinity and minus infinity are 0. -/
def empty : R := ⟨0, 0⟩

/-- `Covers` (range.h:465-476). -/
def covers (vs : List ℕ) : R := vs.foldl incl empty

/-- `ModDiff` with `kDirectionDirect` (range.h:221-222): wraps around before it becomes a float, which is not rounded here. -/
def modDiffDirect (_r : R) (a b : ℕ) : ℤ := (sub b a : ℤ)

/-! ### Specification -/

/-- The numbers of a range are `unsigned int`s, in order. -/
def Ok (r : R) : Prop := r.start ≤ r.stop ∧ r.stop < M

theorem sub_ge {a b : ℕ} (h : b ≤ a) (ha : a < M) : sub a b = a - b := by
  unfold sub
  have : a + (M - b) = (a - b) + M := by omega
  rw [this, Nat.add_mod_right, Nat.mod_eq_of_lt (by omega)]

theorem sub_lt {a b : ℕ} (h : a < b) (hb : b < M) : sub a b = M - (b - a) := by
  unfold sub
  have : a + (M - b) = M - (b - a) := by omega
  rw [this, Nat.mod_eq_of_lt (by omega)]

/-- C132, what works: ranges of one number or more are valid; the length, clamping into the range, and the middle, rounded down, if the bounds add up to less than 2^32. -/
theorem C132_works_partial (r : R) (hr : Ok r) (x : ℕ) :
    valid r = true ∧ length r = r.stop - r.start ∧
    (contains r (clamp r x) = true ∧ (contains r x = true → clamp r x = x)) ∧
    (r.start + r.stop < M → middle r = (r.start + r.stop) / 2 ∧ contains r (middle r) = true) ∧
    (r.start ≤ x → x < M → distanceFrom r x = x - r.stop) := by
  obtain ⟨h1, h2⟩ := hr
  refine ⟨by unfold valid; rw [decide_eq_true_eq]; exact h1, sub_ge h1 h2, ⟨?_, ?_⟩, ?_, ?_⟩
  · unfold contains clamp; rw [decide_eq_true_eq]; omega
  · unfold contains clamp; rw [decide_eq_true_eq]; omega
  · intro h
    have e : middle r = (r.start + r.stop) / 2 := by rw [middle, Nat.mod_eq_of_lt h]
    refine ⟨e, ?_⟩
    simp only [contains, e, decide_eq_true_eq]; omega
  · intro h3 h4
    unfold distanceFrom
    have hc : clamp r x ≤ x := by unfold clamp; omega
    rw [sub_ge hc h4]
    unfold clamp; omega

example : Ok ⟨10, 21⟩ ∧ middle ⟨10, 21⟩ = 15 ∧ distanceFrom ⟨10, 21⟩ 30 = 9 := by refine ⟨?_, by decide, by decide⟩; unfold Ok M; decide

/-- C132 is false of the middle of every other range: it lies before the start. -/
theorem C132_middle_outside (r : R) (hr : Ok r) (h : M ≤ r.start + r.stop) : middle r < r.start := by
  obtain ⟨h1, h2⟩ := hr
  have : (r.start + r.stop) % M = r.start + r.stop - M := by
    rw [Nat.mod_eq_sub_mod h, Nat.mod_eq_of_lt (by omega)]
  rw [middle, this]
  omega

example : middle ⟨3000000000, 3000000010⟩ = 852516357 := by decide

/-- C132 is false of the distance of numbers below the range: the nearer they are, the larger it is. -/
theorem C132_distance_below (r : R) (hr : Ok r) (x : ℕ) (hx : x < r.start) : distanceFrom r x = M - (r.start - x) := by
  obtain ⟨h1, h2⟩ := hr
  have hc : clamp r x = r.start := by unfold clamp; omega
  rw [distanceFrom, hc, sub_lt hx (by omega)]

example : distanceFrom ⟨10, 21⟩ 9 = 4294967295 := by decide

/-- C132 is false of differences downwards: no direct difference is negative. -/
theorem C132_direct_difference (r : R) (a b : ℕ) (hb : b < a) (ha : a < M) : modDiffDirect r a b = M - ((a : ℤ) - b) ∧ 0 ≤ modDiffDirect r a b := by
  unfold modDiffDirect
  rw [sub_lt hb ha]
  omega

example : modDiffDirect ⟨0, 100⟩ 3 2 = 4294967295 := by decide

/-- C132 is false of `Covers`: every covering range starts at 0. -/
theorem C132_covers_from_zero (vs : List ℕ) : (covers vs).start = 0 ∧ ∀ v ∈ vs, contains (covers vs) v = true := by
  have key : ∀ (l : List ℕ) (a : R), a.start = 0 → (l.foldl incl a).start = 0 ∧ a.stop ≤ (l.foldl incl a).stop ∧ ∀ v ∈ l, v ≤ (l.foldl incl a).stop := by
    intro l
    induction l with
    | nil => intro a ha; exact ⟨ha, le_rfl, by simp⟩
    | cons b l ih =>
      intro a ha
      obtain ⟨i1, i2, i3⟩ := ih (incl a b) (by simp [incl, ha])
      have e : (incl a b).stop = max a.stop b := rfl
      refine ⟨i1, by rw [List.foldl_cons]; omega, fun v hv => ?_⟩
      rw [List.foldl_cons]
      rcases List.mem_cons.1 hv with rfl | hv
      · omega
      · exact i3 v hv
  obtain ⟨h1, -, h3⟩ := key vs empty rfl
  refine ⟨h1, fun v hv => ?_⟩
  have := h3 v hv
  simp only [contains, covers, decide_eq_true_eq, h1]
  exact ⟨Nat.zero_le _, this⟩

example : covers [5, 7] = ⟨0, 7⟩ := by decide

end Motive.Math.RangeUInt
