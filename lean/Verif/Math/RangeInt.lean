import Verif.Math.Range
import Mathlib.Tactic.Linarith
import Mathlib.Tactic.Ring

/-!
# Ranges of integers (C126)

range.h exports `RangeInt` and `RangeUInt` besides ranges of floats.  This file models the members of `RangeT<int>`, for values
small enough that no sum or product overflows.  Four things differ from floats: division truncates towards zero,
`std::numeric_limits<int>::infinity()` is 0 (the standard has it return `T()` for types without infinity), and -1.0f converts
to -1.  Also, `ModularAdjustment` mixes its type with `0.0f`, so that the length goes through a float.
-/

namespace Motive.Math.RangeInt

/-- `std::numeric_limits<int>::infinity()`. -/
def inf : ℤ := 0

/-- `Middle` (range.h:61); `/` of C++ truncates. -/
def middle (r : Range ℤ) : ℤ := (r.start + r.stop).tdiv 2

/-- `Length` (range.h:65). -/
def length (r : Range ℤ) : ℤ := r.stop - r.start

/-- `Clamp` (range.h:70), `mathfu::Clamp`. -/
def clamp (r : Range ℤ) (x : ℤ) : ℤ := max r.start (min x r.stop)

/-- `Percent` (range.h:93): the division of integers comes before the conversion to float.  `none`: division by zero. -/
def percent (r : Range ℤ) (x : ℤ) : Option ℤ := if length r = 0 then none else some ((x - r.start).tdiv (length r))

/-- The conversion of an `int` to `float`: 24 bits, to nearest, ties to even.  The result is an integer. -/
def toFloat (n : ℤ) : ℤ :=
  let a := n.natAbs
  let u := 2 ^ (Nat.log2 a - 23)
  let q := a / u
  let rem := a % u
  let q' := if u < 2 * rem ∨ u = 2 * rem ∧ q % 2 = 1 then q + 1 else q
  n.sign * ((q' * u : ℕ) : ℤ)

/-- `ModularAdjustment` (range.h:175-179).  Both conditional expressions have the type of `0.0f`. -/
def modularAdjustment (r : Range ℤ) (x : ℤ) : ℤ :=
  if x ≤ r.start then toFloat (length r) else if r.stop < x then toFloat (-length r) else 0

/-- `NormalizeWildValue` (range.h:155-169); `floor` of an integer does nothing.  `none`: division by zero or failed
assertion. -/
def normalizeWild (r : Range ℤ) (x : ℤ) : Option ℤ :=
  if length r = 0 then none
  else
    let units := (x - r.start).tdiv (length r)
    let close := x - units * length r
    let y := close + modularAdjustment r close
    if r.start < y ∧ y ≤ r.stop then some y else none

/-- `Include` (range.h:265-267). -/
def incl (r : Range ℤ) (x : ℤ) : Range ℤ := ⟨min r.start x, max r.stop x⟩

/-- `Full` (range.h:479-482). -/
def full : Range ℤ := ⟨-inf, inf⟩

/-- `Empty` (range.h:488-491). -/
def empty : Range ℤ := ⟨inf, -inf⟩

/-- `Covers` (range.h:465-476). -/
def covers (vs : List ℤ) : Range ℤ := vs.foldl incl empty

/-- `IndexOfLongest` (range.h:401-412). -/
def indexOfLongest (rs : List (Range ℤ)) : ℕ :=
  ((rs.zipIdx).foldl (fun (best : ℤ × ℕ) (x : Range ℤ × ℕ) =>
    if length x.1 > best.1 then (length x.1, x.2) else best) (-1, 0)).2

/-- `IndexOfShortest` (range.h:420-431). -/
def indexOfShortest (rs : List (Range ℤ)) : ℕ :=
  ((rs.zipIdx).foldl (fun (best : ℤ × ℕ) (x : Range ℤ × ℕ) =>
    if length x.1 < best.1 then (length x.1, x.2) else best) (inf, 0)).2

/-- `ClampToClosest` (range.h:439-451). -/
def clampToClosest (x : ℤ) (rs : List (Range ℤ)) : ℤ :=
  (rs.foldl (fun (best : ℤ × ℤ) (r : Range ℤ) =>
    if |x - clamp r x| < best.1 then (|x - clamp r x|, clamp r x) else best) (inf, x)).2

/-! ## Specification -/

/-- The values in a range. -/
def Mem (x : ℤ) (r : Range ℤ) : Prop := r.start ≤ x ∧ x ≤ r.stop

/-! ## What works -/

theorem toFloat_small {n : ℤ} (h : |n| < 2 ^ 24) : toFloat n = n := by
  have ha : n.natAbs < 2 ^ 24 := by zify; exact h
  have hl : Nat.log2 n.natAbs - 23 = 0 := by
    rcases Nat.eq_zero_or_pos n.natAbs with h0 | h0
    · rw [h0]; rfl
    · have := (Nat.log2_lt (by omega)).2 ha
      omega
  unfold toFloat
  simp only [hl, pow_zero, Nat.div_one, Nat.mod_one, mul_zero, mul_one]
  simpa using Int.sign_mul_abs n

/-- **C126.** `NormalizeWildValue` gives the one value of the range, without its start, that differs by a multiple of the
length, for any integer, if the length has at most 24 bits. -/
theorem C126_normalise_partial (r : Range ℤ) (hr : r.start < r.stop) (hlen : r.stop - r.start < 2 ^ 24) (x : ℤ) :
    ∃ y, normalizeWild r x = some y ∧ (r.start < y ∧ y ≤ r.stop) ∧ ∃ k : ℤ, y = x + k * (r.stop - r.start) := by
  have hl : 0 < length r := by unfold length; omega
  have hd := Int.mul_tdiv_add_tmod (x - r.start) (length r)
  set u := (x - r.start).tdiv (length r) with hu
  set c := x - u * length r with hc
  have hce : c = r.start + (x - r.start).tmod (length r) := by rw [hc]; linarith [mul_comm u (length r)]
  have h1 : (x - r.start).tmod (length r) < length r := Int.tmod_lt_of_pos _ hl
  have h2 : -length r < (x - r.start).tmod (length r) := by
    have := Int.lt_tmod_of_pos (x - r.start) hl
    exact this
  have hstop : r.stop = r.start + length r := by unfold length; ring
  have key : ∀ y k, y = x + k * length r → r.start < y → y ≤ r.stop →
      (r.start < y ∧ y ≤ r.stop) ∧ ∃ k : ℤ, y = x + k * (r.stop - r.start) := fun y k hy h3 h4 => ⟨⟨h3, h4⟩, k, hy⟩
  unfold normalizeWild
  rw [if_neg (by omega)]
  simp only [← hu, ← hc]
  unfold modularAdjustment
  rw [toFloat_small (n := length r) (by rw [abs_of_pos hl]; exact hlen)]
  by_cases b1 : c ≤ r.start
  · rw [if_pos b1, if_pos ⟨by omega, by omega⟩]
    exact ⟨_, rfl, key _ (1 - u) (by rw [hc]; ring) (by omega) (by omega)⟩
  · rw [if_neg b1, if_neg (show ¬ r.stop < c by omega), if_pos (show r.start < c + 0 ∧ c + 0 ≤ r.stop from ⟨by omega, by omega⟩)]
    exact ⟨_, rfl, key _ (-u) (by rw [hc]; ring) (by omega) (by omega)⟩

example : normalizeWild ⟨-3, 4⟩ (-1000) = some 1 := by decide

/-- The middle of a range is in the range, and half way up to rounding. -/
theorem C126_middle (r : Range ℤ) (hr : r.start ≤ r.stop) :
    Mem (middle r) r ∧ |2 * middle r - (r.start + r.stop)| ≤ 1 := by
  unfold middle Mem
  have hd := Int.mul_tdiv_add_tmod (r.start + r.stop) 2
  have h1 : (r.start + r.stop).tmod 2 < 2 := Int.tmod_lt_of_pos _ (by norm_num)
  have h2 : -2 < (r.start + r.stop).tmod 2 := Int.lt_tmod_of_pos _ (by norm_num)
  refine ⟨⟨by omega, by omega⟩, ?_⟩
  rw [abs_le]
  constructor <;> omega

/-- The longest of a list of ranges is found. -/
theorem C126_longest (rs : List (Range ℤ)) (hne : rs ≠ []) (hv : ∀ r ∈ rs, r.start ≤ r.stop) :
    ∃ r, rs[indexOfLongest rs]? = some r ∧ ∀ s ∈ rs, length s ≤ length r := by
  have key : ∀ (l : List (Range ℤ)) (pre : List (Range ℤ)) (best : ℤ × ℕ),
      (pre = [] ∧ best = (-1, 0) ∨ ∃ r, pre[best.2]? = some r ∧ length r = best.1 ∧ ∀ s ∈ pre, length s ≤ best.1) →
      (∀ r ∈ l, r.start ≤ r.stop) → pre ++ l ≠ [] →
      ∃ r, (pre ++ l)[(((l.zipIdx pre.length).foldl (fun (best : ℤ × ℕ) (x : Range ℤ × ℕ) =>
        if length x.1 > best.1 then (length x.1, x.2) else best) best)).2]? = some r ∧ ∀ s ∈ pre ++ l, length s ≤ length r := by
    intro l
    induction l with
    | nil =>
      intro pre best hb _ hne
      rcases hb with ⟨rfl, -⟩ | ⟨r, h1, h2, h3⟩
      · simp at hne
      · refine ⟨r, by simpa using h1, ?_⟩
        intro s hs
        rw [h2]
        exact h3 s (by simpa using hs)
    | cons a l ih =>
      intro pre best hb hv _
      have ha : 0 ≤ length a := by
        have := hv a (List.mem_cons_self ..)
        unfold length; omega
      rw [List.zipIdx_cons, List.foldl_cons]
      have := ih (pre ++ [a]) (if length a > best.1 then (length a, pre.length) else best) ?_
        (fun r hr => hv r (List.mem_cons_of_mem _ hr)) (by simp)
      · simpa [List.append_assoc] using this
      · right
        by_cases c : length a > best.1
        · rw [if_pos c]
          refine ⟨a, by simp, rfl, ?_⟩
          intro s hs
          rcases List.mem_append.mp hs with h | h
          · rcases hb with ⟨rfl, -⟩ | ⟨r, -, -, h3⟩
            · simp at h
            · exact le_of_lt (lt_of_le_of_lt (h3 s h) c)
          · rw [List.mem_singleton.mp h]
        · rw [if_neg c]
          rcases hb with ⟨rfl, rfl⟩ | ⟨r, h1, h2, h3⟩
          · exact absurd ha (by simp at c; omega)
          · refine ⟨r, ?_, h2, ?_⟩
            · rw [List.getElem?_append_left]
              · exact h1
              · exact (List.getElem?_eq_some_iff.mp h1).1
            · intro s hs
              rcases List.mem_append.mp hs with h | h
              · exact h3 s h
              · rw [List.mem_singleton.mp h]; omega
  have := key rs [] (-1, 0) (Or.inl ⟨rfl, rfl⟩) hv (by simpa using hne)
  simpa [indexOfLongest] using this

example : indexOfLongest [⟨1, 2⟩, ⟨-5, 5⟩, ⟨0, 7⟩] = 1 := by decide

/-! ## What does not -/

/-- Longer ranges are not normalised correctly: the result may be another value of the range, for the length is rounded to a float. -/
theorem C126_normalise_wide :
    normalizeWild ⟨0, 16777217⟩ 0 = some 16777216 ∧ ¬ ∃ k : ℤ, (16777216 : ℤ) = 0 + k * (16777217 - 0) := by
  refine ⟨by decide +kernel, ?_⟩
  rintro ⟨k, hk⟩
  omega

/-- `Middle` is documented to be rounded down for integers, but it is rounded up when the bounds add up to a negative odd
number. -/
theorem C126_middle_rounded_up (r : Range ℤ) (hneg : r.start + r.stop < 0) (hodd : (r.start + r.stop) % 2 = 1) :
    2 * middle r = r.start + r.stop + 1 := by
  unfold middle
  have hd := Int.mul_tdiv_add_tmod (r.start + r.stop) 2
  have h1 : (r.start + r.stop).tmod 2 < 2 := Int.tmod_lt_of_pos _ (by norm_num)
  have h2 : -2 < (r.start + r.stop).tmod 2 := Int.lt_tmod_of_pos _ (by norm_num)
  have h3 : (r.start + r.stop).tmod 2 ≤ 0 := by
    have := Int.tmod_nonneg (-(2 : ℤ)) (a := -(r.start + r.stop)) (by omega)
    rw [Int.neg_tmod, Int.tmod_neg] at this
    omega
  omega

example : middle ⟨-3, 0⟩ = -1 := by decide

/-- "Every T is contained in this range": only 0 is contained in `Full()`. -/
theorem C126_full (x : ℤ) : Mem x full ↔ x = 0 := by
  unfold Mem full inf
  simp only
  omega

/-- `Empty()` is not empty. -/
theorem C126_empty : Mem 0 empty := by
  unfold Mem empty inf
  simp

/-- `Covers` returns the smallest range that contains the values **and 0**. -/
theorem C126_covers (vs : List ℤ) :
    (∀ v ∈ vs, Mem v (covers vs)) ∧ Mem 0 (covers vs) ∧
      ∀ r : Range ℤ, Mem 0 r → (∀ v ∈ vs, Mem v r) → r.start ≤ (covers vs).start ∧ (covers vs).stop ≤ r.stop := by
  have key : ∀ (l : List ℤ) (a : Range ℤ), (∀ v ∈ l, Mem v (l.foldl incl a)) ∧
      ((l.foldl incl a).start ≤ a.start ∧ a.stop ≤ (l.foldl incl a).stop) ∧
      ∀ r : Range ℤ, r.start ≤ a.start → a.stop ≤ r.stop → (∀ v ∈ l, Mem v r) →
        r.start ≤ (l.foldl incl a).start ∧ (l.foldl incl a).stop ≤ r.stop := by
    intro l
    induction l with
    | nil => intro a; exact ⟨by simp, ⟨le_refl _, le_refl _⟩, fun r h1 h2 _ => ⟨h1, h2⟩⟩
    | cons b l ih =>
      intro a
      obtain ⟨h1, ⟨h2, h3⟩, h4⟩ := ih (incl a b)
      rw [List.foldl_cons]
      have e1 : (incl a b).start = min a.start b := rfl
      have e2 : (incl a b).stop = max a.stop b := rfl
      refine ⟨?_, ⟨by omega, by omega⟩, ?_⟩
      · intro v hv
        rcases List.mem_cons.mp hv with rfl | hv
        · exact ⟨by omega, by omega⟩
        · exact h1 v hv
      · intro r hr1 hr2 hr
        have hb := hr b (List.mem_cons_self ..)
        unfold Mem at hb
        exact h4 r (by simp only [incl]; omega) (by simp only [incl]; omega) (fun v hv => hr v (List.mem_cons_of_mem _ hv))
  obtain ⟨h1, ⟨h2, h3⟩, h4⟩ := key vs empty
  unfold covers
  simp only [empty, inf] at *
  exact ⟨h1, ⟨by simpa using h2, by simpa using h3⟩, fun r hr hv => h4 r hr.1 (by simpa using hr.2) hv⟩

/-- So it is too large for values of one sign. -/
theorem C126_covers_too_much (vs : List ℤ) (hv : ∀ v ∈ vs, 0 < v) :
    ∃ r : Range ℤ, (∀ v ∈ vs, Mem v r) ∧ (covers vs).start < r.start ∧ r.stop ≤ (covers vs).stop := by
  obtain ⟨h1, h2, h3⟩ := C126_covers vs
  refine ⟨⟨1, (covers vs).stop⟩, fun v hm => ⟨?_, (h1 v hm).2⟩, ?_, le_refl _⟩
  · have := hv v hm
    simp only
    omega
  · have := h2.1
    simp only
    omega

example : covers [5, 7] = ⟨0, 7⟩ := by decide

/-- `IndexOfShortest` always returns the first range. -/
theorem C126_shortest_is_first (rs : List (Range ℤ)) (hv : ∀ r ∈ rs, r.start ≤ r.stop) : indexOfShortest rs = 0 := by
  have key : ∀ (l : List (Range ℤ)) (k : ℕ), (∀ r ∈ l, r.start ≤ r.stop) →
      (l.zipIdx k).foldl (fun (best : ℤ × ℕ) (x : Range ℤ × ℕ) =>
        if length x.1 < best.1 then (length x.1, x.2) else best) (inf, 0) = (inf, 0) := by
    intro l
    induction l with
    | nil => intro k _; rfl
    | cons a l ih =>
      intro k h
      have ha := h a (List.mem_cons_self ..)
      rw [List.zipIdx_cons, List.foldl_cons, if_neg (by unfold length inf; simp only; omega)]
      exact ih (k + 1) (fun r hr => h r (List.mem_cons_of_mem _ hr))
  unfold indexOfShortest
  rw [key rs 0 hv]

example : indexOfShortest [⟨0, 100⟩, ⟨3, 4⟩] = 0 := by decide

/-- `ClampToClosest` returns its argument, however far from all ranges. -/
theorem C126_closest_does_not_clamp (x : ℤ) (rs : List (Range ℤ)) : clampToClosest x rs = x := by
  have key : ∀ l : List (Range ℤ), l.foldl (fun (best : ℤ × ℤ) (r : Range ℤ) =>
      if |x - clamp r x| < best.1 then (|x - clamp r x|, clamp r x) else best) (inf, x) = (inf, x) := by
    intro l
    induction l with
    | nil => rfl
    | cons a l ih =>
      rw [List.foldl_cons, if_neg (by unfold inf; simp only; exact not_lt.mpr (abs_nonneg _))]
      exact ih
  unfold clampToClosest
  rw [key rs]

example : clampToClosest 100 [⟨0, 10⟩, ⟨20, 30⟩] = 100 := by decide

/-- `Percent` is 0 everywhere in a range except at its end. -/
theorem C126_percent_is_zero (r : Range ℤ) (x : ℤ) (h0 : r.start ≤ x) (h1 : x < r.stop) : percent r x = some 0 := by
  unfold percent
  rw [if_neg (by unfold length; omega), Int.tdiv_eq_zero_of_lt (by omega) (by unfold length; omega)]

example : percent ⟨0, 10⟩ 5 = some 0 := by decide

end Motive.Math.RangeInt
