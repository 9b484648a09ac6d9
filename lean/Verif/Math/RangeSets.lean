import Verif.Math.RangeProps

/-!
# Property C18: set operations on ranges
-/

set_option linter.unusedSectionVars false

namespace Motive.Math

variable {K : Type} [Field K] [LinearOrder K] [IsStrictOrderedRing K]

namespace Range

/-- C18, `Intersect`: the points of the intersection are exactly the shared points, so it is valid exactly
when there is one; when two valid ranges share none, `Invert()` of the result is the gap between them. -/
theorem C18_intersect (a b : Range K) :
    (∀ x, (a.intersect b).contains x ↔ a.contains x ∧ b.contains x) ∧
    ((a.intersect b).valid ↔ ∃ x, a.contains x ∧ b.contains x) ∧
    (a.valid → b.valid → ¬ (a.intersect b).valid →
      (a.stop < b.start ∧ (a.intersect b).invert = ⟨a.stop, b.start⟩) ∨
      (b.stop < a.start ∧ (a.intersect b).invert = ⟨b.stop, a.start⟩)) := by
  have h1 : ∀ x, (a.intersect b).contains x ↔ a.contains x ∧ b.contains x := by
    intro x; unfold contains intersect; simp only [max_le_iff, le_min_iff]; tauto
  refine ⟨h1, ⟨fun h => ?_, ?_⟩, ?_⟩
  · refine ⟨(a.intersect b).start, (h1 _).1 ⟨le_refl _, h⟩⟩
  · rintro ⟨x, hx⟩
    have := (h1 x).2 hx
    exact this.1.trans this.2
  · intro ha hb hn
    unfold valid intersect at *
    simp only [max_le_iff, le_min_iff, not_and_or, not_le] at hn
    unfold invert
    rcases hn with (hn | hn) | (hn | hn)
    · exact absurd ha (by simpa using hn)
    · left
      refine ⟨hn, ?_⟩
      simp only [Range.mk.injEq]
      exact ⟨min_eq_left (by linarith), max_eq_right (by linarith)⟩
    · right
      refine ⟨hn, ?_⟩
      simp only [Range.mk.injEq]
      exact ⟨min_eq_right (by linarith), max_eq_left (by linarith)⟩
    · exact absurd hb (by simpa using hn)

/-- C18, `Union`: the smallest range covering both (valid) ranges. -/
theorem C18_union (a b : Range K) (ha : a.valid) (hb : b.valid) :
    (∀ x, a.contains x ∨ b.contains x → (a.union b).contains x) ∧
    ∀ c : Range K, (∀ x, a.contains x ∨ b.contains x → c.contains x) →
      ∀ x, (a.union b).contains x → c.contains x := by
  unfold contains union valid at *
  refine ⟨?_, ?_⟩
  · rintro x (h | h) <;> simp only [min_le_iff, le_max_iff] <;> tauto
  · rintro c hc x ⟨h1, h2⟩
    have e1 := hc a.start (Or.inl ⟨le_refl _, ha⟩)
    have e2 := hc b.start (Or.inr ⟨le_refl _, hb⟩)
    have e3 := hc a.stop (Or.inl ⟨ha, le_refl _⟩)
    have e4 := hc b.stop (Or.inr ⟨hb, le_refl _⟩)
    exact ⟨(le_min e1.1 e2.1).trans h1, h2.trans (max_le e3.2 e4.2)⟩

/-- C18, `Include`: the smallest range containing the (valid) range and the point. -/
theorem C18_include (a : Range K) (ha : a.valid) (p : K) :
    (∀ x, a.contains x ∨ x = p → (a.incl p).contains x) ∧
    ∀ c : Range K, (∀ x, a.contains x ∨ x = p → c.contains x) →
      ∀ x, (a.incl p).contains x → c.contains x := by
  unfold contains incl valid at *
  refine ⟨?_, ?_⟩
  · rintro x (h | rfl) <;> simp only [min_le_iff, le_max_iff] <;> tauto
  · rintro c hc x ⟨h1, h2⟩
    have e1 := hc a.start (Or.inl ⟨le_refl _, ha⟩)
    have e2 := hc p (Or.inr rfl)
    have e3 := hc a.stop (Or.inl ⟨ha, le_refl _⟩)
    exact ⟨(le_min e1.1 e2.1).trans h1, h2.trans (max_le e3.2 e2.2)⟩

theorem clamp_mem (r : Range K) (hr : r.valid) (x : K) : r.contains (r.clamp x) := by
  unfold contains clamp
  exact ⟨le_max_left _ _, max_le hr (min_le_right _ _)⟩

theorem clamp_of_mem {r : Range K} {x : K} (h : r.contains x) : r.clamp x = x := by
  unfold clamp; rw [min_eq_left h.2, max_eq_right h.1]

theorem clamp_of_lt {r : Range K} (hr : r.valid) {x : K} (h : x ≤ r.start) : r.clamp x = r.start := by
  unfold clamp valid at *; rw [min_eq_left (h.trans hr), max_eq_left h]

theorem clamp_of_gt {r : Range K} (hr : r.valid) {x : K} (h : r.stop ≤ x) : r.clamp x = r.stop := by
  unfold clamp valid at *; rw [min_eq_right h, max_eq_right hr]

theorem clamp_nearest {r : Range K} (hr : r.valid) (x y : K) (hy : r.contains y) :
    |x - r.clamp x| ≤ |x - y| := by
  rcases le_total x r.start with h | h
  · rw [clamp_of_lt hr h, abs_of_nonpos (by linarith), abs_of_nonpos (by linarith [hy.1])]
    linarith [hy.1]
  · rcases le_total r.stop x with h' | h'
    · rw [clamp_of_gt hr h', abs_of_nonneg (by linarith), abs_of_nonneg (by linarith [hy.2])]
      linarith [hy.2]
    · rw [clamp_of_mem ⟨h, h'⟩]; simp

/-- C18, `Clamp` and `DistanceFrom`: the clamped value is in the (valid) range, it is `x` itself if `x` is in
the range, and it is nearest to `x` among the points of the range, uniquely; `DistanceFrom` is that
distance. -/
theorem C18_clamp (r : Range K) (hr : r.valid) (x : K) :
    r.contains (r.clamp x) ∧ (r.contains x → r.clamp x = x) ∧
    (∀ y, r.contains y → r.distanceFrom x ≤ |x - y| ∧ (r.distanceFrom x = |x - y| → y = r.clamp x)) ∧
    r.distanceFrom x = |x - r.clamp x| := by
  refine ⟨clamp_mem r hr x, clamp_of_mem, fun y hy => ⟨clamp_nearest hr x y hy, fun he => ?_⟩, rfl⟩
  unfold distanceFrom at he
  rcases le_total x r.start with h | h
  · rw [clamp_of_lt hr h, abs_of_nonpos (by linarith), abs_of_nonpos (by linarith [hy.1])] at he
    rw [clamp_of_lt hr h]; linarith
  · rcases le_total r.stop x with h' | h'
    · rw [clamp_of_gt hr h', abs_of_nonneg (by linarith), abs_of_nonneg (by linarith [hy.2])] at he
      rw [clamp_of_gt hr h']; linarith
    · rw [clamp_of_mem ⟨h, h'⟩] at he ⊢
      simp only [sub_self, abs_zero] at he
      have := abs_eq_zero.mp he.symm
      linarith

theorem valuesLoop_spec (r : Range K) (eps : K) (vals : List K) (i n : Nat) (hn : n ≤ i)
    (hi : i ≤ vals.length) :
    (r.valuesLoop eps vals i n).1.take (r.valuesLoop eps vals i n).2 =
      vals.take n ++ ((vals.drop i).filter (fun v => |v - r.clamp v| ≤ eps)).map r.clamp := by
  unfold valuesLoop
  by_cases h : i < vals.length
  · rw [dif_pos h]
    have hd : vals.drop i = vals[i] :: vals.drop (i + 1) := List.drop_eq_getElem_cons h
    by_cases hc : |vals[i] - r.clamp vals[i]| ≤ eps
    · rw [if_pos hc]
      rw [valuesLoop_spec r eps _ (i + 1) (n + 1) (by omega) (by rw [List.length_set]; omega)]
      rw [hd, List.filter_cons_of_pos (by simpa using hc), List.map_cons]
      rw [List.drop_set_of_lt (by omega)]
      have : (vals.set n (r.clamp vals[i])).take (n + 1) = vals.take n ++ [r.clamp vals[i]] := by
        rw [List.take_add_one, List.take_set_of_le (by omega)]
        simp [show n < vals.length by omega]
      rw [this]; simp
    · rw [if_neg hc]
      rw [valuesLoop_spec r eps _ (i + 1) n (by omega) (by omega)]
      rw [hd, List.filter_cons_of_neg (by simpa using hc)]
  · rw [dif_neg h]
    have : vals.drop i = [] := List.drop_eq_nil_iff.mpr (by omega)
    rw [this]; simp
termination_by vals.length - i
decreasing_by
  · rw [List.length_set]; omega
  · omega

/-- C18, `ValuesInRange`: although it works in place, it returns exactly the input values within `epsilon`
of the range, in order, each clamped into the range. -/
theorem C18_values_in_range (r : Range K) (eps : K) (vals : List K) :
    r.valuesInRange eps vals = (vals.filter (fun v => r.distanceFrom v ≤ eps)).map r.clamp := by
  unfold valuesInRange
  have := valuesLoop_spec r eps vals 0 0 (le_refl _) (by omega)
  simp only [List.take_zero, List.nil_append, List.drop_zero] at this
  rw [this]; rfl

theorem intersectRanges_inner (a : Range K) (bs : List (Range K)) (acc : List (Range K) × List (Range K)) :
    bs.foldl (fun acc b =>
      let i := a.intersect b
      if i.valid then (acc.1 ++ [i], acc.2) else (acc.1, acc.2 ++ [i.invert])) acc =
    (acc.1 ++ (bs.map a.intersect).filter (fun i => i.valid),
     acc.2 ++ ((bs.map a.intersect).filter (fun i => ¬ i.valid)).map invert) := by
  induction bs generalizing acc with
  | nil => simp
  | cons b bs ih =>
    rw [List.foldl_cons, ih]
    by_cases h : (a.intersect b).valid <;> simp [h]

/-- C18, `IntersectRanges`: the intersections returned are exactly the non-empty pairwise intersections and
the gaps exactly the inverses of the empty ones, in row-major order. -/
theorem C18_intersect_ranges (as bs : List (Range K)) :
    (intersectRanges as bs).1 = (as.flatMap fun a => bs.map fun b => a.intersect b).filter (fun i => i.valid) ∧
    (intersectRanges as bs).2 =
      ((as.flatMap fun a => bs.map fun b => a.intersect b).filter (fun i => ¬ i.valid)).map invert := by
  have key : ∀ acc : List (Range K) × List (Range K),
      as.foldl (fun acc a => bs.foldl (fun acc b =>
        let i := a.intersect b
        if i.valid then (acc.1 ++ [i], acc.2) else (acc.1, acc.2 ++ [i.invert])) acc) acc =
      (acc.1 ++ (as.flatMap fun a => bs.map fun b => a.intersect b).filter (fun i => i.valid),
       acc.2 ++ ((as.flatMap fun a => bs.map fun b => a.intersect b).filter (fun i => ¬ i.valid)).map invert) := by
    induction as with
    | nil => simp
    | cons a as ih =>
      intro acc
      rw [List.foldl_cons, intersectRanges_inner, ih]
      simp [List.flatMap_cons]
  unfold intersectRanges
  rw [key]; simp

/-- C18, `IntersectRanges` in terms of points: a point is in one of the returned intersections exactly when
it is in one range of each list. -/
theorem C18_intersect_ranges_points (as bs : List (Range K)) (x : K) :
    (∃ i ∈ (intersectRanges as bs).1, i.contains x) ↔
      (∃ a ∈ as, a.contains x) ∧ (∃ b ∈ bs, b.contains x) := by
  rw [(C18_intersect_ranges as bs).1]
  constructor
  · rintro ⟨i, hi, hx⟩
    simp only [List.mem_filter, List.mem_flatMap, List.mem_map] at hi
    obtain ⟨⟨a, ha, b, hb, rfl⟩, -⟩ := hi
    have := ((C18_intersect a b).1 x).1 hx
    exact ⟨⟨a, ha, this.1⟩, ⟨b, hb, this.2⟩⟩
  · rintro ⟨⟨a, ha, h1⟩, ⟨b, hb, h2⟩⟩
    refine ⟨a.intersect b, ?_, ((C18_intersect a b).1 x).2 ⟨h1, h2⟩⟩
    simp only [List.mem_filter, List.mem_flatMap, List.mem_map]
    exact ⟨⟨a, ha, b, hb, rfl⟩, decide_eq_true (((C18_intersect a b).2.1).2 ⟨x, h1, h2⟩)⟩

example : (intersectRanges [(⟨0, 2⟩ : Range ℚ), ⟨5, 9⟩] [⟨1, 6⟩, ⟨3, 4⟩]) =
    ([⟨1, 2⟩, ⟨5, 6⟩], [⟨2, 3⟩, ⟨4, 5⟩]) := by decide +kernel
example : (⟨0, 2⟩ : Range ℚ).valuesInRange (1/2) [-1, 1, 9, -1/2, 2] = [1, 0, 2] := by decide +kernel
example : (⟨0, 2⟩ : Range ℚ).valid ∧ (⟨5, 9⟩ : Range ℚ).valid ∧
    ¬ ((⟨0, 2⟩ : Range ℚ).intersect ⟨5, 9⟩).valid ∧
    ((⟨0, 2⟩ : Range ℚ).intersect ⟨1, 9⟩).valid := by decide +kernel

/-! ### C55: reductions over arrays of ranges and values -/

theorem longest_fold (rs : List (Range K)) (off : Nat) (best : K × Nat) :
    let f := (rs.zipIdx off).foldl (fun (best : K × Nat) (x : Range K × Nat) =>
      if best.1 < x.1.length then (x.1.length, x.2) else best) best
    best.1 ≤ f.1 ∧ (∀ r ∈ rs, r.length ≤ f.1) ∧
    (f = best ∨ ∃ k, ∃ h : k < rs.length, f = (rs[k].length, off + k) ∧ best.1 < rs[k].length ∧
      ∀ j (hj : j < k), rs[j].length < rs[k].length) := by
  induction rs generalizing off best with
  | nil => simp
  | cons r rs ih =>
    intro f
    have hf : f = (rs.zipIdx (off + 1)).foldl (fun (best : K × Nat) (x : Range K × Nat) =>
      if best.1 < x.1.length then (x.1.length, x.2) else best)
        (if best.1 < r.length then (r.length, off) else best) := by
      simp only [f, List.zipIdx_cons, List.foldl_cons]
    obtain ⟨h1, h2, h3⟩ := ih (off + 1) (if best.1 < r.length then (r.length, off) else best)
    rw [← hf] at h1 h2 h3
    by_cases hc : best.1 < r.length
    · simp only [hc, if_true] at h1 h3
      refine ⟨hc.le.trans h1, ?_, Or.inr ?_⟩
      · intro r' hr'
        rcases List.mem_cons.1 hr' with rfl | h
        · exact h1
        · exact h2 r' h
      · rcases h3 with h3 | ⟨k, hk, e, lt, hj⟩
        · exact ⟨0, by simp, by simpa using h3, by simpa using hc, fun j hj => absurd hj (by omega)⟩
        · refine ⟨k + 1, by simpa using hk, by simp [e]; omega, by simpa using hc.trans lt, ?_⟩
          intro j hj'
          cases j with
          | zero => simpa using lt
          | succ j => simpa using hj j (by omega)
    · simp only [hc, if_false] at h1 h3
      refine ⟨h1, ?_, ?_⟩
      · intro r' hr'
        rcases List.mem_cons.1 hr' with rfl | h
        · exact (not_lt.1 hc).trans h1
        · exact h2 r' h
      · rcases h3 with h3 | ⟨k, hk, e, lt, hj⟩
        · exact Or.inl h3
        · refine Or.inr ⟨k + 1, by simpa using hk, by simp [e]; omega, by simpa using lt, ?_⟩
          intro j hj'
          cases j with
          | zero => simpa using lt_of_le_of_lt (not_lt.1 hc) lt
          | succ j => simpa using hj j (by omega)

/-- C55, `IndexOfLongest`: the index of the first range of maximal length (all ranges valid, at least one). -/
theorem C55_index_of_longest (rs : List (Range K)) (hne : rs ≠ []) (hv : ∀ r ∈ rs, r.valid) :
    ∃ h : indexOfLongest rs < rs.length,
      (∀ r ∈ rs, r.length ≤ (rs[indexOfLongest rs]).length) ∧
      ∀ j (hj : j < indexOfLongest rs), (rs[j]).length < (rs[indexOfLongest rs]).length := by
  obtain ⟨h1, h2, h3⟩ := longest_fold rs 0 (-1, 0)
  rcases h3 with h3 | ⟨k, hk, e, lt, hj⟩
  · exfalso
    obtain ⟨r, hr⟩ := List.exists_mem_of_ne_nil rs hne
    have a := h2 r hr
    rw [h3] at a
    have b := hv r hr
    unfold valid at b; unfold length at a
    simp only at a
    linarith
  · have hidx : indexOfLongest rs = k := by unfold indexOfLongest; rw [e]; simp
    have h2' : ∀ r ∈ rs, r.length ≤ rs[k].length := by
      intro r hr; have := h2 r hr; rwa [e] at this
    refine ⟨by omega, ?_, ?_⟩
    · intro r hr; simpa [hidx] using h2' r hr
    · intro j hj'; simpa [hidx] using hj j (by omega)

theorem shortest_fold (rs : List (Range K)) (off : Nat) (l : K) (i : Nat) :
    let f := (rs.zipIdx off).foldl shortestStep (some l, i)
    ∃ m, f.1 = some m ∧ m ≤ l ∧ (∀ r ∈ rs, m ≤ r.length) ∧
    (f = (some l, i) ∨ ∃ k, ∃ h : k < rs.length, f = (some rs[k].length, off + k) ∧ rs[k].length < l ∧
      ∀ j (hj : j < k), rs[k].length < rs[j].length) := by
  induction rs generalizing off l i with
  | nil => simp
  | cons r rs ih =>
    intro f
    by_cases hc : r.length < l
    · have hf : f = (rs.zipIdx (off + 1)).foldl shortestStep (some r.length, off) := by
        simp only [f, List.zipIdx_cons, List.foldl_cons, shortestStep, hc, if_true]
      obtain ⟨m, hm, h1, h2, h3⟩ := ih (off + 1) r.length off
      rw [← hf] at hm h3
      refine ⟨m, hm, h1.trans hc.le, ?_, Or.inr ?_⟩
      · intro r' hr'
        rcases List.mem_cons.1 hr' with rfl | h
        · exact h1
        · exact h2 r' h
      · rcases h3 with h3 | ⟨k, hk, e, lt, hj⟩
        · exact ⟨0, by simp, by simpa using h3, by simpa using hc, fun j hj => absurd hj (by omega)⟩
        · refine ⟨k + 1, by simpa using hk, by simp [e]; omega, by simpa using lt.trans hc, ?_⟩
          intro j hj'
          cases j with
          | zero => simpa using lt
          | succ j => simpa using hj j (by omega)
    · have hf : f = (rs.zipIdx (off + 1)).foldl shortestStep (some l, i) := by
        simp only [f, List.zipIdx_cons, List.foldl_cons, shortestStep, hc, if_false]
      obtain ⟨m, hm, h1, h2, h3⟩ := ih (off + 1) l i
      rw [← hf] at hm h3
      refine ⟨m, hm, h1, ?_, ?_⟩
      · intro r' hr'
        rcases List.mem_cons.1 hr' with rfl | h
        · exact h1.trans (not_lt.1 hc)
        · exact h2 r' h
      · rcases h3 with h3 | ⟨k, hk, e, lt, hj⟩
        · exact Or.inl h3
        · refine Or.inr ⟨k + 1, by simpa using hk, by simp [e]; omega, by simpa using lt, ?_⟩
          intro j hj'
          cases j with
          | zero => simpa using lt_of_lt_of_le lt (not_lt.1 hc)
          | succ j => simpa using hj j (by omega)

/-- C55, `IndexOfShortest`: the index of the first range of minimal length. -/
theorem C55_index_of_shortest (rs : List (Range K)) (hne : rs ≠ []) :
    ∃ h : indexOfShortest rs < rs.length,
      (∀ r ∈ rs, (rs[indexOfShortest rs]).length ≤ r.length) ∧
      ∀ j (hj : j < indexOfShortest rs), (rs[indexOfShortest rs]).length < (rs[j]).length := by
  cases rs with
  | nil => exact absurd rfl hne
  | cons r rs =>
    obtain ⟨m, hm, h1, h2, h3⟩ := shortest_fold rs 1 r.length 0
    rcases h3 with h3 | ⟨k, hk, e, lt, hj⟩
    · have hidx : indexOfShortest (r :: rs) = 0 := by
        unfold indexOfShortest
        simp only [List.zipIdx_cons, List.foldl_cons]
        rw [show shortestStep (none, 0) (r, 0) = (some r.length, 0) from rfl]
        simp only [Nat.zero_add]; rw [h3]
      have hml : m = r.length := by rw [h3] at hm; simpa using hm.symm
      refine ⟨by rw [hidx]; simp, ?_, ?_⟩
      · intro r' hr'
        simp only [hidx, List.getElem_cons_zero]
        rcases List.mem_cons.1 hr' with rfl | h
        · exact le_refl _
        · rw [← hml]; exact h2 r' h
      · intro j hj; omega
    · have hidx : indexOfShortest (r :: rs) = k + 1 := by
        unfold indexOfShortest
        simp only [List.zipIdx_cons, List.foldl_cons]
        rw [show shortestStep (none, 0) (r, 0) = (some r.length, 0) from rfl]
        simp only [Nat.zero_add]; rw [e]; simp; omega
      have hml : m = rs[k].length := by rw [e] at hm; simpa using hm.symm
      refine ⟨by rw [hidx]; simpa using hk, ?_, ?_⟩
      · intro r' hr'
        simp only [hidx, List.getElem_cons_succ]
        rcases List.mem_cons.1 hr' with rfl | h
        · exact lt.le
        · rw [← hml]; exact h2 r' h
      · intro j hj'
        simp only [hidx, List.getElem_cons_succ]
        cases j with
        | zero => simpa using lt
        | succ j => simpa using hj j (by omega)

theorem closest_fold (x : K) (rs : List (Range K)) (d v : K) (hd : d = |x - v|) :
    let f := rs.foldl (closestStep x) (some d, v)
    |x - f.2| ≤ d ∧ (∀ r ∈ rs, |x - f.2| ≤ |x - r.clamp x|) ∧ (f.2 = v ∨ ∃ r ∈ rs, f.2 = r.clamp x) := by
  induction rs generalizing d v with
  | nil => simp [hd]
  | cons r rs ih =>
    intro f
    by_cases hc : |x - r.clamp x| < d
    · obtain ⟨h1, h2, h3⟩ := ih |x - r.clamp x| (r.clamp x) rfl
      have hf : f = rs.foldl (closestStep x)
          (some |x - r.clamp x|, r.clamp x) := by simp only [f, List.foldl_cons, closestStep, hc, if_true]
      rw [← hf] at h1 h2 h3
      refine ⟨h1.trans hc.le, ?_, Or.inr ?_⟩
      · intro r' hr'
        rcases List.mem_cons.1 hr' with rfl | h
        · exact h1
        · exact h2 r' h
      · rcases h3 with h3 | ⟨r', hr', e⟩
        · exact ⟨r, by simp, h3⟩
        · exact ⟨r', by simp [hr'], e⟩
    · obtain ⟨h1, h2, h3⟩ := ih d v hd
      have hf : f = rs.foldl (closestStep x)
          (some d, v) := by simp only [f, List.foldl_cons, closestStep, hc, if_false]
      rw [← hf] at h1 h2 h3
      refine ⟨h1, ?_, ?_⟩
      · intro r' hr'
        rcases List.mem_cons.1 hr' with rfl | h
        · exact h1.trans (not_lt.1 hc)
        · exact h2 r' h
      · rcases h3 with h3 | ⟨r', hr', e⟩
        · exact Or.inl h3
        · exact Or.inr ⟨r', by simp [hr'], e⟩

/-- C55, `ClampToClosest`: for a non-empty list of valid ranges the result lies in one of them and no point
of any of them is closer to `x`; for an empty list it is `x`. -/
theorem C55_clamp_to_closest (x : K) (rs : List (Range K)) (hv : ∀ r ∈ rs, r.valid) :
    (rs = [] → clampToClosest x rs = x) ∧
    (rs ≠ [] → (∃ r ∈ rs, r.contains (clampToClosest x rs)) ∧
      ∀ r ∈ rs, ∀ y, r.contains y → |x - clampToClosest x rs| ≤ |x - y|) := by
  refine ⟨?_, ?_⟩
  · rintro rfl; rfl
  · intro hne
    cases rs with
    | nil => exact absurd rfl hne
    | cons r rs =>
      obtain ⟨h1, h2, h3⟩ := closest_fold x rs |x - r.clamp x| (r.clamp x) rfl
      have hf : clampToClosest x (r :: rs) = (rs.foldl (closestStep x)
          (some |x - r.clamp x|, r.clamp x)).2 := rfl
      rw [← hf] at h1 h2 h3
      refine ⟨?_, ?_⟩
      · rcases h3 with h3 | ⟨r', hr', e⟩
        · exact ⟨r, by simp, by rw [h3]; exact clamp_mem r (hv r (by simp)) x⟩
        · exact ⟨r', by simp [hr'], by rw [e]; exact clamp_mem r' (hv r' (by simp [hr'])) x⟩
      · intro r' hr' y hy
        refine le_trans ?_ (clamp_nearest (hv r' hr') x y hy)
        rcases List.mem_cons.1 hr' with rfl | h
        · exact h1
        · exact h2 r' h

/-- C55, `Covers`: the smallest range containing every value of a non-empty array. -/
theorem C55_covers (v : K) (vs : List K) :
    ∃ r, covers (v :: vs) = some r ∧ (∀ x ∈ v :: vs, r.contains x) ∧ r.start ∈ v :: vs ∧ r.stop ∈ v :: vs := by
  have key : ∀ (vs : List K) (r : Range K), r.valid →
      let f := vs.foldl (fun r y => r.incl y) r
      f.start ≤ r.start ∧ r.stop ≤ f.stop ∧ (∀ x ∈ vs, f.contains x) ∧
      (f.start = r.start ∨ f.start ∈ vs) ∧ (f.stop = r.stop ∨ f.stop ∈ vs) := by
    intro vs
    induction vs with
    | nil => intro r hr; simp
    | cons y ys ih =>
      intro r hr
      have hv : (r.incl y).valid := by
        unfold valid incl at *; exact (min_le_left _ _).trans (hr.trans (le_max_left _ _))
      obtain ⟨h1, h2, h3, h4, h5⟩ := ih (r.incl y) hv
      simp only [List.foldl_cons]
      refine ⟨h1.trans (min_le_left _ _), le_trans (le_max_left _ _) h2, ?_, ?_, ?_⟩
      · intro x hx
        rcases List.mem_cons.1 hx with rfl | h
        · exact ⟨h1.trans (min_le_right _ _), le_trans (le_max_right _ _) h2⟩
        · exact h3 x h
      · rcases h4 with h4 | h4
        · rw [h4]; unfold incl; rcases min_choice r.start y with e | e
          · left; exact e
          · right; simp [e]
        · right; simp [h4]
      · rcases h5 with h5 | h5
        · rw [h5]; unfold incl; rcases max_choice r.stop y with e | e
          · left; exact e
          · right; simp [e]
        · right; simp [h5]
  obtain ⟨h1, h2, h3, h4, h5⟩ := key vs ⟨v, v⟩ (le_refl _)
  refine ⟨_, rfl, ?_, ?_, ?_⟩
  · intro x hx
    rcases List.mem_cons.1 hx with rfl | h
    · exact ⟨h1, h2⟩
    · exact h3 x h
  · rcases h4 with h4 | h4
    · rw [h4]; simp
    · simp [h4]
  · rcases h5 with h5 | h5
    · rw [h5]; simp
    · simp [h5]

example : indexOfLongest [(⟨0, 2⟩ : Range ℚ), ⟨5, 9⟩, ⟨1, 5⟩] = 1 ∧
    indexOfShortest [(⟨0, 2⟩ : Range ℚ), ⟨5, 6⟩, ⟨1, 2⟩] = 1 ∧
    clampToClosest (3 : ℚ) [⟨0, 2⟩, ⟨5, 6⟩] = 2 ∧
    covers [(3 : ℚ), 1, 2] = some ⟨1, 3⟩ := by decide +kernel

end Range
end Motive.Math
