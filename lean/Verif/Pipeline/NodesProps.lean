import Verif.Pipeline.Nodes
import Mathlib.Data.List.Chain
import Mathlib.Data.List.Sort
import Mathlib.Tactic.LinearCombination
/-!
# C51: the pipeline's curves
-/

namespace Motive.Pipeline
open Motive.Curve Motive.Matrix4

noncomputable section
open Classical

/-! ### Specification -/

/-- The cubic Hermite curve of width `w` between two values with slopes, at `x`. -/
def hermite (y0 s0 y1 s1 w x : ℝ) : ℝ :=
  y0 * (2 * (x / w) ^ 3 - 3 * (x / w) ^ 2 + 1) + s0 * w * ((x / w) ^ 3 - 2 * (x / w) ^ 2 + x / w) +
    y1 * (3 * (x / w) ^ 2 - 2 * (x / w) ^ 3) + s1 * w * ((x / w) ^ 3 - (x / w) ^ 2)

/-- The slope of `hermite`. -/
def hermiteSlope (y0 s0 y1 s1 w x : ℝ) : ℝ :=
  (y1 - y0) / w * (6 * (x / w) - 6 * (x / w) ^ 2) + s0 * (3 * (x / w) ^ 2 - 4 * (x / w) + 1) + s1 * (3 * (x / w) ^ 2 - 2 * (x / w))

theorem init_eval (y0 s0 y1 s1 : ℝ) {w : ℝ} (hw : 0 < w) (x : ℝ) :
    (Cubic.init ⟨y0, s0, y1, s1, w⟩).eval x = hermite y0 s0 y1 s1 w x := by
  simp only [Cubic.init, Cubic.eval, hermite, if_pos hw]
  field_simp
  ring

theorem init_deriv (y0 s0 y1 s1 : ℝ) {w : ℝ} (hw : 0 < w) (x : ℝ) :
    (Cubic.init ⟨y0, s0, y1, s1, w⟩).deriv x = hermiteSlope y0 s0 y1 s1 w x := by
  simp only [Cubic.init, Cubic.deriv, hermiteSlope, if_pos hw]
  field_simp
  ring

/-! ### `AddCurve` -/

theorem worstLoop_spec (c : Cubic ℝ) (vals : ℕ → ℝ) (first : ℕ) (inc : ℝ) (stop i : ℕ) (time : ℝ) (w : Worst)
    (ht : time = inc * i) (hi : 1 ≤ i) (hd : 0 ≤ w.diff)
    (h0 : w.idx = 0 → w.diff = 0 ∧ w.time = 0) (h1 : w.time = inc * w.idx)
    (hw : ∀ k, 1 ≤ k → k < i → |c.eval (inc * k) - vals (first + k)| ≤ w.diff) :
    let r := worstLoop c vals first inc stop i time w
    0 ≤ r.diff ∧ (r.idx = 0 → r.diff = 0) ∧ r.time = inc * r.idx ∧
      ∀ k, 1 ≤ k → k < i ∨ k < stop → |c.eval (inc * k) - vals (first + k)| ≤ r.diff := by
  induction i, time, w using worstLoop.induct c vals first inc stop with
  | case1 i time w hs ih =>
    rw [worstLoop, if_pos hs]
    have hstep : (worstStep c vals first i time w) = if w.diff < |c.eval time - vals (first + i)| then
        ⟨i, |c.eval time - vals (first + i)|, time⟩ else w := rfl
    have := ih (by rw [ht]; push_cast; ring) (by omega)
      (by rw [hstep]; split_ifs with h; exacts [abs_nonneg _, hd])
      (by rw [hstep]; split_ifs with h
          · intro h'; simp only at h'; omega
          · exact h0)
      (by rw [hstep]; split_ifs with h; exacts [ht, h1])
      (by
        intro k hk1 hk2
        rw [hstep]
        rcases Nat.lt_succ_iff_lt_or_eq.mp hk2 with hk | rfl
        · split_ifs with h
          · exact (hw k hk1 hk).trans h.le
          · exact hw k hk1 hk
        · rw [← ht]
          split_ifs with h
          · exact le_rfl
          · exact not_lt.mp h)
    refine ⟨this.1, this.2.1, this.2.2.1, fun k hk1 hk2 => this.2.2.2 k hk1 ?_⟩
    rcases hk2 with h | h
    · left; omega
    · exact Or.inr h
  | case2 i time w hs =>
    rw [worstLoop, if_neg hs]
    refine ⟨hd, fun h => (h0 h).1, h1, fun k hk1 hk2 => hw k hk1 ?_⟩
    omega

theorem Segment.worst_spec (s : Segment) (vals derivs : ℕ → ℝ) :
    0 ≤ (s.worst vals derivs).diff ∧ ((s.worst vals derivs).idx = 0 → (s.worst vals derivs).diff = 0) ∧
      (s.worst vals derivs).time =
        ((s.timeEnd - s.timeStart : ℤ) : ℝ) / ((s.count - 1 : ℕ) : ℝ) * (s.worst vals derivs).idx ∧
      ∀ k, 1 ≤ k → k < s.count - 1 →
        |(s.cubic vals derivs).eval (((s.timeEnd - s.timeStart : ℤ) : ℝ) / ((s.count - 1 : ℕ) : ℝ) * k) - vals (s.first + k)| ≤
          (s.worst vals derivs).diff := by
  have := worstLoop_spec (s.cubic vals derivs) vals s.first (((s.timeEnd - s.timeStart : ℤ) : ℝ) / ((s.count - 1 : ℕ) : ℝ))
    (s.count - 1) 1 (((s.timeEnd - s.timeStart : ℤ) : ℝ) / ((s.count - 1 : ℕ) : ℝ)) ⟨0, 0, 0⟩ (by simp) le_rfl le_rfl
    (fun _ => ⟨rfl, rfl⟩) (by simp) (by intro k h1 h2; omega)
  exact ⟨this.1, this.2.1, this.2.2.1, fun k h1 h2 => this.2.2.2 k h1 (Or.inr h2)⟩

/-- The node of a sample: its time, and its index in the arrays. -/
def sample (vals derivs : ℕ → ℝ) (k : ℤ × ℕ) : Node := ⟨k.1, vals k.2, derivs k.2⟩

/-- Two samples that follow each other in the result: time and index move on, and each skipped sample is within the tolerance of the cubic
between them, at the time that divides the time between them in proportion to its index. -/
def Follows (vals derivs : ℕ → ℝ) (tol : ℝ) (p q : ℤ × ℕ) : Prop :=
  p.1 ≤ q.1 ∧ p.2 < q.2 ∧ ∀ i, p.2 < i → i < q.2 →
    |(Cubic.init ⟨vals p.2, derivs p.2, vals q.2, derivs q.2, ((q.1 - p.1 : ℤ) : ℝ)⟩).eval
      (((q.1 - p.1 : ℤ) : ℝ) / ((q.2 - p.2 : ℕ) : ℝ) * ((i - p.2 : ℕ) : ℝ)) - vals i| ≤ tol

/-- The samples at the two ends of a segment. -/
def Segment.start (s : Segment) : ℤ × ℕ := (s.timeStart, s.first)
def Segment.stop (s : Segment) : ℤ × ℕ := (s.timeEnd, s.first + (s.count - 1))

/-- The segments of a stack join `p` to `q`. -/
def Chained : ℤ × ℕ → List Segment → ℤ × ℕ → Prop
  | p, [], q => p = q
  | p, s :: rest, q => s.start = p ∧ 2 ≤ s.count ∧ s.timeStart ≤ s.timeEnd ∧ Chained s.stop rest q

theorem leaf_follows (s : Segment) (vals derivs : ℕ → ℝ) {tol : ℝ} (h0 : 0 ≤ tol) (hc : 2 ≤ s.count) (ht : s.timeStart ≤ s.timeEnd)
    (hd : ¬ s.divide vals derivs tol) : Follows vals derivs tol s.start s.stop := by
  refine ⟨ht, by simp only [Segment.start, Segment.stop]; omega, fun i hi1 hi2 => ?_⟩
  simp only [Segment.start, Segment.stop] at hi1 hi2
  obtain ⟨h1, h2, -, h4⟩ := s.worst_spec vals derivs
  have hw : (s.worst vals derivs).diff ≤ tol := by
    by_contra hlt
    push Not at hlt
    apply hd
    refine ⟨?_, hlt⟩
    by_contra h
    have := h2 (by omega)
    linarith
  have := h4 (i - s.first) (by omega) (by omega)
  rw [show s.first + (i - s.first) = i by omega] at this
  simp only [Segment.start, Segment.stop]
  rw [show s.first + (s.count - 1) - s.first = s.count - 1 by omega]
  exact this.trans hw

theorem trunc_of_nonneg {x : ℝ} (h : 0 ≤ x) : trunc x = ⌊x⌋ := by simp [trunc, h]

theorem mid_bounds (s : Segment) (vals derivs : ℕ → ℝ) (ht : s.timeStart ≤ s.timeEnd) (h : 0 < (s.worst vals derivs).idx) :
    s.timeStart ≤ s.mid vals derivs ∧ s.mid vals derivs ≤ s.timeEnd := by
  obtain ⟨-, -, h3, -⟩ := s.worst_spec vals derivs
  have hlt := s.worst_lt vals derivs h
  have hw : (0 : ℝ) ≤ ((s.timeEnd - s.timeStart : ℤ) : ℝ) := by exact_mod_cast sub_nonneg.mpr ht
  have hc : (0 : ℝ) < ((s.count - 1 : ℕ) : ℝ) := by exact_mod_cast (by omega : 0 < s.count - 1)
  have hnn : 0 ≤ (s.worst vals derivs).time := by rw [h3]; positivity
  unfold Segment.mid
  rw [trunc_of_nonneg hnn]
  refine ⟨by have := Int.floor_nonneg.mpr hnn; omega, ?_⟩
  have : (s.worst vals derivs).time ≤ ((s.timeEnd - s.timeStart : ℤ) : ℝ) := by
    rw [h3, div_mul_eq_mul_div, div_le_iff₀ hc]
    apply mul_le_mul_of_nonneg_left _ hw
    exact_mod_cast (by omega : (s.worst vals derivs).idx ≤ s.count - 1)
  have := Int.floor_le_floor this
  rw [Int.floor_intCast] at this
  omega

/-- The division point when the samples are a whole number of ticks apart. -/
theorem mid_uniform (s : Segment) (vals derivs : ℕ → ℝ) {inc : ℤ} (hi : 0 ≤ inc) (hs : s.timeEnd - s.timeStart = inc * ((s.count - 1 : ℕ) : ℤ))
    (h : 0 < (s.worst vals derivs).idx) : s.mid vals derivs = s.timeStart + inc * (s.worst vals derivs).idx := by
  obtain ⟨-, -, h3, -⟩ := s.worst_spec vals derivs
  have hlt := s.worst_lt vals derivs h
  have hc : ((s.count - 1 : ℕ) : ℝ) ≠ 0 := by exact_mod_cast (by omega : s.count - 1 ≠ 0)
  have : (s.worst vals derivs).time = ((inc * (s.worst vals derivs).idx : ℤ) : ℝ) := by
    rw [h3, hs]; push_cast; field_simp
  unfold Segment.mid
  rw [this, trunc_of_nonneg (by exact_mod_cast mul_nonneg hi (Int.natCast_nonneg _)), Int.floor_intCast]

/-- All segments of a stack have samples `inc` ticks apart. -/
def Uniform (inc : ℤ) (segs : List Segment) : Prop := ∀ s ∈ segs, s.timeEnd - s.timeStart = inc * ((s.count - 1 : ℕ) : ℤ)

theorem uniform_left_right {s : Segment} {inc : ℤ} (hi : 0 ≤ inc) (hs : s.timeEnd - s.timeStart = inc * ((s.count - 1 : ℕ) : ℤ))
    (vals derivs : ℕ → ℝ) (h : 0 < (s.worst vals derivs).idx) :
    Uniform inc [s.left vals derivs, s.right vals derivs] := by
  have hm := mid_uniform s vals derivs hi hs h
  have hlt := s.worst_lt vals derivs h
  intro t ht
  simp only [List.mem_cons, List.not_mem_nil, or_false] at ht
  rcases ht with rfl | rfl
  · simp only [Segment.left]; rw [hm]; push_cast; ring
  · simp only [Segment.right]
    rw [hm, show ((s.count - (s.worst vals derivs).idx - 1 : ℕ) : ℤ) = ((s.count - 1 : ℕ) : ℤ) - (s.worst vals derivs).idx by omega]
    linear_combination hs

/-- From one sample to another, `inc` ticks for each step of the index. -/
def InStep (inc : ℤ) (p q : ℤ × ℕ) : Prop := q.1 - p.1 = inc * ((q.2 : ℤ) - p.2)

/-- The invariant of the loop: what it appends. -/
theorem addCurveLoop_spec (vals derivs : ℕ → ℝ) {tol : ℝ} (h0 : 0 ≤ tol) (q : ℤ × ℕ) (segs : List Segment) (n : List Node) :
    ∀ p, Chained p segs q → ∃ ks, List.IsChain (Follows vals derivs tol) (p :: ks) ∧ (p :: ks).getLast? = some q ∧
      (addCurveLoop vals derivs tol segs n = if segs = [] then n else
        (if n.getLast? = some (sample vals derivs p) then n else n ++ [sample vals derivs p]) ++ ks.map (sample vals derivs)) ∧
      ∀ inc, 0 ≤ inc → Uniform inc segs → List.IsChain (InStep inc) (p :: ks) := by
  induction segs, n using addCurveLoop.induct vals derivs tol with
  | case1 n => intro p hp; exact ⟨[], by simp, by rw [show p = q from hp]; rfl, by simp [addCurveLoop], by simp⟩
  | case2 s rest n hd ih =>
    rintro p ⟨rfl, hc, ht, hrest⟩
    obtain ⟨m1, m2⟩ := mid_bounds s vals derivs ht hd.1
    have hlt := s.worst_lt vals derivs hd.1
    have hidx := hd.1
    obtain ⟨ks, k1, k2, k3, k4⟩ := ih s.start ⟨rfl, by simp only [Segment.left]; omega, m1, by
      refine ⟨?_, by simp only [Segment.right]; omega, m2, ?_⟩
      · simp only [Segment.left, Segment.right, Segment.start, Segment.stop]; congr 1
      · have : (s.right vals derivs).stop = s.stop := by
          simp only [Segment.right, Segment.stop]; congr 1; omega
        rw [this]; exact hrest⟩
    refine ⟨ks, k1, k2, ?_, ?_⟩
    · rw [addCurveLoop, dif_pos hd, k3, if_neg (List.cons_ne_nil _ _), if_neg (List.cons_ne_nil _ _)]
    · intro inc hi hu
      apply k4 inc hi
      have hlr := uniform_left_right hi (hu s (by simp)) vals derivs hd.1
      intro t ht
      rcases List.mem_cons.mp ht with rfl | ht
      · exact hlr _ (by simp)
      rcases List.mem_cons.mp ht with rfl | ht
      · exact hlr _ (by simp)
      · exact hu t (by simp [ht])
  | case3 s rest n hd ih =>
    rintro p ⟨rfl, hc, ht, hrest⟩
    obtain ⟨ks, k1, k2, k3, k4⟩ := ih s.stop hrest
    have hf := leaf_follows s vals derivs h0 hc ht hd
    have he : s.emit vals derivs n = (if n.getLast? = some (sample vals derivs s.start) then n
        else n ++ [sample vals derivs s.start]) ++ [sample vals derivs s.stop] := rfl
    refine ⟨s.stop :: ks, ?_, by rw [List.getLast?_cons_cons]; exact k2, ?_, ?_⟩
    · exact List.isChain_cons_cons.mpr ⟨hf, k1⟩
    swap
    · intro inc hi hu
      refine List.isChain_cons_cons.mpr ⟨?_, k4 inc hi (fun t ht => hu t (by simp [ht]))⟩
      have := hu s (by simp)
      simp only [InStep, Segment.start, Segment.stop]
      rw [this]; push_cast; ring
    rw [addCurveLoop, dif_neg hd, k3, if_neg (List.cons_ne_nil s rest)]
    rw [he]
    by_cases hr : rest = []
    · rw [if_pos hr]
      subst hr
      have hks : ks = [] := by
        cases ks with
        | nil => rfl
        | cons k ks =>
          exfalso
          have hq : s.stop = q := hrest
          rw [← hq] at k2
          have hmono : ∀ (l : List (ℤ × ℕ)) (a b : ℤ × ℕ), List.IsChain (Follows vals derivs tol) (a :: l) →
              (a :: l).getLast? = some b → l ≠ [] → a.2 < b.2 := by
            intro l
            induction l with
            | nil => intro a b _ _ h; exact absurd rfl h
            | cons x l ihl =>
              intro a b h1 h2 _
              obtain ⟨h3, h4⟩ := List.isChain_cons_cons.mp h1
              rw [List.getLast?_cons_cons] at h2
              rcases l with _ | ⟨y, l⟩
              · simp at h2; rw [← h2]; exact h3.2.1
              · exact h3.2.1.trans (ihl x b h4 h2 (by simp))
          exact absurd (hmono _ _ _ k1 k2 (by simp)) (lt_irrefl _)
      rw [hks]; rfl
    · rw [if_neg hr, if_pos (by rw [List.getLast?_append]; simp)]
      simp

/-- `AddCurve` terminates and appends a chronological list of nodes that starts with the first
sample at the start time and ends with the last sample at the end time; each node has the value and the slope of a sample, and each sample
between two nodes is within the tolerance of the cubic between them. -/
theorem addCurve_spec {tol : ℝ} (h0 : 0 ≤ tol) (n : List Node) {timeStart timeEnd : ℤ} (ht : timeStart ≤ timeEnd) (vals derivs : ℕ → ℝ)
    {count : ℕ} (hc : 2 ≤ count) : ∃ ks : List (ℤ × ℕ),
      addCurve tol n timeStart timeEnd vals derivs count =
        some ((if n.getLast? = some ⟨timeStart, vals 0, derivs 0⟩ then n else n ++ [⟨timeStart, vals 0, derivs 0⟩]) ++
          ks.map (sample vals derivs)) ∧
      List.IsChain (Follows vals derivs tol) ((timeStart, 0) :: ks) ∧ ks.getLast? = some (timeEnd, count - 1) ∧
      ∀ inc, 0 ≤ inc → timeEnd - timeStart = inc * ((count - 1 : ℕ) : ℤ) → List.IsChain (InStep inc) ((timeStart, 0) :: ks) := by
  obtain ⟨ks, k1, k2, k3, k4⟩ := addCurveLoop_spec vals derivs h0 (timeEnd, count - 1) [⟨timeStart, timeEnd, 0, count⟩] n (timeStart, 0)
    ⟨rfl, hc, ht, by simp [Chained, Segment.stop]⟩
  refine ⟨ks, ?_, k1, ?_, fun inc hi hu => k4 inc hi (by intro s hs; rw [List.mem_singleton.mp hs]; exact hu)⟩
  · rw [addCurve, if_neg (by omega), k3, if_neg (by simp)]; rfl
  · rcases ks with _ | ⟨k, ks⟩
    · simp only [List.getLast?_singleton, Option.some.injEq, Prod.mk.injEq] at k2; omega
    · rw [List.getLast?_cons_cons] at k2; exact k2

/-- A single sample is held from the start to the end. -/
theorem C51_add_curve_single {tol : ℝ} (n : List Node) (timeStart timeEnd : ℤ) (vals derivs : ℕ → ℝ) :
    addCurve tol n timeStart timeEnd vals derivs 1 =
      some ((if n.getLast? = some ⟨timeStart, vals 0, derivs 0⟩ then n else n ++ [⟨timeStart, vals 0, derivs 0⟩]) ++
        [⟨timeEnd, vals 0, derivs 0⟩]) := by
  have hd : ¬ Segment.divide ⟨timeStart, timeEnd, 0, 1⟩ vals derivs tol := by
    intro h
    have := Segment.worst_lt _ vals derivs h.1
    simp at this
  rw [addCurve, if_neg (by omega), addCurveLoop, dif_neg hd, addCurveLoop]
  rfl

/-- The cubic between two nodes at time `t`, as a Hermite curve; if they have the same time, it has no meaning. -/
def curveBetween (a b : Node) (t : ℝ) : ℝ := hermite a.val a.deriv b.val b.deriv (b.time - a.time) (t - a.time)
/-- Its slope. -/
def slopeBetween (a b : Node) (t : ℝ) : ℝ := hermiteSlope a.val a.deriv b.val b.deriv (b.time - a.time) (t - a.time)

/-- C51: for every curve of two or more samples, `AddCurve` terminates and appends nodes in chronological order, from the first sample at the
start time to the last sample at the end time.  Each node has the value and the slope of a sample, in the order of the samples.  The first
node is left out if the channel already ends with it. -/
theorem C51_add_curve {tol : ℝ} (h0 : 0 ≤ tol) (n : List Node) {timeStart timeEnd : ℤ} (ht : timeStart ≤ timeEnd) (vals derivs : ℕ → ℝ)
    {count : ℕ} (hc : 2 ≤ count) : ∃ ks : List (ℤ × ℕ),
      addCurve tol n timeStart timeEnd vals derivs count =
        some ((if n.getLast? = some ⟨timeStart, vals 0, derivs 0⟩ then n else n ++ [⟨timeStart, vals 0, derivs 0⟩]) ++
          ks.map (sample vals derivs)) ∧
      List.IsChain (fun p q => p.1 ≤ q.1 ∧ p.2 < q.2) ((timeStart, 0) :: ks) ∧ ks.getLast? = some (timeEnd, count - 1) := by
  obtain ⟨ks, k1, k2, k3, -⟩ := addCurve_spec h0 n ht vals derivs hc
  exact ⟨ks, k1, k2.imp (fun _ _ h => ⟨h.1, h.2.1⟩), k3⟩

/-- C51: if the samples are a whole number of ticks apart, then moreover each node is a sample at its own time, and each sample that is left
out is within the tolerance of the cubic between its neighbours, at its own time. -/
theorem C51_add_curve_accuracy {tol : ℝ} (h0 : 0 ≤ tol) (n : List Node) (timeStart : ℤ) {inc : ℤ} (hi : 0 < inc) (vals derivs : ℕ → ℝ)
    {count : ℕ} (hc : 2 ≤ count) : ∃ ks : List ℕ,
      addCurve tol n timeStart (timeStart + inc * ((count - 1 : ℕ) : ℤ)) vals derivs count =
        some ((if n.getLast? = some ⟨timeStart, vals 0, derivs 0⟩ then n else n ++ [⟨timeStart, vals 0, derivs 0⟩]) ++
          ks.map (fun k => ⟨timeStart + inc * k, vals k, derivs k⟩)) ∧
      ks.getLast? = some (count - 1) ∧
      List.IsChain (fun p q : ℕ => p < q ∧ ∀ i : ℕ, p < i → i < q →
        |curveBetween ⟨timeStart + inc * p, vals p, derivs p⟩ ⟨timeStart + inc * q, vals q, derivs q⟩ (timeStart + inc * i) - vals i| ≤ tol)
        (0 :: ks) := by
  have ht : timeStart ≤ timeStart + inc * ((count - 1 : ℕ) : ℤ) := by
    have := mul_nonneg hi.le (Int.natCast_nonneg (count - 1)); omega
  obtain ⟨ks, k1, k2, k3, k4⟩ := addCurve_spec h0 n ht vals derivs hc
  have k5 := k4 inc hi.le (by ring)
  have key : ∀ (l : List (ℤ × ℕ)) (p : ℤ × ℕ), p.1 = timeStart + inc * p.2 → List.IsChain (InStep inc) (p :: l) →
      List.IsChain (Follows vals derivs tol) (p :: l) → (∀ k ∈ l, k.1 = timeStart + inc * k.2) ∧
      List.IsChain (fun p q : ℕ => p < q ∧ ∀ i : ℕ, p < i → i < q →
        |curveBetween ⟨timeStart + inc * p, vals p, derivs p⟩ ⟨timeStart + inc * q, vals q, derivs q⟩ (timeStart + inc * i) - vals i| ≤ tol)
        (p.2 :: l.map Prod.snd) := by
    intro l
    induction l with
    | nil => intro p _ _ _; simp
    | cons q l ih =>
      intro p hp h1 h2
      obtain ⟨a1, a2⟩ := List.isChain_cons_cons.mp h1
      obtain ⟨b1, b2⟩ := List.isChain_cons_cons.mp h2
      have hq : q.1 = timeStart + inc * q.2 := by unfold InStep at a1; linear_combination a1 + hp
      obtain ⟨c1, c2⟩ := ih q hq a2 b2
      refine ⟨by intro k hk; rcases List.mem_cons.mp hk with rfl | hk; exacts [hq, c1 k hk], ?_⟩
      rw [List.map_cons]
      refine List.isChain_cons_cons.mpr ⟨⟨b1.2.1, fun i i1 i2 => ?_⟩, c2⟩
      have := b1.2.2 i i1 i2
      have hpq : p.2 < q.2 := b1.2.1
      have hw : ((q.1 - p.1 : ℤ) : ℝ) = inc * ((q.2 - p.2 : ℕ) : ℝ) := by
        rw [Nat.cast_sub hpq.le, hq, hp]; push_cast; ring
      have hpos : (0 : ℝ) < ((q.2 - p.2 : ℕ) : ℝ) := by exact_mod_cast (by omega : 0 < q.2 - p.2)
      have hincR : (0 : ℝ) < inc := by exact_mod_cast hi
      rw [init_eval _ _ _ _ (by rw [hw]; positivity), hw] at this
      unfold curveBetween
      have e1 : (((timeStart + inc * (q.2 : ℤ) : ℤ) : ℝ) - ((timeStart + inc * (p.2 : ℤ) : ℤ) : ℝ)) = inc * ((q.2 - p.2 : ℕ) : ℝ) := by
        rw [Nat.cast_sub hpq.le]; push_cast; ring
      have e2 : ((timeStart : ℝ) + inc * (i : ℝ)) - ((timeStart + inc * (p.2 : ℤ) : ℤ) : ℝ) =
          inc * ((q.2 - p.2 : ℕ) : ℝ) / ((q.2 - p.2 : ℕ) : ℝ) * ((i - p.2 : ℕ) : ℝ) := by
        rw [mul_div_assoc, div_self hpos.ne', mul_one, Nat.cast_sub i1.le]; push_cast; ring
      rw [e1, e2]
      exact this
  obtain ⟨c1, c2⟩ := key ks (timeStart, 0) (by simp) k5 k2
  refine ⟨ks.map Prod.snd, ?_, ?_, c2⟩
  · rw [k1, List.map_map]
    congr 2
    apply List.map_congr_left
    intro k hk
    simp only [sample, Function.comp, c1 k hk]
  · rw [List.getLast?_map, k3]; rfl

end
end Motive.Pipeline
