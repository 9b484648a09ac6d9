import Verif.Spline.AddProps
import Verif.Math.RangeProps

/-!
# Finding the segment of an x (C23, C24)
-/

namespace Motive.Splines
open Motive.Math Motive.Curve

/-- `upperBound` returns the end of the prefix of nodes whose x is at most `q`. -/
theorem upperBound_spec {l : List Node} (hs : SortedX l) (q : ℕ) : ∀ (len first : ℕ), first + len ≤ l.length →
    (∀ i a, i < first → l[i]? = some a → a.x ≤ q) →
    (∀ i a, first + len ≤ i → l[i]? = some a → q < a.x) →
    ∃ u, Spline.upperBound l q first len = some u ∧ u ≤ l.length ∧
      (∀ i a, i < u → l[i]? = some a → a.x ≤ q) ∧ (∀ i a, u ≤ i → l[i]? = some a → q < a.x) := by
  intro len
  induction len using Nat.strong_induction_on with
  | _ len ih =>
    intro first hle h1 h2
    rw [Spline.upperBound]
    by_cases h0 : len = 0
    · subst h0; rw [if_pos rfl]; exact ⟨first, rfl, hle, h1, h2⟩
    · rw [if_neg h0]
      have hmid : first + len / 2 < l.length := by omega
      obtain ⟨n, hn⟩ : ∃ n, l[first + len / 2]? = some n := ⟨_, List.getElem?_eq_getElem hmid⟩
      rw [hn]
      simp only
      split
      · rename_i hq
        refine ih (len / 2) (by omega) first (by omega) h1 ?_
        intro i a hi ha
        exact lt_of_lt_of_le hq (hs.le hi hn ha)
      · rename_i hq
        refine ih (len - len / 2 - 1) (by omega) (first + len / 2 + 1) (by omega) ?_ ?_
        · intro i a hi ha
          have := hs.le (show i ≤ first + len / 2 by omega) ha hn
          omega
        · intro i a hi ha
          exact h2 i a (by omega) ha

namespace Spline

/-- The number of nodes leaves room for the special indices. -/
def Indexable (s : Spline) : Prop := 0 < s.nodes.length ∧ s.nodes.length ≤ 65534

theorem containsX_iff {s : Spline} {q i : ℕ} :
    s.containsX q i = true ↔ ∃ a b, s.nodes[i]? = some a ∧ s.nodes[i + 1]? = some b ∧ a.x ≤ q ∧ q ≤ b.x := by
  unfold containsX
  cases h1 : s.nodes[i]? <;> cases h2 : s.nodes[i + 1]? <;> simp

theorem guessOk_iff {s : Spline} (hg : 0 < s.g) {q i : ℕ} :
    s.guessOk q i = true ↔ ∃ a b, s.nodes[i]? = some a ∧ s.nodes[i + 1]? = some b ∧ a.x ≤ q ∧ q ≤ b.x ∧ a.x < b.x := by
  have hw : ∀ a b : Node, 0 < s.widthX a b ↔ a.x < b.x := by
    intro a b
    simp only [widthX]
    rw [mul_pos_iff_of_pos_right hg, sub_pos]
    exact Nat.cast_lt
  unfold guessOk
  rw [Bool.and_eq_true, containsX_iff]
  constructor
  · rintro ⟨⟨a, b, ha, hb, h1, h2⟩, h3⟩
    rw [ha, hb] at h3
    simp only [decide_eq_true_eq] at h3
    exact ⟨a, b, ha, hb, h1, h2, (hw a b).mp h3⟩
  · rintro ⟨a, b, ha, hb, h1, h2, h3⟩
    refine ⟨⟨a, b, ha, hb, h1, h2⟩, ?_⟩
    rw [ha, hb]
    simpa using (hw a b).mpr h3

/-- Between the first and last x the search succeeds with a segment of positive width that contains `q`; the
binary search returns the only segment with `a.x ≤ q < b.x`. -/
theorem searchIndex_spec {s : Spline} (hs : s.WF) {q guess : ℕ} {f b : Node} (hf : s.nodes.head? = some f)
    (hb : s.nodes.getLast? = some b) (h1 : f.x ≤ q) (h2 : q < b.x) :
    ∃ i a c, s.searchIndex q guess = some i ∧ s.nodes[i]? = some a ∧ s.nodes[i + 1]? = some c ∧
      a.x ≤ q ∧ q ≤ c.x ∧ a.x < c.x ∧ (i = guess ∨ q < c.x) := by
  unfold searchIndex
  by_cases hgs : s.guessOk q guess = true
  · rw [if_pos hgs]
    obtain ⟨a, c, ha, hc, e1, e2, e3⟩ := (guessOk_iff hs.g_pos).mp hgs
    exact ⟨guess, a, c, rfl, ha, hc, e1, e2, e3, Or.inl rfl⟩
  · rw [if_neg hgs]
    obtain ⟨u, hu, hule, u1, u2⟩ := upperBound_spec hs.sorted q s.nodes.length 0 (by omega) (by omega) (by
      intro i a hi ha
      have := (List.getElem?_eq_some_iff.mp ha).1
      omega)
    obtain ⟨hl, hlen⟩ := getLast?_eq_getElem hb
    have hf0 : s.nodes[0]? = some f := by rw [← List.head?_eq_getElem?]; exact hf
    have hu1 : 1 ≤ u := by
      by_contra hc
      have := u2 0 f (by omega) hf0
      omega
    have hu2 : u ≤ s.nodes.length - 1 := by
      by_contra hc
      have := u1 (s.nodes.length - 1) b (by omega) hl
      omega
    obtain ⟨a, ha⟩ : ∃ a, s.nodes[u - 1]? = some a := ⟨_, List.getElem?_eq_getElem (by omega)⟩
    obtain ⟨c, hc⟩ : ∃ c, s.nodes[u]? = some c := ⟨_, List.getElem?_eq_getElem (by omega)⟩
    have ea := u1 (u - 1) a (by omega) ha
    have ec := u2 u c le_rfl hc
    have hc' : s.nodes[u - 1 + 1]? = some c := by rw [show u - 1 + 1 = u by omega]; exact hc
    refine ⟨u - 1, a, c, ?_, ha, hc', ea, ec.le, by omega, Or.inr ec⟩
    unfold binarySearch
    rw [hu]
    simp only [Option.bind_some]
    rw [if_pos (by omega)]
    simp only [Option.bind_some]
    rw [if_pos (containsX_iff.mpr ⟨a, c, ha, hc', ea, ec.le⟩)]

/-- C23: `IndexForX` always succeeds on a spline built with `AddNode`, whatever the guess.  With `q` the quantised
x: the result is `kBeforeSplineIndex` exactly if `q` is before the first node; `kAfterSplineIndex` exactly if `q`
is after the last node (or on it, if that is the only node); otherwise it is a segment that contains `q`, of
positive width unless `q` is the last x. -/
theorem C23_index_for_x {s : Spline} (hs : s.WF) (hn : s.Indexable) {x : ℝ} {q : ℤ} (hq : quantizeX x s.g = some q)
    (guess : ℕ) :
    ∃ i f b, s.indexForX x guess = some i ∧ s.nodes[0]? = some f ∧ s.nodes[s.nodes.length - 1]? = some b ∧
      (i = kBefore ↔ q < f.x) ∧
      (i = kAfter ↔ (b.x < q ∨ (q = b.x ∧ s.nodes.length = 1))) ∧
      (f.x ≤ q → q ≤ b.x → 2 ≤ s.nodes.length →
        ∃ a c, i + 1 < s.nodes.length ∧ s.nodes[i]? = some a ∧ s.nodes[i + 1]? = some c ∧ (a.x : ℤ) ≤ q ∧ q ≤ c.x ∧
          (q < b.x → a.x < c.x) ∧ (q = b.x → i + 2 = s.nodes.length)) := by
  obtain ⟨hpos, hmax⟩ := hn
  obtain ⟨f, hf0⟩ : ∃ f, s.nodes[0]? = some f := ⟨_, List.getElem?_eq_getElem hpos⟩
  obtain ⟨b, hbl⟩ : ∃ b, s.nodes[s.nodes.length - 1]? = some b := ⟨_, List.getElem?_eq_getElem (by omega)⟩
  have hf : s.nodes.head? = some f := by rw [List.head?_eq_getElem?]; exact hf0
  have hb : s.nodes.getLast? = some b := by rw [List.getLast?_eq_getElem?]; exact hbl
  have hfb : f.x ≤ b.x := hs.sorted.le (by omega) hf0 hbl
  have hone : s.nodes.length = 1 → f = b := by
    intro h1; rw [h1] at hbl; simp only [Nat.sub_self] at hbl; rw [hf0] at hbl; exact Option.some.inj hbl
  unfold indexForX
  rw [hq, hf, hb]
  simp only [Option.bind_some]
  by_cases c1 : q < f.x
  · rw [if_pos c1]
    refine ⟨kBefore, f, b, rfl, hf0, hbl, by simp [c1], ?_, by omega⟩
    simp only [kBefore, kAfter]
    omega
  · rw [if_neg c1]
    by_cases c2 : q = b.x ∧ 2 ≤ s.nodes.length
    · rw [if_pos c2]
      obtain ⟨a, ha⟩ : ∃ a, s.nodes[s.nodes.length - 2]? = some a := ⟨_, List.getElem?_eq_getElem (by omega)⟩
      have hc : s.nodes[s.nodes.length - 2 + 1]? = some b := by
        rw [show s.nodes.length - 2 + 1 = s.nodes.length - 1 by omega]; exact hbl
      have hab := hs.sorted _ a b ha hc
      refine ⟨_, f, b, rfl, hf0, hbl, ?_, ?_, fun _ _ _ =>
        ⟨a, b, by omega, ha, hc, by omega, by omega, by omega, by omega⟩⟩
      · simp only [kBefore]; omega
      · simp only [kAfter]; omega
    · rw [if_neg c2]
      by_cases c3 : (b.x : ℤ) ≤ q
      · rw [if_pos c3]
        refine ⟨kAfter, f, b, rfl, hf0, hbl, ?_, ?_, ?_⟩
        · simp only [kBefore, kAfter]; omega
        · simp only [true_iff]; omega
        · intro _ _ _; omega
      · rw [if_neg c3]
        obtain ⟨i, a, c, hi, ha, hc, e1, e2, e3, e4⟩ := searchIndex_spec hs (q := q.toNat) (guess := guess) hf hb
          (by omega) (by omega)
        have hlt := (List.getElem?_eq_some_iff.mp hc).1
        refine ⟨i, f, b, hi, hf0, hbl, ?_, ?_, fun _ _ _ => ⟨a, c, hlt, ha, hc, by omega, by omega, fun _ => e3, by omega⟩⟩
        · simp only [kBefore]; omega
        · simp only [kAfter]; omega

/-- C23: `ClampIndex` of such an index is a node of the spline, the first or last one if x is before or after the spline, with the x of that
node. Otherwise it is a segment that contains the quantised x, and x is left alone, even if it is up to half a grain outside. -/
theorem C23_clamp_index {s : Spline} (hs : s.WF) (hn : s.Indexable) {x : ℝ} {q : ℤ} (hq : quantizeX x s.g = some q) (guess : ℕ) :
    ∃ i j y f b, s.indexForX x guess = some i ∧ s.clampIndex i x = some (j, y) ∧ s.nodes[0]? = some f ∧
      s.nodes[s.nodes.length - 1]? = some b ∧ j < s.nodes.length ∧
      (q < f.x → j = 0 ∧ y = f.x * s.g) ∧ ((b.x : ℤ) < q → j = s.nodes.length - 1 ∧ y = b.x * s.g) ∧
      (f.x ≤ q → q ≤ b.x → 2 ≤ s.nodes.length →
        y = x ∧ ∃ a c, s.nodes[j]? = some a ∧ s.nodes[j + 1]? = some c ∧ (a.x : ℤ) ≤ q ∧ q ≤ c.x) := by
  obtain ⟨i, f, b, hi, hf, hb, h1, h2, h3⟩ := C23_index_for_x hs hn hq guess
  have hpos := hn.1
  have hfb : f.x ≤ b.x := hs.sorted.le (by omega) hf hb
  by_cases c1 : q < f.x
  · refine ⟨i, 0, f.X s.g, f, b, hi, ?_, hf, hb, hpos, fun _ => ⟨rfl, rfl⟩, by omega, by omega⟩
    unfold clampIndex startX
    rw [if_pos (h1.mpr c1), List.head?_eq_getElem?, hf]
    rfl
  · have n1 : i ≠ kBefore := fun h => c1 (h1.mp h)
    by_cases c2 : (b.x : ℤ) < q ∨ (q = b.x ∧ s.nodes.length = 1)
    · refine ⟨i, s.nodes.length - 1, b.X s.g, f, b, hi, ?_, hf, hb, by omega, by omega, fun _ => ⟨rfl, rfl⟩, by omega⟩
      unfold clampIndex endX
      rw [if_neg n1, if_pos (h2.mpr c2), List.getLast?_eq_getElem?, hb]
      rfl
    · have n2 : i ≠ kAfter := fun h => c2 (h2.mp h)
      have hle : q ≤ b.x := by omega
      have hlen : 2 ≤ s.nodes.length := by
        by_contra h
        have h1' : s.nodes.length = 1 := by omega
        rw [h1'] at hb
        simp only [Nat.sub_self] at hb
        rw [hf] at hb
        cases hb
        omega
      obtain ⟨a, c, e1, e2, e3, e4, e5, -⟩ := h3 (by omega) hle hlen
      refine ⟨i, i, x, f, b, hi, ?_, hf, hb, by omega, by omega, by omega, fun _ _ _ => ⟨rfl, a, c, e2, e3, e4, e5⟩⟩
      unfold clampIndex
      rw [if_neg n1, if_neg n2, if_pos (by omega)]

/-- C23: at an x whose quantised value is not the x of any node, the guess has no influence. -/
theorem C23_guess_irrelevant {s : Spline} (hs : s.WF) (hn : s.Indexable) {x : ℝ} {q : ℤ}
    (hq : quantizeX x s.g = some q) (hnode : ∀ n ∈ s.nodes, (n.x : ℤ) ≠ q) (g1 g2 : ℕ) :
    s.indexForX x g1 = s.indexForX x g2 := by
  obtain ⟨i, f, b, hi, hf0, hbl, hi1, hi2, hi3⟩ := C23_index_for_x hs hn hq g1
  obtain ⟨j, f', b', hj, hf0', hbl', hj1, hj2, hj3⟩ := C23_index_for_x hs hn hq g2
  rw [hf0] at hf0'; cases hf0'
  rw [hbl] at hbl'; cases hbl'
  rw [hi, hj]
  congr 1
  by_cases c1 : q < f.x
  · rw [hi1.mpr c1, hj1.mpr c1]
  · by_cases c2 : b.x < q ∨ (q = b.x ∧ s.nodes.length = 1)
    · rw [hi2.mpr c2, hj2.mpr c2]
    · have h2 : 2 ≤ s.nodes.length := by
        by_contra hlt
        have h1 : s.nodes.length = 1 := by have := hn.1; omega
        rw [h1] at hbl; simp only [Nat.sub_self] at hbl; rw [hf0] at hbl; cases hbl
        omega
      obtain ⟨a, c, -, ha, hc, e1, e2, -⟩ := hi3 (by omega) (by omega) h2
      obtain ⟨a', c', -, ha', hc', e1', e2', -⟩ := hj3 (by omega) (by omega) h2
      have m1 := hnode a (List.mem_of_getElem? ha)
      have m2 := hnode c (List.mem_of_getElem? hc)
      have m1' := hnode a' (List.mem_of_getElem? ha')
      have m2' := hnode c' (List.mem_of_getElem? hc')
      rcases lt_trichotomy i j with h | h | h
      · have := hs.sorted.le (show i + 1 ≤ j by omega) hc ha'; omega
      · exact h
      · have := hs.sorted.le (show j + 1 ≤ i by omega) hc' ha; omega

/-- On the x of an interior node the guess does matter: both neighbouring segments can be returned. -/
theorem C23_guess_matters_on_nodes :
    let s : Spline := ⟨⟨0, 1⟩, 1, [⟨0, 0, 0⟩, ⟨1, 0, 0⟩, ⟨2, 0, 0⟩], 7⟩
    s.indexForX 1 0 = some 0 ∧ s.indexForX 1 1 = some 1 := by
  have hq : quantizeX 1 1 = some 1 := by
    rw [quantizeX_eq (by norm_num) (by norm_num) (by norm_num)]
    norm_num [Int.floor_eq_iff]
  constructor <;> simp [indexForX, hq, searchIndex, guessOk, containsX, widthX]

/-- The real-valued reading of C23 for x that are not below minus half a grain. -/
theorem quantizeX_near {x g : ℝ} {q : ℤ} (hg : 0 < g) (h0 : -(g / 2) ≤ x) (hq : quantizeX x g = some q) :
    0 ≤ q ∧ (q : ℝ) * g - g / 2 ≤ x ∧ x < (q : ℝ) * g + g / 2 := by
  have hn : 0 ≤ x / g + 1 / 2 := by
    have : -(1 / 2) ≤ x / g := by rw [le_div_iff₀ hg]; linarith
    linarith
  unfold quantizeX toInt at hq
  rw [if_neg hg.ne', trunc_of_nonneg hn] at hq
  split at hq
  · simp only [Option.some.injEq] at hq
    subst hq
    have f1 := Int.floor_le (x / g + 1 / 2)
    have f2 := Int.lt_floor_add_one (x / g + 1 / 2)
    have hx : x = x / g * g := by field_simp
    refine ⟨Int.floor_nonneg.mpr hn, ?_, ?_⟩ <;> nlinarith
  · simp at hq

/-- C24: with `repeat`, an x that is past the end comes back as the representative of x modulo `EndX()` inside
`(0, EndX()]`, together with the index that `IndexForX` gives for it, which is never `kAfterSplineIndex` if the
spline has a segment; an x that is not past the end, or without `repeat`, is unchanged. -/
theorem C24_repeat {s : Spline} (hs : s.WF) (hn : s.Indexable) {x : ℝ} {q : ℤ} (hq : quantizeX x s.g = some q)
    (guess : ℕ) (rep : Bool) {e : ℝ} (he : s.endX = some e) (hpos : 0 < e) :
    ∃ i fx, s.indexForXRepeat x guess rep = some (i, fx) ∧
      (rep = false → fx = x ∧ s.indexForX x guess = some i) ∧
      (s.indexForX x guess ≠ some kAfter → fx = x ∧ s.indexForX x guess = some i) ∧
      (rep = true → s.indexForX x guess = some kAfter →
        0 < fx ∧ fx ≤ e ∧ (∃ k : ℤ, fx = x + k * e) ∧ s.indexForX fx 0 = some i ∧
        (2 ≤ s.nodes.length → i ≠ kAfter)) := by
  obtain ⟨i, f, b, hi, hf0, hbl, -⟩ := C23_index_for_x hs hn hq guess
  have hg := hs.g_pos
  have heb : e = b.X s.g := by
    unfold endX at he
    rw [List.getLast?_eq_getElem?, hbl] at he
    exact (Option.some.inj he).symm
  unfold indexForXRepeat
  rw [hi]
  simp only [Option.bind_some]
  by_cases hc : ¬ rep = true ∨ i ≠ kAfter
  · rw [if_pos hc]
    refine ⟨i, x, rfl, fun _ => ⟨rfl, rfl⟩, fun _ => ⟨rfl, rfl⟩, ?_⟩
    intro h1 h2
    simp only [Option.some.injEq] at h2
    rcases hc with hc | hc
    · exact absurd h1 hc
    · exact absurd h2 hc
  · rw [if_neg hc, he]
    push Not at hc
    obtain ⟨hrep, rfl⟩ := hc
    simp only [Option.bind_some]
    obtain ⟨rx, hrx, h1, h2, h3⟩ := Range.normalizeClose_rep (r := ⟨0, e⟩) hpos x
    simp only at h1 h2 h3
    rw [hrx]
    simp only [Option.bind_some]
    have hb65 : (b.x : ℝ) ≤ 65535 := by
      exact_mod_cast (hs.ok b (List.mem_of_getElem? hbl)).1
    have hdiv : rx / s.g ≤ b.x := by rw [div_le_iff₀ hg]; rw [heb] at h2; exact h2
    have hdiv0 : 0 ≤ rx / s.g := div_nonneg h1.le hg.le
    have hq' := quantizeX_eq (x := rx) hg (by linarith) (by linarith)
    have hfl : ⌊rx / s.g + 1 / 2⌋ ≤ (b.x : ℤ) := by
      have : ⌊rx / s.g + 1 / 2⌋ < (b.x : ℤ) + 1 := Int.floor_lt.mpr (by push_cast; linarith)
      omega
    obtain ⟨j, f', b', hj, hf0', hbl', hj1, hj2, hj3⟩ := C23_index_for_x hs hn hq' 0
    rw [hbl] at hbl'; cases hbl'
    rw [hj]
    refine ⟨j, rx, rfl, ?_, ?_, ?_⟩
    · intro h; rw [hrep] at h; simp at h
    · intro h; exact absurd rfl h
    · intro _ _
      refine ⟨h1, h2, ?_, hj, ?_⟩
      · obtain ⟨k, hk⟩ := h3
        exact ⟨k, by rw [hk]; ring⟩
      · intro hlen hja
        have := hj2.mp hja
        omega

/-- A spline whose last node is at x = 0 cannot be repeated: normalising into the empty range divides by zero. -/
theorem C24_zero_length_fails {s : Spline} {x : ℝ} {guess : ℕ} (hi : s.indexForX x guess = some kAfter)
    (he : s.endX = some 0) (hx : 0 ≤ x) : s.indexForXRepeat x guess true = none := by
  have hlen : (Range.mk 0 0 : Range ℝ).length = 0 := by simp [Range.length]
  have hw : ∀ y, Range.normalizeWild (Range.mk (0 : ℝ) 0) y = none := by
    intro y; unfold Range.normalizeWild; rw [if_pos hlen]
  have hne : ∀ k num y, num + k = 5 → 0 < y → Range.closeAbove (Range.mk (0 : ℝ) 0) num y = none := by
    intro k
    induction k with
    | zero => intro num y hk hy; rw [Range.closeAbove, if_pos (by omega)]; exact hw _
    | succ k ih =>
      intro num y hk hy
      rw [Range.closeAbove, hlen, if_neg (by omega), if_pos (by simpa using hy)]
      exact ih _ _ (by omega) (by simpa using hy)
  have hnb : ∀ k num y, num + k = 5 → y ≤ 0 → Range.closeBelow (Range.mk (0 : ℝ) 0) num y = none := by
    intro k
    induction k with
    | zero => intro num y hk hy; rw [Range.closeBelow, if_pos (by omega)]; exact hw _
    | succ k ih =>
      intro num y hk hy
      rw [Range.closeBelow, hlen, if_neg (by omega), if_pos (by simpa using hy)]
      exact ih _ _ (by omega) (by simpa using hy)
  have hnorm : Range.normalizeClose (Range.mk (0 : ℝ) 0) x = none := by
    unfold Range.normalizeClose
    simp only
    rcases hx.lt_or_eq with h | h
    · rw [if_neg (by simp [h]), if_neg (by linarith)]
      exact hne 5 0 x rfl h
    · rw [if_neg (by simp [← h]), if_pos (by linarith)]
      exact hnb 5 0 x rfl (by linarith)
  unfold indexForXRepeat
  rw [hi, he]
  simp [hnorm]

/-- A spline that meets the hypotheses: three nodes, one discontinuity. -/
def sample : Spline := ⟨⟨0, 1⟩, 1, [⟨2, 0, 0⟩, ⟨5, 65535, 100⟩, ⟨5, 10, 0⟩, ⟨9, 0, -3⟩], 7⟩
theorem sample_wf : sample.WF ∧ sample.Indexable := by
  have hlt : ∀ {i : ℕ} {b : Node}, sample.nodes[i]? = some b → i < 4 := fun h => (List.getElem?_eq_some_iff.mp h).1
  refine ⟨⟨by norm_num [sample], ?_, ?_, by simp [sample], ?_⟩, by simp [Indexable, sample]⟩
  · intro i a b ha hb
    have := hlt hb
    have hi : i = 0 ∨ i = 1 ∨ i = 2 := by omega
    rcases hi with rfl | rfl | rfl <;> simp [sample] at ha hb <;> subst ha hb <;> norm_num
  · intro i a b ha hb
    have := hlt hb
    have hi : i = 0 ∨ i = 1 := by omega
    rcases hi with rfl | rfl <;> simp [sample] at ha hb <;> subst ha hb <;> norm_num
  · intro n hn
    simp only [sample, List.mem_cons, List.not_mem_nil, or_false] at hn
    unfold Node.Ok
    rcases hn with rfl | rfl | rfl | rfl <;> norm_num
example : quantizeX (27 / 5) sample.g = some 5 ∧ sample.endX = some 9 := by
  refine ⟨?_, by norm_num [endX, sample, Node.X]⟩
  rw [quantizeX_eq (by norm_num [sample]) (by norm_num [sample]) (by norm_num [sample])]
  norm_num [Int.floor_eq_iff, sample]

end Spline
end Motive.Splines
