import Verif.Float.Play

/-!
# Playing a spline in single precision: where the cursor is, and what it shows (C101)
-/

namespace Motive.Float.Hermite

open Motive.Curve (Cubic CubicInit)
open Motive.Math (Range)
open Motive.Splines (Node kBefore kAfter kInvalid outside SortedX)
open Motive.Float.Quantize (quantizeX readX readY toInt quantize_core err_add)

noncomputable section

variable {rnd : ℚ → ℚ} {fused : Bool} {slope : ℤ → ℚ} {s : Spline} {pb : Playback}

/-- The curve that is used for some data. -/
def curveOf (rnd : ℚ → ℚ) (pb : Playback) (i : CubicInit ℚ) : Cubic ℚ :=
  shiftUp rnd (scaleUp rnd (init rnd i) pb.yScale) pb.yOffset

theorem mem_one : f32.Mem 1 := by
  have := Motive.Float.Quantize.memI 1 (by norm_num)
  push_cast at this; exact this

/-- Outside the spline the curve is exactly constant. -/
theorem flat_curve (h : Nearest f32 rnd) (y x : ℚ) :
    eval rnd fused (curveOf rnd pb (flatInit y)) x = rnd (rnd (y * pb.yScale) + pb.yOffset) ∧
    deriv rnd fused (curveOf rnd pb (flatInit y)) x = 0 := by
  have e1 : rnd (1 / 1) = 1 := by rw [div_one]; exact h.exact mem_one
  have z := h.zero
  have hi : init rnd (flatInit y) = ⟨0, 0, 0, y⟩ := by
    unfold init flatInit
    simp only [if_pos (show (0 : ℚ) < 1 by norm_num), e1, sub_self, mul_zero, add_zero, z]
  have hc : curveOf rnd pb (flatInit y) = ⟨0, 0, 0, rnd (rnd (y * pb.yScale) + pb.yOffset)⟩ := by
    unfold curveOf
    rw [hi]
    simp only [scaleUp, shiftUp, zero_mul, z]
  rw [hc]
  have m0 : ∀ (a c : ℚ), f32.Mem c → mulAdd rnd fused 0 a c = c := by
    intro a c hc
    unfold mulAdd
    split <;> simp only [zero_mul, zero_add, z, h.exact hc]
  simp only [eval, deriv, mul_zero, z, m0 _ _ mem_zero, m0 _ _ (h.mem _), and_self]

theorem quantize_any (h : Nearest f32 rnd) {t : ℚ} (h0 : 0 ≤ t) (h1 : t ≤ 2 ^ 30) :
    ∃ q : ℤ, toInt (rnd (rnd t + 1 / 2)) = some q ∧ 0 ≤ q ∧ q < 2 ^ 31 ∧
      (∀ n : ℕ, n ≤ 65536 → t ≤ n - 9 / 16 → q < n) ∧ (∀ n : ℕ, n ≤ 65535 → (n : ℚ) + 9 / 16 ≤ t → n < q) := by
  rcases le_or_gt t (65535 + 1 / 2 ^ 7) with ht | ht
  · obtain ⟨q, hq, q0, q1, hqd⟩ := quantize_core h h0 ht
    rw [abs_le] at hqd
    refine ⟨q, hq, q0, by omega, ?_, ?_⟩
    · intro n _ hn
      have : (q : ℚ) < n := by linarith [hqd.2]
      exact_mod_cast this
    · intro n _ hn
      have : (n : ℚ) < q := by linarith [hqd.1]
      exact_mod_cast this
  · have m1 : f32.Mem 65535 := by
      have := Motive.Float.Quantize.memI 65535 (by norm_num)
      push_cast at this; exact this
    have m1' : f32.Mem (65535 + 1 / 2) := Motive.Float.Range.mem32 131071 (-1) _ (by norm_num) (by norm_num) (by norm_num)
    have m2 : f32.Mem 65536 := by
      have := Motive.Float.Quantize.memI 65536 (by norm_num)
      push_cast at this; exact this
    have m3 : f32.Mem (2 ^ 30) := by
      have := mem_zpow (F := f32) (e := 30) (by norm_num [f32])
      norm_num at this ⊢; exact this
    have m4 : f32.Mem (2 ^ 30 + 2 ^ 20) := Motive.Float.Range.mem32 1025 20 _ (by norm_num) (by norm_num) (by norm_num)
    have m5 : f32.Mem (65535 + 7 / 16) := Motive.Float.Range.mem32 1048567 (-4) _ (by norm_num) (by norm_num) (by norm_num)
    have m6 : f32.Mem (65535 + 15 / 16) := Motive.Float.Range.mem32 1048575 (-4) _ (by norm_num) (by norm_num) (by norm_num)
    have r0 := h.ge_of_ge m1 (x := t) (by linarith)
    have r1 := h.le_of_le m3 h1
    have v0 := h.ge_of_ge m1' (x := rnd t + 1 / 2) (by linarith)
    have v1 := h.le_of_le m4 (x := rnd t + 1 / 2) (by linarith [show (1 / 2 : ℚ) ≤ 2 ^ 20 by norm_num])
    set v := rnd (rnd t + 1 / 2) with hv
    have f1 : (65535 : ℤ) ≤ ⌊v⌋ := Int.le_floor.mpr (by push_cast; linarith)
    have f2 : ⌊v⌋ < 2 ^ 31 := by
      rw [Int.floor_lt]
      refine lt_of_le_of_lt v1 (by norm_num)
    refine ⟨⌊v⌋, ?_, by omega, f2, ?_, ?_⟩
    · unfold toInt
      simp only [if_pos (show 0 ≤ v by linarith)]
      rw [if_pos ⟨by omega, by exact_mod_cast f2⟩]
    · intro n hn htn
      have hn' : n = 65536 := by
        by_contra hc
        have : (n : ℚ) ≤ 65535 := by exact_mod_cast (show n ≤ 65535 by omega)
        linarith
      subst hn'
      push_cast at htn
      have r2 := h.le_of_le m5 (x := t) (by linarith)
      have v2 := h.le_of_le m6 (x := rnd t + 1 / 2) (by linarith)
      rw [Int.floor_lt]
      push_cast
      rw [← hv] at v2
      linarith
    · intro n hn htn
      rcases Nat.lt_or_ge n 65535 with hlt | hge
      · omega
      · obtain rfl : n = 65535 := by omega
        push_cast at htn
        have r2 := h.ge_of_ge m1' (x := t) (by linarith)
        have v2 := h.ge_of_ge m2 (x := rnd t + 1 / 2) (by linarith)
        have : (65536 : ℤ) ≤ ⌊v⌋ := Int.le_floor.mpr (by push_cast; exact v2)
        omega

/-- Where `IndexForX` finds a position. -/
theorem index_cases (h : Nearest f32 rnd) (hs : s.Legal) {f l : Node} (hf : s.nodes.head? = some f)
    (hl : s.nodes.getLast? = some l) {x : ℚ} (hx0 : 0 ≤ x) (hx1 : x ≤ 2 ^ 30 * s.g) (guess : ℕ) :
    ∃ i, indexForX rnd s x guess = some i ∧
      ((i = kBefore ∧ x ≤ (f.x - 7 / 16) * s.g) ∨
       (i = kAfter ∧ (l.x - 9 / 16) * s.g ≤ x ∧ (2 ≤ s.nodes.length → (l.x + 7 / 16) * s.g ≤ x)) ∨
       (i ≠ kBefore ∧ i ≠ kAfter ∧ ∃ a b, s.nodes[i]? = some a ∧ s.nodes[i + 1]? = some b ∧ (a.x - 9 / 16) * s.g ≤ x ∧
         x ≤ (b.x + 9 / 16) * s.g)) := by
  have hg := hs.pos
  have d1 : x / s.g ≤ 2 ^ 30 := by rwa [div_le_iff₀ hg]
  obtain ⟨q, hq, q0, q1, qlt, qgt⟩ := quantize_any h (div_nonneg hx0 hg.le) d1
  have hq' : quantizeX rnd x s.g = some q := by unfold quantizeX; rw [if_neg hg.ne', hq]
  have up : ∀ n : ℕ, n ≤ 65536 → (n : ℤ) ≤ q → (n - 9 / 16) * s.g ≤ x := by
    intro n hn hnq
    by_contra hc
    push Not at hc
    have := qlt n hn (by rw [div_le_iff₀ hg]; exact hc.le)
    omega
  have down : ∀ n : ℕ, n ≤ 65535 → q ≤ n → x ≤ (n + 9 / 16) * s.g := by
    intro n hn hnq
    by_contra hc
    push Not at hc
    have := qgt n hn (by rw [le_div_iff₀ hg]; exact hc.le)
    omega
  obtain ⟨hqq, e⟩ := index_of_quantized h hs hq' q0 q1 guess
  obtain ⟨i, f', l', hi, hf0, hl0, i1, i2, i3⟩ := Motive.Splines.Spline.C23_index_for_x hs.wf hs.indexable hqq guess
  have hff : f' = f := by rw [List.head?_eq_getElem?] at hf; exact Option.some.inj (hf0.symm.trans hf)
  have hll : l' = l := by rw [List.getLast?_eq_getElem?] at hl; exact Option.some.inj (hl0.symm.trans hl)
  subst hff hll
  have hf65 := (hs.ok f' (List.mem_of_mem_head? hf)).1
  have hl65 := (hs.ok l' (List.mem_of_getLast? hl)).1
  have hfl := hs.wf.sorted.le (Nat.zero_le _) hf0 hl0
  rw [e]
  refine ⟨i, hi, ?_⟩
  by_cases c1 : i = kBefore
  · left
    refine ⟨c1, ?_⟩
    have hlt := i1.mp c1
    obtain ⟨m, hm⟩ : ∃ m, f'.x = m + 1 := ⟨f'.x - 1, by omega⟩
    have := down m (by omega) (by omega)
    rw [hm]; push_cast
    refine this.trans (le_of_eq ?_)
    ring
  · by_cases c2 : i = kAfter
    · right; left
      have hor := i2.mp c2
      refine ⟨c2, up l'.x (by omega) (by omega), ?_⟩
      intro hlen
      have h2 : s.exact.nodes.length = s.nodes.length := rfl
      have := up (l'.x + 1) (by omega) (by push_cast; omega)
      push_cast at this
      refine le_trans (le_of_eq ?_) this
      ring
    · right; right
      have n1 := mt i1.mpr c1
      have n2 := mt i2.mpr c2
      have h2 : s.exact.nodes.length = s.nodes.length := rfl
      have hpos := hs.nonempty
      have hlen : 2 ≤ s.exact.nodes.length := by
        by_contra hc
        have h1 : s.nodes.length = 1 := by omega
        have hl0' := hl0
        rw [h2, h1] at hl0'
        have hfe : f' = l' := Option.some.inj (hf0.symm.trans hl0')
        rw [hfe] at n1
        omega
      obtain ⟨a, b, -, ha, hb, e1, e2, -⟩ := i3 (by omega) (by omega) hlen
      have ha65 := (hs.ok a (List.mem_of_getElem? ha)).1
      have hb65 := (hs.ok b (List.mem_of_getElem? hb)).1
      exact ⟨c1, c2, a, b, ha, hb, up a.x (by omega) e1, down b.x (by omega) e2⟩

/-- The cursor is at the position `P` of the spline. -/
def Located (rnd : ℚ → ℚ) (slope : ℤ → ℚ) (s : Spline) (pb : Playback) (c : Cursor) (P : ℚ) : Prop :=
  f32.Mem c.x ∧
  ((∃ f, s.nodes.head? = some f ∧ c.index = kBefore ∧ P = c.x ∧ 0 ≤ c.x ∧ c.x ≤ f.x * s.g + s.g / 2 ^ 8 ∧
      c.xEnd = ((nodeX rnd s f : ℚ) : WithTop ℚ) ∧ c.cubic = curveOf rnd pb (flatInit (nodeY rnd s f))) ∨
   ∃ (i : ℕ) (a b : Node), s.nodes[i]? = some a ∧ s.nodes[i + 1]? = some b ∧ c.index = i ∧ P = a.x * s.g + c.x ∧
      -(5 / 8 * s.g) ≤ c.x ∧ c.x ≤ gap s a b + 5 / 8 * s.g ∧
      c.xEnd = ((rnd (nodeX rnd s b - nodeX rnd s a) : ℚ) : WithTop ℚ) ∧ c.cubic = curveOf rnd pb (cubicInit rnd slope s a b))

/-- The cursor is past the end of the spline. -/
def Finished (rnd : ℚ → ℚ) (s : Spline) (pb : Playback) (c : Cursor) : Prop :=
  ∃ l, s.nodes.getLast? = some l ∧ c.index = kAfter ∧ c.xEnd = ⊤ ∧ c.cubic = curveOf rnd pb (flatInit (nodeY rnd s l))

theorem small (h : Nearest f32 rnd) {M x : ℚ} (hM : 1 / 2 ^ 30 ≤ M) (hx : |x| ≤ 33 / 32 * M) : |rnd x - x| ≤ 17 / 16 * u * M := by
  refine (err_any h x).trans ?_
  have h1 := mul_le_mul_of_nonneg_left hx u_pos.le
  have h2 : eta ≤ 1 / 32 * u * (1 / 2 ^ 30) := by norm_num [eta, u]
  have h3 := mul_le_mul_of_nonneg_left hM (show 0 ≤ 1 / 32 * u by have := u_pos; positivity)
  linarith

section Move

variable {f l : Node}

theorem node_le (hs : s.Legal) (hl : s.nodes.getLast? = some l) {i : ℕ} {a : Node} (ha : s.nodes[i]? = some a) : a.x ≤ l.x := by
  have hlt := (List.getElem?_eq_some_iff.mp ha).1
  rw [List.getLast?_eq_getElem?] at hl
  exact hs.wf.sorted.le (by omega) ha hl

theorem nodeX_small (h : Nearest f32 rnd) (hs : s.Legal) (hl : s.nodes.getLast? = some l) {M : ℚ} (hM : l.x * s.g + s.g ≤ M)
    {i : ℕ} {a : Node} (ha : s.nodes[i]? = some a) : |nodeX rnd s a - a.x * s.g| ≤ 17 / 16 * u * M := by
  have hg := hs.pos
  have hle : (a.x : ℚ) ≤ l.x := by exact_mod_cast node_le hs hl ha
  have h1 := mul_le_mul_of_nonneg_right hle hg.le
  have h0 : 0 ≤ (a.x : ℚ) * s.g := by positivity
  have := small h (x := (a.x : ℚ) * s.g) (M := M) (by linarith [hs.least]) (by rw [abs_of_nonneg h0]; linarith)
  unfold nodeX readX
  push_cast
  exact this

/-- `InitCubic` without a repeat. -/
theorem locate (h : Nearest f32 rnd) (hs : s.Legal) (hf : s.nodes.head? = some f)
    (hl : s.nodes.getLast? = some l) {x M : ℚ} (hM : l.x * s.g + s.g ≤ M) (hxm : f32.Mem x) (hx0 : 0 ≤ x)
    (hx1 : x ≤ 2 ^ 30 * s.g) (guess : ℕ) :
    ∃ i c, indexForX rnd s x guess = some i ∧ place rnd slope s pb i x = some c ∧
      ((i = kAfter ∧ Finished rnd s pb c ∧ (l.x - 9 / 16) * s.g ≤ x ∧ (2 ≤ s.nodes.length → (l.x + 7 / 16) * s.g ≤ x)) ∨
       (i ≠ kAfter ∧ ∃ P, Located rnd slope s pb c P ∧ |P - x| ≤ 17 / 8 * u * M)) := by
  have hg := hs.pos
  have hM0 : 1 / 2 ^ 30 ≤ M := by
    have : 0 ≤ (l.x : ℚ) * s.g := by positivity
    linarith [hs.least]
  have hM00 : 0 < M := lt_of_lt_of_le (by norm_num) hM0
  have hba : kAfter ≠ kBefore := by simp [kAfter, kBefore]
  obtain ⟨i, hi, hc⟩ := index_cases h hs hf hl hx0 hx1 guess
  rcases hc with ⟨rfl, hb⟩ | ⟨rfl, ha1, ha2⟩ | ⟨n1, n2, a, b, ha, hb, hx2, hx3⟩
  · refine ⟨kBefore, ⟨kBefore, rnd (x - 0), ((rnd (nodeX rnd s f - 0) : ℚ) : WithTop ℚ), curveOf rnd pb (flatInit (nodeY rnd s f)), 0⟩,
      hi, ?_, Or.inr ⟨hba.symm, x, ⟨?_, Or.inl ⟨f, hf, ?_⟩⟩, ?_⟩⟩
    · unfold place rangeX cubicInitAt
      rw [if_pos rfl, if_pos rfl, hf]
      rfl
    · exact h.mem _
    · simp only [sub_zero]
      rw [h.exact hxm, h.exact (show f32.Mem (nodeX rnd s f) from h.mem _)]
      refine ⟨trivial, rfl, hx0, ?_, rfl, trivial⟩
      linarith
    · rw [sub_self, abs_zero]
      have := u_pos
      positivity
  · refine ⟨kAfter, ⟨kAfter, rnd (x - nodeX rnd s l), ⊤, curveOf rnd pb (flatInit (nodeY rnd s l)), 0⟩, hi, ?_, Or.inl ⟨rfl, ⟨l, hl, ?_⟩, ha1, ha2⟩⟩
    · unfold place rangeX cubicInitAt
      rw [if_neg hba, if_neg hba, if_pos rfl, if_pos rfl, hl]
      rfl
    · exact ⟨rfl, rfl, rfl⟩
  · have na := abs_le.mp (nodeX_near h hs (List.mem_of_getElem? ha))
    have na2 := abs_le.mp (nodeX_small h hs hl hM ha)
    have hb65 : (b.x : ℚ) ≤ 65535 := by exact_mod_cast (hs.ok b (List.mem_of_getElem? hb)).1
    have hab : (a.x : ℚ) ≤ b.x := by exact_mod_cast hs.wf.sorted.le (Nat.le_succ i) ha hb
    have hbl : (b.x : ℚ) * s.g ≤ l.x * s.g := mul_le_mul_of_nonneg_right (by exact_mod_cast node_le hs hl hb) hg.le
    have ha0 : (0 : ℚ) ≤ a.x * s.g := by positivity
    have hgap : gap s a b = b.x * s.g - a.x * s.g := by unfold gap; ring
    have hgap0 : 0 ≤ gap s a b := by rw [hgap]; have := mul_le_mul_of_nonneg_right hab hg.le; linarith
    have hgap1 : gap s a b ≤ 65535 * s.g := by
      rw [hgap]; have := mul_le_mul_of_nonneg_right hb65 hg.le; linarith
    have habs : |x - nodeX rnd s a| ≤ gap s a b + 19 / 32 * s.g := by
      rw [abs_le]; constructor
      · linarith [na.2]
      · rw [hgap]; linarith [na.1]
    have e1 : |rnd (x - nodeX rnd s a) - (x - nodeX rnd s a)| ≤ s.g / 2 ^ 7 := by
      refine (err_any h _).trans ?_
      have h2 : u * |x - nodeX rnd s a| ≤ u * (65536 * s.g) := mul_le_mul_of_nonneg_left (by linarith) u_pos.le
      have e1 : u * (65536 * s.g) = 1 / 2 ^ 8 * s.g := by rw [u]; ring
      have e2 : eta ≤ 1 / 2 ^ 24 * (1 / 2 ^ 30) := by norm_num [eta]
      have := hs.least
      rw [e1] at h2
      linarith
    have e2 := small h hM0 (x := x - nodeX rnd s a) (by rw [hgap] at habs; linarith)
    have e1' := abs_le.mp e1
    refine ⟨i, ⟨i, rnd (x - nodeX rnd s a), ((rnd (nodeX rnd s b - nodeX rnd s a) : ℚ) : WithTop ℚ),
      curveOf rnd pb (cubicInit rnd slope s a b), 0⟩, hi, ?_, Or.inr ⟨n2, a.x * s.g + rnd (x - nodeX rnd s a), ⟨?_, Or.inr ⟨i, a, b, ha, hb, ?_⟩⟩, ?_⟩⟩
    · unfold place rangeX cubicInitAt
      rw [if_neg n1, if_neg n1, if_neg n2, if_neg n2, ha, hb]
      rfl
    · exact h.mem _
    · refine ⟨rfl, rfl, ?_, ?_, rfl, rfl⟩
      · show -(5 / 8 * s.g) ≤ rnd (x - nodeX rnd s a)
        linarith [na.2]
      · show rnd (x - nodeX rnd s a) ≤ gap s a b + 5 / 8 * s.g
        rw [hgap]; linarith [na.1]
    · have e : (a.x : ℚ) * s.g + rnd (x - nodeX rnd s a) - x =
          (rnd (x - nodeX rnd s a) - (x - nodeX rnd s a)) - (nodeX rnd s a - a.x * s.g) := by ring
      rw [e]
      refine (abs_sub _ _).trans ?_
      have := nodeX_small h hs hl hM ha
      linarith

theorem Located.le (hs : s.Legal) (hl : s.nodes.getLast? = some l) {c : Cursor} {P : ℚ}
    (hc : Located rnd slope s pb c P) : P ≤ (l.x + 5 / 8) * s.g := by
  have hg := hs.pos
  rcases hc.2 with ⟨f', hf', -, rfl, -, h1, -⟩ | ⟨i, a, b, ha, hb, -, rfl, -, h1, -⟩
  · rw [List.head?_eq_getElem?] at hf'
    have : (f'.x : ℚ) * s.g ≤ l.x * s.g := mul_le_mul_of_nonneg_right (by exact_mod_cast node_le hs hl hf') hg.le
    linarith
  · have : (b.x : ℚ) * s.g ≤ l.x * s.g := mul_le_mul_of_nonneg_right (by exact_mod_cast node_le hs hl hb) hg.le
    unfold gap at h1
    linarith

/-- `InitCubic`, with or without a repeat. -/
theorem initCubic_spec (h : Nearest f32 rnd) (hs : s.Legal) (hf : s.nodes.head? = some f) (hl : s.nodes.getLast? = some l)
    {x D M : ℚ} (hD : 0 ≤ D) (hM : l.x * s.g + D + s.g ≤ M) (hxm : f32.Mem x) (hx0 : 0 ≤ x) (hx1 : x ≤ 2 ^ 30 * s.g)
    (hrep : pb.rep = true → 2 ≤ s.nodes.length ∧ D + s.g ≤ l.x * s.g ∧ x ≤ (l.x + 3 / 4) * s.g + D) (i : ℕ) :
    ∃ c, initCubic rnd slope s pb i x = some c ∧
      ((pb.rep = false ∧ Finished rnd s pb c ∧ (l.x - 9 / 16) * s.g ≤ x) ∨
       ∃ (k : ℕ) (P : ℚ), (pb.rep = false → k = 0) ∧ Located rnd slope s pb c P ∧
         |P + k * (l.x * s.g) - x| ≤ 5 * (17 / 16 * u * M)) := by
  have hg := hs.pos
  have hu := u_pos
  have hl0 : 0 ≤ (l.x : ℚ) * s.g := by positivity
  have hM1 : l.x * s.g + s.g ≤ M := by linarith
  have hM0 : 0 ≤ M := by linarith
  obtain ⟨j, c, hj, hp, hc⟩ := locate (slope := slope) (pb := pb) h hs hf hl hM1 hxm hx0 hx1 ((i + 1) % 65536)
  have hUM : 0 ≤ u * M := by positivity
  rcases hc with ⟨rfl, hfin, h1, h2⟩ | ⟨hne, P, hP, hPx⟩
  · cases hr : pb.rep with
    | false =>
      refine ⟨c, ?_, Or.inl ⟨rfl, hfin, h1⟩⟩
      unfold initCubic indexRepeat
      rw [hj, hr]
      simpa using hp
    | true =>
      obtain ⟨hlen, hDE, hxE⟩ := hrep hr
      have hx2 := h2 hlen
      have hlidx : s.nodes[s.nodes.length - 1]? = some l := by rw [← List.getLast?_eq_getElem?]; exact hl
      have nl := abs_le.mp (nodeX_near h hs (List.mem_of_getLast? hl))
      have nl2 := nodeX_small h hs hl hM1 hlidx
      have hlm : f32.Mem (nodeX rnd s l) := h.mem _
      set X := nodeX rnd s l with hX
      have hdiff0 : 0 ≤ x - X := by linarith [nl.2]
      have hl65 : (l.x : ℚ) ≤ 65535 := by exact_mod_cast (hs.ok l (List.mem_of_getLast? hl)).1
      have hlg : (l.x : ℚ) * s.g ≤ 65535 * s.g := mul_le_mul_of_nonneg_right hl65 hg.le
      have hy0 := h.ge_of_ge mem_zero hdiff0
      have e1 : |rnd (x - X) - (x - X)| ≤ s.g / 2 ^ 7 := by
        refine (err_any h _).trans ?_
        rw [abs_of_nonneg hdiff0]
        have h2 : u * (x - X) ≤ u * (65536 * s.g) := mul_le_mul_of_nonneg_left (by linarith [nl.1]) hu.le
        have e1 : u * (65536 * s.g) = 1 / 2 ^ 8 * s.g := by rw [u]; ring
        have e2 : eta ≤ 1 / 2 ^ 24 * (1 / 2 ^ 30) := by norm_num [eta]
        have := hs.least
        rw [e1] at h2
        linarith
      have e1' := abs_le.mp e1
      have e2 := small h (M := M) (by linarith [hs.least]) (x := x - X) (by rw [abs_of_nonneg hdiff0]; linarith [nl.1])
      have hylt : rnd (x - X) ≤ (l.x - 1 / 8) * s.g := by linarith [nl.1]
      have hnorm : Motive.Float.Range.normalizeClose rnd ⟨0, X⟩ x = some (rnd (x - X)) := by
        have hX0 : 0 < X := by linarith [nl.1]
        have hlen : Motive.Float.Range.length rnd ⟨0, X⟩ = X := by
          unfold Motive.Float.Range.length
          simp only [sub_zero]
          exact h.exact hlm
        unfold Motive.Float.Range.normalizeClose
        rw [if_neg (by simp only [not_and, not_not]; intro _; show X < x; linarith [nl.2])]
        rw [if_neg (show ¬ x ≤ 0 by linarith)]
        rw [Motive.Float.Range.closeAbove, hlen, if_neg (by omega), if_neg (show ¬ X < rnd (x - X) by linarith [nl.1])]
      obtain ⟨j', c', hj', hp', hc'⟩ := locate (slope := slope) (pb := pb) h hs hf hl hM1 (h.mem (x - X)) hy0 (by linarith) 0
      rcases hc' with ⟨rfl, -, -, h3⟩ | ⟨hne, P, hP, hPx⟩
      · have := h3 hlen
        linarith
      · refine ⟨c', ?_, Or.inr ⟨1, P, fun h => (by cases h), hP, ?_⟩⟩
        · unfold initCubic indexRepeat
          rw [hj, hr, hl]
          simp only [Option.bind_some, Bool.not_true, Bool.false_or, ne_eq, not_true_eq_false, decide_false]
          rw [if_neg (by simp), ← hX, hnorm]
          simp only [Option.bind_some]
          rw [hj']
          exact hp'
        · have e : P + ((1 : ℕ) : ℚ) * (l.x * s.g) - x = (P - rnd (x - X)) + (rnd (x - X) - (x - X)) - (X - l.x * s.g) := by
            push_cast; ring
          rw [e]
          refine (abs_sub _ _).trans ?_
          have := abs_add_le (P - rnd (x - X)) (rnd (x - X) - (x - X))
          linarith
  · refine ⟨c, ?_, Or.inr ⟨0, P, fun _ => rfl, hP, ?_⟩⟩
    · unfold initCubic indexRepeat
      rw [hj]
      simp only [Option.bind_some]
      rw [if_pos (by simp [hne])]
      exact hp
    · push_cast
      rw [zero_mul, add_zero]
      linarith

theorem nodeX_mono (h : Nearest f32 rnd) (hs : s.Legal) {a b : Node} (hab : a.x ≤ b.x) : nodeX rnd s a ≤ nodeX rnd s b := by
  unfold nodeX readX
  refine h.mono (mul_le_mul_of_nonneg_right ?_ hs.pos.le)
  push_cast
  exact_mod_cast hab

theorem nodeX_nonneg (h : Nearest f32 rnd) (hs : s.Legal) (a : Node) : 0 ≤ nodeX rnd s a := by
  have hg := hs.pos
  unfold nodeX readX
  refine h.ge_of_ge mem_zero ?_
  push_cast
  positivity

/-- The new position on the cubic. -/
theorem moved (h : Nearest f32 rnd) {M D B x dt r : ℚ} (hM0 : 1 / 2 ^ 30 ≤ M) (hxm : f32.Mem x) (hx : |x| ≤ B) (hB : B + D ≤ M)
    (h0 : 0 ≤ dt) (h1 : 0 ≤ r) (h2 : dt * r ≤ D) :
    x ≤ mulAdd rnd fused dt r x ∧ |mulAdd rnd fused dt r x - (x + dt * r)| ≤ 2 * (17 / 16 * u * M) := by
  have hδ := mul_nonneg h0 h1
  have hx' := abs_le.mp hx
  have hu := u_pos
  have hu2 : 17 / 16 * u ≤ 1 / 32 := by norm_num [u]
  have hM1 : 0 ≤ M := le_trans (by norm_num) hM0
  have hU : 17 / 16 * u * M ≤ 1 / 32 * M := mul_le_mul_of_nonneg_right hu2 hM1
  have hU0 : 0 ≤ 17 / 16 * u * M := by positivity
  unfold mulAdd
  split
  · have e := small h hM0 (x := dt * r + x) (by rw [abs_le]; constructor <;> linarith)
    refine ⟨h.ge_of_ge hxm (by linarith), ?_⟩
    rw [add_comm x]
    linarith
  · have e1 := small h hM0 (x := dt * r) (by rw [abs_of_nonneg hδ]; linarith [(abs_nonneg x).trans hx])
    have e1' := abs_le.mp e1
    have r0 := h.ge_of_ge mem_zero hδ
    have e2 := small h hM0 (x := rnd (dt * r) + x) (by rw [abs_le]; constructor <;> linarith)
    refine ⟨h.ge_of_ge hxm (by linarith), ?_⟩
    have e : rnd (rnd (dt * r) + x) - (x + dt * r) = (rnd (rnd (dt * r) + x) - (rnd (dt * r) + x)) + (rnd (dt * r) - dt * r) := by ring
    rw [e]
    refine (abs_add_le _ _).trans ?_
    linarith

/-- One frame. -/
theorem step (h : Nearest f32 rnd) (hs : s.Legal) (hf : s.nodes.head? = some f) (hl : s.nodes.getLast? = some l)
    {D : ℚ} (hD0 : 0 ≤ D) (hD : D ≤ 2 ^ 29 * s.g) (hrep : pb.rep = true → 2 ≤ s.nodes.length ∧ D + s.g ≤ l.x * s.g)
    {c : Cursor} {P : ℚ} (hc : Located rnd slope s pb c P) {fr : Frame} (h0 : 0 ≤ fr.dt) (h1 : 0 ≤ fr.rate)
    (h2 : fr.dt * fr.rate ≤ D) :
    ∃ c', advance rnd fused slope s pb fr c = some c' ∧
      ((pb.rep = false ∧ Finished rnd s pb c' ∧ (l.x - 9 / 16) * s.g ≤ P + fr.dt * fr.rate + (l.x * s.g + D + s.g) / 2 ^ 20) ∨
       ∃ (k : ℕ) (P' : ℚ), (pb.rep = false → k = 0) ∧ Located rnd slope s pb c' P' ∧
         |P' + k * (l.x * s.g) - (P + fr.dt * fr.rate)| ≤ (l.x * s.g + D + s.g) / 2 ^ 20) := by
  have hg := hs.pos
  have hu := u_pos
  have hl0 : 0 ≤ (l.x : ℚ) * s.g := by positivity
  have hl65 : (l.x : ℚ) ≤ 65535 := by exact_mod_cast (hs.ok l (List.mem_of_getLast? hl)).1
  have hlg : (l.x : ℚ) * s.g ≤ 65535 * s.g := mul_le_mul_of_nonneg_right hl65 hg.le
  set M := l.x * s.g + D + s.g with hM
  have hM0 : 1 / 2 ^ 30 ≤ M := by linarith [hs.least]
  have hM1 : l.x * s.g + s.g ≤ M := by linarith
  have hMpos : 0 < M := lt_of_lt_of_le (by norm_num) hM0
  have hU0 : 0 ≤ 17 / 16 * u * M := by positivity
  have hU9 : 9 * (17 / 16 * u * M) ≤ M / 2 ^ 20 := by
    have e : 9 * (17 / 16 * u * M) = 153 / 16 * (1 / 2 ^ 24) * M := by rw [u]; ring
    rw [e]
    linarith
  -- a cursor that is re-initialised
  have re : ∀ (base x1 : ℚ) (x0 : ℚ), startOf rnd s c.index = some x0 → c.xEnd < ((mulAdd rnd fused fr.dt fr.rate c.x : ℚ) : WithTop ℚ) →
      x1 = mulAdd rnd fused fr.dt fr.rate c.x → 0 ≤ x0 → 0 ≤ x1 → P = base + c.x → |x0 - base| ≤ 17 / 16 * u * M →
      |x1 - (c.x + fr.dt * fr.rate)| ≤ 2 * (17 / 16 * u * M) →
      ∃ c', advance rnd fused slope s pb fr c = some c' ∧
      ((pb.rep = false ∧ Finished rnd s pb c' ∧ (l.x - 9 / 16) * s.g ≤ P + fr.dt * fr.rate + M / 2 ^ 20) ∨
       ∃ (k : ℕ) (P' : ℚ), (pb.rep = false → k = 0) ∧ Located rnd slope s pb c' P' ∧
         |P' + k * (l.x * s.g) - (P + fr.dt * fr.rate)| ≤ M / 2 ^ 20) := by
    intro base x1 x0 hst hlt hx1 hx0 hx10 hP hb hx
    have hPle := hc.le hs hl
    have hb' := abs_le.mp hb
    have hx' := abs_le.mp hx
    have hu2 : 17 / 16 * u ≤ 1 / 2 ^ 23 := by norm_num [u]
    have hU : 17 / 16 * u * M ≤ 1 / 2 ^ 23 * M := mul_le_mul_of_nonneg_right hu2 hMpos.le
    have e1 := small h hM0 (x := x0 + x1) (by rw [abs_of_nonneg (by linarith)]; linarith)
    have e1' := abs_le.mp e1
    have hX0 := h.ge_of_ge mem_zero (x := x0 + x1) (by linarith)
    have hXd : |rnd (x0 + x1) - (P + fr.dt * fr.rate)| ≤ 4 * (17 / 16 * u * M) := by
      rw [abs_le]; constructor <;> linarith
    have hXd' := abs_le.mp hXd
    obtain ⟨c', hc', hor⟩ := initCubic_spec (slope := slope) (pb := pb) h hs hf hl hD0 hM.symm.le (h.mem (x0 + x1)) hX0
      (by linarith) (fun hr => ⟨(hrep hr).1, (hrep hr).2, by have := (hrep hr).2; linarith⟩) c.index
    refine ⟨evaluate rnd fused c', ?_, ?_⟩
    · unfold advance
      rw [if_pos hlt, hst]
      simp only [Option.bind_some]
      rw [← hx1, hc']
      rfl
    · rcases hor with ⟨hr, hfin, hle⟩ | ⟨k, P', hk, hP', hd⟩
      · exact Or.inl ⟨hr, hfin, by linarith⟩
      · refine Or.inr ⟨k, P', hk, hP', ?_⟩
        have e : P' + k * (l.x * s.g) - (P + fr.dt * fr.rate) =
            (P' + k * (l.x * s.g) - rnd (x0 + x1)) + (rnd (x0 + x1) - (P + fr.dt * fr.rate)) := by ring
        rw [e]
        refine (abs_add_le _ _).trans ?_
        linarith
  -- a cursor that stays on its cubic
  have stay : ¬ c.xEnd < ((mulAdd rnd fused fr.dt fr.rate c.x : ℚ) : WithTop ℚ) →
      advance rnd fused slope s pb fr c = some (evaluate rnd fused { c with x := mulAdd rnd fused fr.dt fr.rate c.x }) := by
    intro hn
    unfold advance
    rw [if_neg hn]
    rfl
  obtain ⟨hcm, hor⟩ := hc
  rcases hor with ⟨f', hf', hi, hP, hx0, hx1, hend, hcub⟩ | ⟨i, a, b, ha, hb, hi, hP, hx0, hx1, hend, hcub⟩
  · have hff : f' = f := Option.some.inj (hf'.symm.trans hf)
    subst hff
    have hfi : s.nodes[0]? = some f' := by rw [← List.head?_eq_getElem?]; exact hf
    have hfl : (f'.x : ℚ) * s.g ≤ l.x * s.g := mul_le_mul_of_nonneg_right (by exact_mod_cast node_le hs hl hfi) hg.le
    obtain ⟨m1, m2⟩ := moved (fused := fused) h hM0 hcm (B := l.x * s.g + s.g) (D := D)
      (by rw [abs_of_nonneg hx0]; linarith) (by linarith) h0 h1 h2
    by_cases hlt : c.xEnd < ((mulAdd rnd fused fr.dt fr.rate c.x : ℚ) : WithTop ℚ)
    · refine re 0 _ 0 (by unfold startOf; rw [hi, if_pos rfl]) hlt rfl le_rfl (by linarith) (by linarith) (by simpa using hU0) m2
    · refine ⟨_, stay hlt, Or.inr ⟨0, mulAdd rnd fused fr.dt fr.rate c.x, fun _ => rfl, ⟨mulAdd_mem h _ _ _, Or.inl
        ⟨f', hf, hi, rfl, ?_, ?_, hend, hcub⟩⟩, ?_⟩⟩
      · exact le_trans hx0 m1
      · show mulAdd rnd fused fr.dt fr.rate c.x ≤ _
        rw [hend, WithTop.coe_lt_coe, not_lt] at hlt
        have := (abs_le.mp (nodeX_near h hs (List.mem_of_getElem? hfi))).2
        linarith
      · push_cast
        rw [zero_mul, add_zero, hP]
        linarith
  · have hlen := (List.getElem?_eq_some_iff.mp hb).1
    have hcount := hs.count
    have n1 : i ≠ kBefore := by simp only [kBefore]; omega
    have n2 : i ≠ kAfter := by simp only [kAfter]; omega
    have hab := hs.wf.sorted.le (Nat.le_succ i) ha hb
    have hbl : (b.x : ℚ) * s.g ≤ l.x * s.g := mul_le_mul_of_nonneg_right (by exact_mod_cast node_le hs hl hb) hg.le
    have hgap : gap s a b = b.x * s.g - a.x * s.g := by unfold gap; ring
    have ha0 : 0 ≤ (a.x : ℚ) * s.g := by positivity
    rw [hgap] at hx1
    obtain ⟨m1, m2⟩ := moved (fused := fused) h hM0 hcm (B := l.x * s.g + s.g) (D := D)
      (by rw [abs_le]; constructor <;> linarith) (by linarith) h0 h1 h2
    have hw0 : 0 ≤ rnd (nodeX rnd s b - nodeX rnd s a) := h.ge_of_ge mem_zero (by linarith [nodeX_mono h hs hab])
    by_cases hlt : c.xEnd < ((mulAdd rnd fused fr.dt fr.rate c.x : ℚ) : WithTop ℚ)
    · have hlt' := hlt
      rw [hend, WithTop.coe_lt_coe] at hlt'
      refine re (a.x * s.g) _ (nodeX rnd s a) ?_ hlt rfl (nodeX_nonneg h hs a) (by linarith) hP (nodeX_small h hs hl hM1 ha) m2
      unfold startOf
      rw [hi, if_neg n1, if_neg n2, ha]
      rfl
    · refine ⟨_, stay hlt, Or.inr ⟨0, a.x * s.g + mulAdd rnd fused fr.dt fr.rate c.x, fun _ => rfl, ⟨mulAdd_mem h _ _ _, Or.inr
        ⟨i, a, b, ha, hb, hi, rfl, ?_, ?_, hend, hcub⟩⟩, ?_⟩⟩
      · exact le_trans hx0 m1
      · show mulAdd rnd fused fr.dt fr.rate c.x ≤ _
        rw [hend, WithTop.coe_lt_coe, not_lt] at hlt
        refine hlt.trans ?_
        have na := abs_le.mp (nodeX_near h hs (List.mem_of_getElem? ha))
        have nb := abs_le.mp (nodeX_near h hs (List.mem_of_getElem? hb))
        have hd : nodeX rnd s b - nodeX rnd s a ≤ gap s a b + s.g / 2 ^ 7 := by rw [hgap]; linarith [na.1, nb.2]
        have hd0 : 0 ≤ nodeX rnd s b - nodeX rnd s a := by linarith [nodeX_mono h hs hab]
        have e := err_any h (nodeX rnd s b - nodeX rnd s a)
        rw [abs_of_nonneg hd0] at e
        have e' := (abs_le.mp e).2
        have h2 : u * (nodeX rnd s b - nodeX rnd s a) ≤ u * (65536 * s.g) :=
          mul_le_mul_of_nonneg_left (by rw [hgap] at hd; linarith) hu.le
        have e1 : u * (65536 * s.g) = 1 / 2 ^ 8 * s.g := by rw [u]; ring
        have e2 : eta ≤ 1 / 2 ^ 24 * (1 / 2 ^ 30) := by norm_num [eta]
        have := hs.least
        linarith
      · push_cast
        rw [zero_mul, add_zero, hP]
        have e : (a.x : ℚ) * s.g + mulAdd rnd fused fr.dt fr.rate c.x - (a.x * s.g + c.x + fr.dt * fr.rate) =
            mulAdd rnd fused fr.dt fr.rate c.x - (c.x + fr.dt * fr.rate) := by ring
        rw [e]
        linarith

end Move

/-! ### Many frames -/

theorem frames_append (fs gs : List Frame) (c : Cursor) :
    frames rnd fused slope s pb (fs ++ gs) c = (frames rnd fused slope s pb fs c).bind (frames rnd fused slope s pb gs) := by
  induction fs generalizing c with
  | nil => rfl
  | cons f fs ih =>
    simp only [List.cons_append, frames]
    cases advance rnd fused slope s pb f c with
    | none => rfl
    | some c' => exact ih c'

/-- The value of a cursor is that of its curve. -/
def Evaluated (rnd : ℚ → ℚ) (fused : Bool) (c : Cursor) : Prop := c.y = eval rnd fused c.cubic c.x

theorem advance_evaluated {fr : Frame} {c c' : Cursor} (hc : advance rnd fused slope s pb fr c = some c') : Evaluated rnd fused c' := by
  unfold advance at hc
  obtain ⟨d, -, rfl⟩ := Option.map_eq_some_iff.mp hc
  rfl

theorem frames_evaluated {fs : List Frame} {c c' : Cursor} (h0 : Evaluated rnd fused c)
    (hc : frames rnd fused slope s pb fs c = some c') : Evaluated rnd fused c' := by
  induction fs generalizing c with
  | nil => cases hc; exact h0
  | cons f fs ih =>
    simp only [frames] at hc
    obtain ⟨d, hd, he⟩ := Option.bind_eq_some_iff.mp hc
    exact ih (advance_evaluated hd) he

theorem play_evaluated {x : ℚ} {fs : List Frame} {c : Cursor} (hc : play rnd fused slope s pb x fs = some c) :
    Evaluated rnd fused c := by
  unfold play jump at hc
  obtain ⟨d, hd, he⟩ := Option.bind_eq_some_iff.mp hc
  obtain ⟨e, -, rfl⟩ := Option.map_eq_some_iff.mp hd
  exact frames_evaluated (c := evaluate rnd fused e) rfl he

theorem Finished.advance {c : Cursor} (hc : Finished rnd s pb c) (fr : Frame) :
    ∃ c', Hermite.advance rnd fused slope s pb fr c = some c' ∧ Finished rnd s pb c' := by
  obtain ⟨l, hl, hi, hend, hcub⟩ := hc
  refine ⟨evaluate rnd fused { c with x := mulAdd rnd fused fr.dt fr.rate c.x }, ?_, l, hl, hi, hend, hcub⟩
  unfold Hermite.advance
  rw [hend, if_neg (by simp)]
  rfl

theorem Finished.frames {c : Cursor} (hc : Finished rnd s pb c) (fs : List Frame) :
    ∃ c', Hermite.frames rnd fused slope s pb fs c = some c' ∧ Finished rnd s pb c' := by
  induction fs generalizing c with
  | nil => exact ⟨c, rfl, hc⟩
  | cons f fs ih =>
    obtain ⟨d, hd, hfd⟩ := hc.advance (fused := fused) (slope := slope) f
    obtain ⟨e, he, hfe⟩ := ih hfd
    refine ⟨e, ?_, hfe⟩
    simp only [Hermite.frames, hd, Option.bind_some, he]

/-- Where the cursor is, `n` frames after the start, when it should be at `S`. -/
def Where (rnd : ℚ → ℚ) (slope : ℤ → ℚ) (s : Spline) (pb : Playback) (l : Node) (D : ℚ) (n : ℕ) (S : ℚ) (c : Cursor) : Prop :=
  (pb.rep = false ∧ Finished rnd s pb c ∧ (l.x - 9 / 16) * s.g ≤ S + (n + 1) * ((l.x * s.g + D + s.g) / 2 ^ 20)) ∨
  ∃ (k : ℕ) (P : ℚ), (pb.rep = false → k = 0) ∧ Located rnd slope s pb c P ∧
    |P + k * (l.x * s.g) - S| ≤ (n + 1) * ((l.x * s.g + D + s.g) / 2 ^ 20)

section Many

variable {f l : Node} {D : ℚ}

theorem Where.next (h : Nearest f32 rnd) (hs : s.Legal) (hf : s.nodes.head? = some f) (hl : s.nodes.getLast? = some l)
    (hD0 : 0 ≤ D) (hD : D ≤ 2 ^ 29 * s.g) (hrep : pb.rep = true → 2 ≤ s.nodes.length ∧ D + s.g ≤ l.x * s.g)
    {c : Cursor} {n : ℕ} {S : ℚ} (hc : Where rnd slope s pb l D n S c) {fr : Frame} (h0 : 0 ≤ fr.dt) (h1 : 0 ≤ fr.rate)
    (h2 : fr.dt * fr.rate ≤ D) :
    ∃ c', advance rnd fused slope s pb fr c = some c' ∧ Where rnd slope s pb l D (n + 1) (S + fr.dt * fr.rate) c' := by
  have hg := hs.pos
  have hδ := mul_nonneg h0 h1
  have hQ : 0 ≤ (l.x * s.g + D + s.g) / 2 ^ 20 := by positivity
  set Q := (l.x * s.g + D + s.g) / 2 ^ 20 with hQd
  rcases hc with ⟨hr, hfin, hle⟩ | ⟨k, P, hk, hP, hd⟩
  · obtain ⟨c', hc', hf'⟩ := hfin.advance (fused := fused) (slope := slope) fr
    refine ⟨c', hc', Or.inl ⟨hr, hf', ?_⟩⟩
    push_cast
    rw [← hQd] at hle ⊢
    linarith
  · obtain ⟨c', hc', hor⟩ := step (fused := fused) h hs hf hl hD0 hD hrep hP h0 h1 h2
    refine ⟨c', hc', ?_⟩
    rw [← hQd] at hor
    rcases hor with ⟨hr, hfin, hle⟩ | ⟨k', P', hk', hP', hd'⟩
    · have := hk hr
      subst this
      refine Or.inl ⟨hr, hfin, ?_⟩
      push_cast at hd ⊢
      rw [← hQd] at hd ⊢
      rw [zero_mul, add_zero] at hd
      have := (abs_le.mp hd).2
      linarith
    · refine Or.inr ⟨k + k', P', fun hr => (by rw [hk hr, hk' hr]), hP', ?_⟩
      push_cast
      rw [← hQd] at hd ⊢
      have e : P' + ((k : ℚ) + k') * (l.x * s.g) - (S + fr.dt * fr.rate) =
          (P' + k' * (l.x * s.g) - (P + fr.dt * fr.rate)) + (P + k * (l.x * s.g) - S) := by ring
      rw [e]
      refine (abs_add_le _ _).trans ?_
      linarith

theorem Where.frames (h : Nearest f32 rnd) (hs : s.Legal) (hf : s.nodes.head? = some f) (hl : s.nodes.getLast? = some l)
    (hD0 : 0 ≤ D) (hD : D ≤ 2 ^ 29 * s.g) (hrep : pb.rep = true → 2 ≤ s.nodes.length ∧ D + s.g ≤ l.x * s.g)
    {fs : List Frame} (hfs : Forward D fs) {c : Cursor} {n : ℕ} {S : ℚ} (hc : Where rnd slope s pb l D n S c) :
    ∃ c', frames rnd fused slope s pb fs c = some c' ∧ Where rnd slope s pb l D (n + fs.length) (S + distance fs) c' := by
  induction fs generalizing c n S with
  | nil => exact ⟨c, rfl, by simpa [distance] using hc⟩
  | cons fr fs ih =>
    obtain ⟨h0, h1, h2⟩ := hfs fr (by simp)
    obtain ⟨d, hd, hw⟩ := hc.next (fused := fused) h hs hf hl hD0 hD hrep h0 h1 h2
    obtain ⟨e, he, hw'⟩ := ih (fun q hq => hfs q (by simp [hq])) hw
    refine ⟨e, by simp only [Hermite.frames, hd, Option.bind_some, he], ?_⟩
    have e1 : n + 1 + fs.length = n + (fr :: fs).length := by simp only [List.length_cons]; omega
    have e2 : S + fr.dt * fr.rate + distance fs = S + distance (fr :: fs) := by
      simp only [distance, List.map_cons, List.sum_cons]; ring
    rwa [e1, e2] at hw'

theorem play_where (h : Nearest f32 rnd) (hs : s.Legal) (hf : s.nodes.head? = some f) (hl : s.nodes.getLast? = some l)
    (hD0 : 0 ≤ D) (hD : D ≤ 2 ^ 29 * s.g) (hrep : pb.rep = true → 2 ≤ s.nodes.length ∧ D + s.g ≤ l.x * s.g)
    {x : ℚ} (hxm : f32.Mem x) (hx0 : 0 ≤ x) (hx1 : x ≤ l.x * s.g) {fs : List Frame} (hfs : Forward D fs) :
    ∃ c, play rnd fused slope s pb x fs = some c ∧ Where rnd slope s pb l D fs.length (x + distance fs) c := by
  have hg := hs.pos
  have hl65 : (l.x : ℚ) ≤ 65535 := by exact_mod_cast (hs.ok l (List.mem_of_getLast? hl)).1
  have hlg : (l.x : ℚ) * s.g ≤ 65535 * s.g := mul_le_mul_of_nonneg_right hl65 hg.le
  have hl0 : 0 ≤ (l.x : ℚ) * s.g := by positivity
  obtain ⟨c, hc, hor⟩ := initCubic_spec (slope := slope) (pb := pb) h hs hf hl hD0 (le_refl (l.x * s.g + D + s.g)) hxm hx0
    (by linarith) (fun hr => ⟨(hrep hr).1, (hrep hr).2, by linarith⟩) kInvalid
  have hU : 5 * (17 / 16 * u * (l.x * s.g + D + s.g)) ≤ (l.x * s.g + D + s.g) / 2 ^ 20 := by
    have e : 5 * (17 / 16 * u * (l.x * s.g + D + s.g)) = 85 / 16 * (1 / 2 ^ 24) * (l.x * s.g + D + s.g) := by rw [u]; ring
    rw [e]
    linarith
  have hQ : 0 ≤ (l.x * s.g + D + s.g) / 2 ^ 20 := by positivity
  have hw : Where rnd slope s pb l D 0 x (evaluate rnd fused c) := by
    rcases hor with ⟨hr, hfin, hle⟩ | ⟨k, P, hk, hP, hd⟩
    · refine Or.inl ⟨hr, hfin, ?_⟩
      push_cast
      linarith
    · refine Or.inr ⟨k, P, hk, hP, ?_⟩
      push_cast
      linarith
  obtain ⟨e, he, hwe⟩ := hw.frames (fused := fused) h hs hf hl hD0 hD hrep hfs
  refine ⟨e, ?_, by simpa using hwe⟩
  unfold play jump
  rw [hc]
  exact he

theorem Finished.shows (h : Nearest f32 rnd) (hl : s.nodes.getLast? = some l) {c : Cursor} (hc : Finished rnd s pb c)
    (he : Evaluated rnd fused c) : c.y = shownY rnd s pb l ∧ c.rawSlope rnd fused = 0 := by
  obtain ⟨l', hl', -, -, hcub⟩ := hc
  obtain rfl : l' = l := Option.some.inj (hl'.symm.trans hl)
  have := flat_curve (fused := fused) (pb := pb) h (nodeY rnd s l') c.x
  unfold Evaluated at he
  unfold Cursor.rawSlope
  rw [he, hcub]
  exact this

theorem Located.shows (h : Nearest f32 rnd) (hsl : ∀ a, f32.Mem (slope a)) (hs : s.Legal) (ho : f32.Mem pb.yOffset) {c : Cursor} {P : ℚ}
    (hc : Located rnd slope s pb c P) (he : Evaluated rnd fused c) : Shows rnd fused slope s pb c P := by
  have hg := hs.pos
  unfold Evaluated at he
  rcases hc.2 with ⟨f', hf', hi, rfl, hx0, hx1, hend, hcub⟩ | ⟨i, a, b, ha, hb, hi, rfl, hx0, hx1, hend, hcub⟩
  · have := flat_curve (fused := fused) (pb := pb) h (nodeY rnd s f') c.x
    refine Or.inl ⟨f', hf', hx0, by linarith, ?_, ?_⟩
    · rw [he, hcub]; exact this.1
    · unfold Cursor.rawSlope; rw [hcub]; exact this.2
  · have hgap : gap s a b = b.x * s.g - a.x * s.g := by unfold gap; ring
    refine Or.inr ⟨i, a, b, ha, hb, by linarith, by rw [hgap] at hx1; linarith, ?_⟩
    intro hab p hp
    have e : (a.x : ℚ) * s.g + c.x - a.x * s.g = c.x := by ring
    rw [e]
    have hb65 : (b.x : ℚ) ≤ 65535 := by exact_mod_cast (hs.ok b (List.mem_of_getElem? hb)).1
    have ha0 : (0 : ℚ) ≤ a.x := by positivity
    have hab1 : (a.x : ℚ) + 1 ≤ b.x := by exact_mod_cast hab
    have hw1 : s.g ≤ gap s a b := by
      unfold gap
      have := mul_le_mul_of_nonneg_right (show (1 : ℚ) ≤ (b.x : ℚ) - a.x by linarith) hg.le
      linarith
    have hw2 : gap s a b ≤ 65535 * s.g := by
      unfold gap
      exact mul_le_mul_of_nonneg_right (by linarith) hg.le
    have hlow : 1 / 2 ^ 30 ≤ gap s a b := hs.least.trans hw1
    have hhigh : gap s a b ≤ 2 ^ 30 := by
      have := mul_le_mul_of_nonneg_left hs.most (show (0 : ℚ) ≤ 65535 by norm_num)
      refine (hw2.trans this).trans (by norm_num)
    have hwpos : 0 < gap s a b := lt_of_lt_of_le hg hw1
    have hv : |(cubicInit rnd slope s a b).widthX - gap s a b| ≤ gap s a b / 2 ^ 24 := by
      have e : (cubicInit rnd slope s a b).widthX = rnd (gap s a b) := by
        simp only [cubicInit, widthX, gap]; push_cast; rfl
      rw [e]
      have := err_normal h (x := gap s a b) (by
        rw [abs_of_pos hwpos]; refine le_trans ?_ hlow; norm_num)
      rw [abs_of_pos hwpos, u] at this
      linarith
    have hx : |c.x| ≤ 2 * gap s a b := by rw [abs_le]; constructor <;> linarith
    have hi := floats_init h hsl s a b
    unfold Cursor.rawSlope
    rw [he, hcub]
    exact ⟨scaled_value h hi hv hlow hhigh hp hx ho, scaled_slope h hi hv hlow hhigh hp hx⟩

/-- **C101**: a spline that is played in single precision, frame by frame and forwards, never fails, and is where it should be:
after `n` frames its position differs from the start and the distance played by at most `(n + 1) (E + D + g) / 2 ^ 20`, where `E` is the
length of the spline, `D` the longest frame and `g` the granularity; if the spline repeats, up to a number of whole lengths.
It shows the value and the slope of the spline at that position; a spline that does not repeat shows exactly its last y once
it has run past its end. -/
theorem C101_play (h : Nearest f32 rnd) (hsl : ∀ a, f32.Mem (slope a)) (hs : s.Legal) (ho : f32.Mem pb.yOffset)
    (hl : s.nodes.getLast? = some l) (hD0 : 0 ≤ D) (hD : D ≤ 2 ^ 29 * s.g)
    (hrep : pb.rep = true → 2 ≤ s.nodes.length ∧ D + s.g ≤ l.x * s.g)
    {x : ℚ} (hxm : f32.Mem x) (hx0 : 0 ≤ x) (hx1 : x ≤ l.x * s.g) {fs : List Frame} (hfs : Forward D fs) :
    ∃ c, play rnd fused slope s pb x fs = some c ∧
      ((pb.rep = false ∧ c.y = shownY rnd s pb l ∧ c.rawSlope rnd fused = 0 ∧
          (l.x - 9 / 16) * s.g ≤ x + distance fs + (fs.length + 1) * ((l.x * s.g + D + s.g) / 2 ^ 20)) ∨
       ∃ (k : ℕ) (P : ℚ), (pb.rep = false → k = 0) ∧ Shows rnd fused slope s pb c P ∧
          |P + k * (l.x * s.g) - (x + distance fs)| ≤ (fs.length + 1) * ((l.x * s.g + D + s.g) / 2 ^ 20)) := by
  obtain ⟨f, hf⟩ : ∃ f, s.nodes.head? = some f := by
    rw [List.head?_eq_getElem?]
    exact ⟨_, List.getElem?_eq_getElem hs.nonempty⟩
  obtain ⟨c, hc, hw⟩ := play_where (fused := fused) (slope := slope) h hs hf hl hD0 hD hrep hxm hx0 hx1 hfs
  have he := play_evaluated hc
  refine ⟨c, hc, ?_⟩
  rcases hw with ⟨hr, hfin, hle⟩ | ⟨k, P, hk, hP, hd⟩
  · have := hfin.shows h hl he
    exact Or.inl ⟨hr, this.1, this.2, hle⟩
  · exact Or.inr ⟨k, P, hk, hP.shows h hsl hs ho he, hd⟩

/-- **C101**: a spline that does not repeat, and has been played past its end, shows exactly its last y and the slope 0 from then
on, whatever is played later.  (So a negative rate does not bring it back.) -/
theorem C101_ends (h : Nearest f32 rnd) (hs : s.Legal)
    (hl : s.nodes.getLast? = some l) (hD0 : 0 ≤ D) (hD : D ≤ 2 ^ 29 * s.g) (hrep : pb.rep = false)
    {x : ℚ} (hxm : f32.Mem x) (hx0 : 0 ≤ x) (hx1 : x ≤ l.x * s.g) {fs : List Frame} (hfs : Forward D fs)
    (hend : (l.x + 5 / 8) * s.g + (fs.length + 1) * ((l.x * s.g + D + s.g) / 2 ^ 20) < x + distance fs) (gs : List Frame) :
    ∃ c, play rnd fused slope s pb x (fs ++ gs) = some c ∧ c.y = shownY rnd s pb l ∧ c.rawSlope rnd fused = 0 := by
  obtain ⟨f, hf⟩ : ∃ f, s.nodes.head? = some f := by
    rw [List.head?_eq_getElem?]
    exact ⟨_, List.getElem?_eq_getElem hs.nonempty⟩
  obtain ⟨c, hc, hw⟩ := play_where (fused := fused) (slope := slope) h hs hf hl hD0 hD (pb := pb) (by simp [hrep]) hxm hx0 hx1 hfs
  have hfin : Finished rnd s pb c := by
    rcases hw with ⟨-, hfin, -⟩ | ⟨k, P, hk, hP, hd⟩
    · exact hfin
    · exfalso
      rw [hk hrep] at hd
      push_cast at hd
      rw [zero_mul, add_zero] at hd
      have := (abs_le.mp hd).1
      have := hP.le hs hl
      linarith
  obtain ⟨c', hc', hf'⟩ := hfin.frames (fused := fused) (slope := slope) gs
  have hp : play rnd fused slope s pb x (fs ++ gs) = some c' := by
    unfold play at hc ⊢
    obtain ⟨d, hd, he⟩ := Option.bind_eq_some_iff.mp hc
    rw [hd]
    simp only [Option.bind_some]
    rw [frames_append, he]
    exact hc'
  exact ⟨c', hp, hf'.shows h hl (play_evaluated hp)⟩

end Many

/-! ### Samples -/

theorem sampleLoop_spec {dx : ℚ} : ∀ (n : ℕ) (c : Cursor), (∀ i ≤ n, (frames rnd fused slope s pb (List.replicate i ⟨dx, 1⟩) c).isSome) →
    ∃ r, sampleLoop rnd fused slope s pb dx n c = some r ∧ r.length = n ∧
      ∀ (i : ℕ), i < n → ∃ c', frames rnd fused slope s pb (List.replicate i ⟨dx, 1⟩) c = some c' ∧
        r[i]? = some (c'.y, c'.derivative rnd fused 1) := by
  intro n
  induction n with
  | zero => intro c _; exact ⟨[], rfl, rfl, fun i hi => (by omega)⟩
  | succ n ih =>
    intro c hc
    have h1 := hc 1 (by omega)
    obtain ⟨d, hd⟩ : ∃ d, advance rnd fused slope s pb ⟨dx, 1⟩ c = some d := by
      cases he : advance rnd fused slope s pb ⟨dx, 1⟩ c with
      | none => simp [frames, he] at h1
      | some d => exact ⟨d, rfl⟩
    have hf : ∀ i, frames rnd fused slope s pb (List.replicate (i + 1) ⟨dx, 1⟩) c =
        frames rnd fused slope s pb (List.replicate i ⟨dx, 1⟩) d := by
      intro i; rw [List.replicate_succ, frames, hd]; rfl
    obtain ⟨r, hr, hlen, hi⟩ := ih d (fun i hi => by rw [← hf]; exact hc (i + 1) (by omega))
    refine ⟨(c.y, c.derivative rnd fused 1) :: r, by simp only [sampleLoop, hd, Option.bind_some, hr, Option.map_some], by simp [hlen], ?_⟩
    intro i hin
    cases i with
    | zero => exact ⟨c, rfl, rfl⟩
    | succ i =>
      obtain ⟨c', hc', hr'⟩ := hi i (by omega)
      exact ⟨c', by rw [hf]; exact hc', by simpa using hr'⟩

theorem derivative_one (h : Nearest f32 rnd) (c : Cursor) : c.derivative rnd fused 1 = c.rawSlope rnd fused := by
  unfold Cursor.derivative Cursor.rawSlope
  rw [one_mul]
  exact h.exact (mulAdd_mem h _ _ _)

/-- **C101**: the samples that `Ys` returns.  There are as many as were asked for; the `i`-th is the value and the slope of the spline at a
position that differs from `x + i dx` by at most `(i + 1) (E + dx + g) / 2 ^ 20`, or exactly the last y and the slope 0. -/
theorem C101_samples (h : Nearest f32 rnd) (hsl : ∀ a, f32.Mem (slope a)) (hs : s.Legal) {l : Node}
    (hl : s.nodes.getLast? = some l) {x dx : ℚ} (hd0 : 0 ≤ dx) (hd : dx ≤ 2 ^ 29 * s.g)
    (hxm : f32.Mem x) (hx0 : 0 ≤ x) (hx1 : x ≤ l.x * s.g) {n : ℕ} (hn : n ≤ 65535) :
    ∃ r, samples rnd fused slope s x dx n = some r ∧ r.length = n ∧
      ∀ (i : ℕ) (y d : ℚ), r[i]? = some (y, d) →
        ((y, d) = (shownY rnd s ⟨false, 0, 1⟩ l, 0) ∧
          (l.x - 9 / 16) * s.g ≤ x + i * dx + (i + 1) * ((l.x * s.g + dx + s.g) / 2 ^ 20)) ∨
        ∃ (c : Cursor) (P : ℚ), c.y = y ∧ c.rawSlope rnd fused = d ∧ Shows rnd fused slope s ⟨false, 0, 1⟩ c P ∧
          |P - (x + i * dx)| ≤ (i + 1) * ((l.x * s.g + dx + s.g) / 2 ^ 20) := by
  have fw : ∀ i, Forward dx (List.replicate i ⟨dx, 1⟩) := by
    intro i f hf
    rw [List.eq_of_mem_replicate hf]
    exact ⟨hd0, zero_le_one, by rw [mul_one]⟩
  have dist : ∀ i : ℕ, distance (List.replicate i ⟨dx, 1⟩) = i * dx := by
    intro i
    unfold distance
    rw [List.map_replicate, List.sum_replicate]
    simp only [nsmul_eq_mul, mul_one]
  have key := fun i : ℕ => C101_play (fused := fused) (pb := ⟨false, 0, 1⟩) h hsl hs mem_zero hl hd0 hd (fun hr => (by cases hr))
    hxm hx0 hx1 (fw i)
  obtain ⟨c0, hc0⟩ : ∃ c0, jump rnd fused slope s ⟨false, 0, 1⟩ x = some c0 := by
    obtain ⟨c, hc, -⟩ := key 0
    unfold play at hc
    obtain ⟨d, hd, -⟩ := Option.bind_eq_some_iff.mp hc
    exact ⟨d, hd⟩
  have hpl : ∀ i : ℕ, play rnd fused slope s ⟨false, 0, 1⟩ x (List.replicate i ⟨dx, 1⟩) =
      frames rnd fused slope s ⟨false, 0, 1⟩ (List.replicate i ⟨dx, 1⟩) c0 := by
    intro i; unfold play; rw [hc0]; rfl
  obtain ⟨r, hr, hlen, hi⟩ := sampleLoop_spec (rnd := rnd) (fused := fused) (slope := slope) (s := s) (pb := ⟨false, 0, 1⟩) (dx := dx) n c0
    (fun i _ => by
      obtain ⟨c, hc, -⟩ := key i
      rw [← hpl, hc]; rfl)
  refine ⟨r, by unfold samples; rw [if_pos hn, hc0]; exact hr, hlen, ?_⟩
  intro i y d hyd
  have hin : i < n := by rw [← hlen]; exact (List.getElem?_eq_some_iff.mp hyd).1
  obtain ⟨c', hc', hri⟩ := hi i hin
  have e := Option.some.inj (hyd.symm.trans hri)
  rw [derivative_one h] at e
  obtain ⟨c, hc, hor⟩ := key i
  rw [hpl, hc'] at hc
  cases hc
  rw [dist, List.length_replicate] at hor
  rcases hor with ⟨-, h1, h2, h3⟩ | ⟨k, P, hk, hP, hd⟩
  · left
    rw [e, h1, h2]
    exact ⟨rfl, h3⟩
  · right
    rw [hk rfl] at hd
    push_cast at hd
    rw [zero_mul, add_zero] at hd
    exact ⟨c', P, (congrArg Prod.fst e).symm, (congrArg Prod.snd e).symm, hP, hd⟩

/-! ### Slow motion -/

/-- A long spline. -/
def long : Spline := ⟨⟨0, 1⟩, 1, [⟨0, 0, 0⟩, ⟨65535, 65535, 0⟩]⟩

theorem long_legal : long.Legal := by
  refine ⟨mem_int (n := 1) (by norm_num [f32]) (by norm_num [f32]), by norm_num [long], by norm_num [long], by simp [long],
    by simp [long], ?_, ?_, ?_⟩
  · intro i a b ha hb
    rcases i with _ | i
    · simp only [long, List.getElem?_cons_zero, List.getElem?_cons_succ, Option.some.injEq] at ha hb; subst ha hb; simp
    · simp [long] at hb
  · intro i a b ha hb
    simp [long] at hb
  · intro n hn
    simp only [long, List.mem_cons, List.not_mem_nil, or_false] at hn
    rcases hn with rfl | rfl <;> simp [Node.Ok]

/-- **C101**, the limit: a spline that is played slowly enough does not move at all.  However many frames are played, it stays
where it was started, although the rate is positive, and it never reaches its end. -/
theorem C101_slow_motion_stalls (n : ℕ) :
    play (rne f32) false (fun _ => 0) long ⟨false, 0, 1⟩ 65534 (List.replicate n ⟨1, 1 / 1024⟩) =
      play (rne f32) false (fun _ => 0) long ⟨false, 0, 1⟩ 65534 [] ∧
    (play (rne f32) false (fun _ => 0) long ⟨false, 0, 1⟩ 65534 []).map (·.x) = some 65534 ∧
    distance (List.replicate n ⟨1, 1 / 1024⟩) = n / 1024 := by
  set pb : Playback := ⟨false, 0, 1⟩ with hpb
  have hi : indexForX (rne f32) long 65534 0 = some 0 := by decide +kernel
  have ha : nodeX (rne f32) long ⟨0, 0, 0⟩ = 0 := by decide +kernel
  have hb : nodeX (rne f32) long ⟨65535, 65535, 0⟩ = 65535 := by decide +kernel
  have hx : rne f32 (65534 - 0) = 65534 := by decide +kernel
  have hw : rne f32 (65535 - 0) = 65535 := by decide +kernel
  have hm : mulAdd (rne f32) false 1 (1 / 1024) 65534 = 65534 := by decide +kernel
  obtain ⟨cub, hcub⟩ : ∃ cub, cub = curveOf (rne f32) pb (cubicInit (rne f32) (fun _ => 0) long ⟨0, 0, 0⟩ ⟨65535, 65535, 0⟩) := ⟨_, rfl⟩
  set c : Cursor := ⟨0, 65534, ((65535 : ℚ) : WithTop ℚ), cub, eval (rne f32) false cub 65534⟩ with hc
  have hj : jump (rne f32) false (fun _ => 0) long pb 65534 = some c := by
    unfold jump initCubic indexRepeat
    rw [show (kInvalid + 1) % 65536 = 0 by decide, hi]
    simp only [Option.bind_some, hpb, Bool.not_false, Bool.true_or, if_true]
    unfold place rangeX cubicInitAt
    rw [if_neg (by decide), if_neg (by decide), if_neg (by decide), if_neg (by decide)]
    have n0 : long.nodes[0]? = some ⟨0, 0, 0⟩ := rfl
    have n1 : long.nodes[0 + 1]? = some ⟨65535, 65535, 0⟩ := rfl
    rw [n0, n1]
    simp only [Option.bind_some, Option.map_some, ha, hb, hx, hw]
    rw [hc, hcub]
    rfl
  have ha : advance (rne f32) false (fun _ => 0) long pb ⟨1, 1 / 1024⟩ c = some c := by
    unfold advance
    rw [hc]
    simp only [hm]
    rw [if_neg (by rw [WithTop.coe_lt_coe]; norm_num)]
    rfl
  have hn : frames (rne f32) false (fun _ => 0) long pb (List.replicate n ⟨1, 1 / 1024⟩) c = some c := by
    induction n with
    | zero => rfl
    | succ n ih => rw [List.replicate_succ, frames, ha]; exact ih
  refine ⟨?_, ?_, ?_⟩
  · unfold play
    rw [hj]
    simp only [Option.bind_some]
    rw [hn]
    rfl
  · unfold play
    rw [hj]
    rfl
  · unfold distance
    rw [List.map_replicate, List.sum_replicate]
    simp only [one_mul, nsmul_eq_mul]
    ring

/-- The theorems apply to a hill that is played once at double speed, twice as high; and to one that repeats. -/
example : (∃ c, play (rne f32) true (fun _ => 0) hill ⟨false, 0, 2⟩ 1 (List.replicate 20 ⟨1 / 4, 2⟩) = some c ∧
      c.y = shownY (rne f32) hill ⟨false, 0, 2⟩ ⟨9, 0, 0⟩) ∧
    ∃ (c : Cursor) (k : ℕ) (P : ℚ), play (rne f32) true (fun _ => 0) hill ⟨true, 0, 1⟩ 1 (List.replicate 40 ⟨1 / 4, 2⟩) = some c ∧
      Shows (rne f32) true (fun _ => 0) hill ⟨true, 0, 1⟩ c P ∧ |P + k * 9 - 21| ≤ 1 / 2 ^ 10 := by
  have fw : ∀ n, Forward (1 / 2) (List.replicate n ⟨1 / 4, 2⟩) := by
    intro n f hf
    rw [List.eq_of_mem_replicate hf]
    norm_num
  have dist : ∀ n : ℕ, distance (List.replicate n ⟨1 / 4, 2⟩) = n / 2 := by
    intro n
    unfold distance
    rw [List.map_replicate, List.sum_replicate]
    simp only [nsmul_eq_mul]
    ring
  constructor
  · obtain ⟨c, h1, h2, -⟩ := C101_ends (fused := true) (slope := fun _ => 0) (pb := ⟨false, 0, 2⟩) (rne_nearest f32) hill_legal
      (l := ⟨9, 0, 0⟩) (D := 1 / 2) rfl (by norm_num) (by norm_num [hill]) rfl (x := 1) mem_one (by norm_num) (by norm_num [hill])
      (fw 20) (by rw [dist]; norm_num [hill]) []
    rw [List.append_nil] at h1
    exact ⟨c, h1, h2⟩
  · obtain ⟨c, h1, hor⟩ := C101_play (fused := true) (slope := fun _ => 0) (pb := ⟨true, 0, 1⟩) (rne_nearest f32) (fun _ => mem_zero)
      hill_legal mem_zero (l := ⟨9, 0, 0⟩) (D := 1 / 2) rfl (by norm_num) (by norm_num [hill])
      (fun _ => ⟨by simp [hill], by norm_num [hill]⟩) (x := 1) mem_one (by norm_num) (by norm_num [hill]) (fw 40)
    rcases hor with ⟨hr, -⟩ | ⟨k, P, -, h2, h3⟩
    · cases hr
    · refine ⟨c, k, P, h1, h2, ?_⟩
      rw [dist] at h3
      norm_num [hill] at h3 ⊢
      linarith

end

end Motive.Float.Hermite
