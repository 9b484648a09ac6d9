import Verif.Spline.IndexProps
import Verif.Curve.Props

/-!
# Evaluating a spline (C25)
-/

namespace Motive.Splines
open Motive.Math Motive.Curve

namespace Spline

/-- Specification: `c` is a cubic, in the distance from node `a`, that passes through the nodes `a` and `b` with
their slopes.  By `C29_hermite` there is exactly one if `a` and `b` have different x. -/
def Hermite (s : Spline) (a b : Node) (c : Cubic ℝ) : Prop :=
  c.eval 0 = a.Y s.yRange ∧ c.deriv 0 = a.D ∧
  c.eval (b.X s.g - a.X s.g) = b.Y s.yRange ∧ c.deriv (b.X s.g - a.X s.g) = b.D

theorem width_eq (s : Spline) (a b : Node) : s.widthX a b = b.X s.g - a.X s.g := by
  simp only [widthX, Node.X]; ring

theorem width_pos {s : Spline} (hg : 0 < s.g) {a b : Node} (h : a.x < b.x) : 0 < s.widthX a b := by
  simp only [widthX]
  have : (a.x : ℝ) < b.x := by exact_mod_cast h
  exact mul_pos (by linarith) hg

theorem hermite_iff {s : Spline} (hg : 0 < s.g) {a b : Node} (h : a.x < b.x) (c : Cubic ℝ) :
    s.Hermite a b c ↔ c = Cubic.init (s.cubicInit a b) := by
  rw [C29_hermite (s.cubicInit a b) (width_pos hg h)]
  simp only [Hermite, cubicInit, width_eq]

theorem hermite_unique {s : Spline} (hg : 0 < s.g) {a b : Node} (h : a.x < b.x) :
    ∃! c, s.Hermite a b c :=
  ⟨_, (hermite_iff hg h _).mpr rfl, fun c hc => (hermite_iff hg h c).mp hc⟩

theorem calculate_segment {s : Spline} {x : ℝ} {i : ℕ} {a b : Node} (hi : s.indexForX x 0 = some i)
    (hmax : s.nodes.length ≤ 65534) (ha : s.nodes[i]? = some a) (hb : s.nodes[i + 1]? = some b) (t : ValueType) :
    s.calculate x t = some (curveValue (Cubic.init (s.cubicInit a b)) (x - a.X s.g) t) := by
  have hlt := (List.getElem?_eq_some_iff.mp hb).1
  have h1 : i ≠ kBefore := by simp only [kBefore]; omega
  have h2 : i ≠ kAfter := by simp only [kAfter]; omega
  have h3 : outside i = false := by unfold outside kAfter; exact decide_eq_false (by omega)
  unfold calculate
  rw [hi]
  simp only [Option.bind_some]
  rw [if_neg h1, if_neg h2]
  unfold cubicInitAt nodeX
  rw [if_neg (by rw [h3]; simp), if_neg h1, if_neg h2, ha, hb]
  rfl

/-- C25, inside a segment: more than half a grain away from the two nodes, the value and all derivatives are those
of the cubic through the nodes `a` and `b`. -/
theorem C25_inside_segment {s : Spline} (hs : s.WF) (hn : s.Indexable) {i : ℕ} {a b : Node}
    (ha : s.nodes[i]? = some a) (hb : s.nodes[i + 1]? = some b) {x : ℝ} (h1 : a.X s.g + s.g / 2 ≤ x)
    (h2 : x < b.X s.g - s.g / 2) :
    ∃ c, s.Hermite a b c ∧ ∀ t, s.calculate x t = some (curveValue c (x - a.X s.g) t) := by
  have hg := hs.g_pos
  have hax : (0 : ℝ) ≤ (a.x : ℝ) * s.g := by positivity
  have hb65 : (b.x : ℝ) ≤ 65535 := by exact_mod_cast (hs.ok b (List.mem_of_getElem? hb)).1
  simp only [Node.X] at h1 h2
  have d1 : (a.x : ℝ) + 1 / 2 ≤ x / s.g := by rw [le_div_iff₀ hg]; linarith
  have d2 : x / s.g < b.x - 1 / 2 := by rw [div_lt_iff₀ hg]; linarith
  have hq := quantizeX_eq (x := x) hg (by linarith) (by linarith)
  set q := ⌊x / s.g + 1 / 2⌋ with hqd
  have q1 : (a.x : ℤ) < q := by
    have : (a.x : ℤ) + 1 ≤ q := Int.le_floor.mpr (by push_cast; linarith)
    omega
  have q2 : q < b.x := Int.floor_lt.mpr (by push_cast; linarith)
  obtain ⟨j, f, l, hj, hf0, hl, -, -, j3⟩ := C23_index_for_x hs hn hq 0
  have hlt := (List.getElem?_eq_some_iff.mp hb).1
  have hfa := hs.sorted.le (Nat.zero_le i) hf0 ha
  have hbl := hs.sorted.le (show i + 1 ≤ s.nodes.length - 1 by omega) hb hl
  obtain ⟨a', c', -, ha', hc', e1, e2, -⟩ := j3 (by omega) (by omega) (by omega)
  have hij : j = i := by
    rcases lt_trichotomy i j with h | h | h
    · have := hs.sorted.le (show i + 1 ≤ j by omega) hb ha'; omega
    · exact h.symm
    · have := hs.sorted.le (show j + 1 ≤ i by omega) hc' ha; omega
  subst hij
  refine ⟨Cubic.init (s.cubicInit a b), (hermite_iff hg (by omega) _).mpr rfl, fun t => ?_⟩
  exact calculate_segment hj hn.2 ha hb t

theorem quantize_node {s : Spline} (hs : s.WF) {n : Node} (hn : n ∈ s.nodes) :
    quantizeX (n.X s.g) s.g = some (n.x : ℤ) := by
  have hg := hs.g_pos
  have hd : n.X s.g / s.g = (n.x : ℝ) := by simp only [Node.X]; field_simp
  have hle : (n.x : ℝ) ≤ 65535 := by exact_mod_cast (hs.ok n hn).1
  have hx0 : (0 : ℝ) ≤ n.X s.g := by simp only [Node.X]; positivity
  rw [quantizeX_eq hg (by linarith) (by rw [hd]; linarith), hd]
  congr 1
  rw [Int.floor_eq_iff]; push_cast; constructor <;> linarith

/-- C25, on a node: the value is the y of that node, or of the other node at the same x at a discontinuity. -/
theorem C25_at_node {s : Spline} (hs : s.WF) (hn : s.Indexable) {n : Node} (hmem : n ∈ s.nodes) :
    ∃ m ∈ s.nodes, m.x = n.x ∧ s.calculate (n.X s.g) .value = some (m.Y s.yRange) := by
  have hg := hs.g_pos
  have hq := quantize_node hs hmem
  obtain ⟨k, hk⟩ := List.mem_iff_getElem?.mp hmem
  have hklt := (List.getElem?_eq_some_iff.mp hk).1
  obtain ⟨i, f, b, hi, hf0, hbl, i1, i2, i3⟩ := C23_index_for_x hs hn hq 0
  have hfk := hs.sorted.le (Nat.zero_le k) hf0 hk
  have hkb := hs.sorted.le (show k ≤ s.nodes.length - 1 by omega) hk hbl
  by_cases h2 : 2 ≤ s.nodes.length
  · obtain ⟨a, c, -, ha, hc, e1, e2, e3, e4⟩ := i3 (by omega) (by omega) h2
    have hcalc := calculate_segment hi hn.2 ha hc .value
    by_cases hwid : a.x < c.x
    · have hH := (hermite_iff hg hwid _).mpr rfl
      rcases (show a.x = n.x ∨ a.x < n.x by omega) with h | h
      · refine ⟨a, List.mem_of_getElem? ha, h, ?_⟩
        rw [hcalc]; simp only [Node.X, h, sub_self, curveValue, hH.1]
      · have hcn : c.x = n.x := by
          rcases (show c.x = n.x ∨ n.x < c.x by omega) with h' | h'
          · exact h'
          · exfalso
            rcases lt_or_ge k (i + 1) with hki | hki
            · have := hs.sorted.le (show k ≤ i by omega) hk ha; omega
            · have := hs.sorted.le hki hc hk; omega
        refine ⟨c, List.mem_of_getElem? hc, hcn, ?_⟩
        rw [hcalc]
        have : n.X s.g = c.X s.g := by simp only [Node.X, hcn]
        rw [this]
        simp only [curveValue, hH.2.2.1]
    · have : a.x = n.x := by omega
      refine ⟨a, List.mem_of_getElem? ha, this, ?_⟩
      rw [hcalc]
      have hz : n.X s.g - a.X s.g = 0 := by simp only [Node.X, this, sub_self]
      rw [hz]
      have hw : ¬ 0 < (s.cubicInit a c).widthX := by
        simp only [cubicInit, widthX, not_lt]
        have : (c.x : ℝ) ≤ a.x := by exact_mod_cast not_lt.mp hwid
        exact mul_nonpos_of_nonpos_of_nonneg (by linarith) hg.le
      simp only [curveValue, (C29_hermite_degenerate _ hw).1]
      rfl
  · have h1 : s.nodes.length = 1 := by have := hn.1; omega
    rw [h1] at hbl; simp only [Nat.sub_self] at hbl
    rw [hf0] at hbl; cases hbl
    have hk0 : k = 0 := by omega
    subst hk0
    rw [hf0] at hk; cases hk
    have hia : i = kAfter := i2.mpr (Or.inr ⟨rfl, h1⟩)
    refine ⟨n, hmem, rfl, ?_⟩
    unfold calculate
    rw [hi, hia]
    simp only [Option.bind_some]
    rw [if_neg (by simp [kAfter, kBefore]), if_pos trivial, if_pos trivial]
    simp only [endY, List.getLast?_eq_getElem?, h1, Nat.sub_self, hf0, Option.map_some]

/-- C25, on a node whose neighbours have other x-values: the value is the node's y and, if the spline has a
segment, the derivative is the node's slope. -/
theorem C25_at_isolated_node {s : Spline} (hs : s.WF) (hn : s.Indexable) {k : ℕ} {n : Node}
    (hk : s.nodes[k]? = some n) (hprev : ∀ p, 0 < k → s.nodes[k - 1]? = some p → p.x < n.x)
    (hnext : ∀ p, s.nodes[k + 1]? = some p → n.x < p.x) :
    s.calculate (n.X s.g) .value = some (n.Y s.yRange) ∧
    (2 ≤ s.nodes.length → s.calculate (n.X s.g) .derivative = some n.D) := by
  have hg := hs.g_pos
  have hmem := List.mem_of_getElem? hk
  have hklt := (List.getElem?_eq_some_iff.mp hk).1
  have huniq : ∀ j m, s.nodes[j]? = some m → m.x = n.x → j = k := by
    intro j m hj hx
    rcases lt_trichotomy j k with h | h | h
    · obtain ⟨p, hp⟩ : ∃ p, s.nodes[k - 1]? = some p := ⟨_, List.getElem?_eq_getElem (by omega)⟩
      have := hprev p (by omega) hp
      have := hs.sorted.le (show j ≤ k - 1 by omega) hj hp
      omega
    · exact h
    · have hjlt := (List.getElem?_eq_some_iff.mp hj).1
      obtain ⟨p, hp⟩ : ∃ p, s.nodes[k + 1]? = some p := ⟨_, List.getElem?_eq_getElem (by omega)⟩
      have := hnext p hp
      have := hs.sorted.le (show k + 1 ≤ j by omega) hp hj
      omega
  constructor
  · obtain ⟨m, hm, hmx, hv⟩ := C25_at_node hs hn hmem
    obtain ⟨j, hj⟩ := List.mem_iff_getElem?.mp hm
    have := huniq j m hj hmx
    subst this
    rw [hk] at hj; cases hj
    exact hv
  · intro h2
    obtain ⟨i, f, b, hi, hf0, hbl, i1, i2, i3⟩ := C23_index_for_x hs hn (quantize_node hs hmem) 0
    have hfk := hs.sorted.le (Nat.zero_le k) hf0 hk
    have hkb := hs.sorted.le (show k ≤ s.nodes.length - 1 by omega) hk hbl
    obtain ⟨a, c, hilt, ha, hc, e1, e2, e3, e4⟩ := i3 (by omega) (by omega) h2
    have hcalc := calculate_segment hi hn.2 ha hc .derivative
    have hwid : a.x < c.x := by
      rcases (show n.x < b.x ∨ n.x = b.x by omega) with h | h
      · exact e3 (by omega)
      · have : s.nodes.length - 1 = k := huniq _ b hbl h.symm
        have hik := e4 (by omega)
        have hck : i + 1 = k := by omega
        rw [hck, hk] at hc; cases hc
        apply hprev a (by omega)
        rw [← hck]; simpa using ha
    have hH := (hermite_iff hg hwid _).mpr rfl
    rcases (show a.x = n.x ∨ a.x < n.x by omega) with h | h
    · have := huniq i a ha h
      subst this
      rw [hk] at ha; cases ha
      rw [hcalc]; simp only [sub_self, curveValue, hH.2.1]
    · have hcn : c.x = n.x := by
        rcases (show c.x = n.x ∨ n.x < c.x by omega) with h' | h'
        · exact h'
        · exfalso
          rcases lt_or_ge k (i + 1) with hki | hki
          · have := hs.sorted.le (show k ≤ i by omega) hk ha; omega
          · have := hs.sorted.le hki hc hk; omega
      have := huniq (i + 1) c hc hcn
      subst this
      rw [hk] at hc; cases hc
      rw [hcalc]; simp only [curveValue, hH.2.2.2]

/-- C25, outside: more than half a grain before the first node (at non-negative x) the curve is constant at the
first y; at least half a grain after the last node it is constant at the last y. -/
theorem C25_outside {s : Spline} (hs : s.WF) (hn : s.Indexable) {x x0 x1 : ℝ} (h0 : s.startX = some x0)
    (h1 : s.endX = some x1) (hr : x / s.g + 1 / 2 < 2147483648) :
    (0 ≤ x → x < x0 - s.g / 2 → s.calculate x .value = s.startY ∧ ∀ t ≠ .value, s.calculate x t = some 0) ∧
    (x1 + s.g / 2 ≤ x → s.calculate x .value = s.endY ∧ ∀ t ≠ .value, s.calculate x t = some 0) := by
  have hg := hs.g_pos
  have hlen := hn.1
  obtain ⟨f, hf0⟩ : ∃ f, s.nodes[0]? = some f := ⟨_, List.getElem?_eq_getElem (by omega)⟩
  obtain ⟨b, hbl⟩ : ∃ b, s.nodes[s.nodes.length - 1]? = some b := ⟨_, List.getElem?_eq_getElem (by omega)⟩
  have e0 : x0 = f.X s.g := by
    unfold startX at h0; rw [List.head?_eq_getElem?, hf0] at h0; exact (Option.some.inj h0).symm
  have e1 : x1 = b.X s.g := by
    unfold endX at h1; rw [List.getLast?_eq_getElem?, hbl] at h1; exact (Option.some.inj h1).symm
  have hb0 : (0 : ℝ) ≤ b.X s.g := by simp only [Node.X]; positivity
  have hba : kAfter ≠ kBefore := by simp [kAfter, kBefore]
  constructor
  · intro hx0 hx
    have hq := quantizeX_eq (x := x) hg (by linarith) hr
    obtain ⟨i, f', b', hi, hf0', hbl', i1, -, -⟩ := C23_index_for_x hs hn hq 0
    rw [hf0] at hf0'; cases hf0'
    have : i = kBefore := i1.mpr (Int.floor_lt.mpr (by
      have : x / s.g < f.x - 1 / 2 := by rw [div_lt_iff₀ hg]; rw [e0] at hx; simp only [Node.X] at hx; linarith
      push_cast; linarith))
    subst this
    unfold calculate
    rw [hi]
    simp only [Option.bind_some, if_true]
    exact ⟨trivial, fun t ht => if_neg ht⟩
  · intro hx
    have hq := quantizeX_eq (x := x) hg (by linarith) hr
    obtain ⟨i, f', b', hi, hf0', hbl', -, i2, -⟩ := C23_index_for_x hs hn hq 0
    rw [hbl] at hbl'; cases hbl'
    have : i = kAfter := i2.mpr (Or.inl (by
      have h3 : b.x + 1 / 2 ≤ x / s.g := by rw [le_div_iff₀ hg]; rw [e1] at hx; simp only [Node.X] at hx; linarith
      have : (b.x : ℤ) + 1 ≤ ⌊x / s.g + 1 / 2⌋ := Int.le_floor.mpr (by push_cast; linarith)
      omega))
    subst this
    unfold calculate
    rw [hi]
    simp only [Option.bind_some, if_neg hba, if_true]
    exact ⟨trivial, fun t ht => if_neg ht⟩

/-- C25, smoothness: the cubics of two consecutive segments of positive width meet with equal value and slope. -/
theorem C25_segments_join {s : Spline} {a b c : Node} {p q : Cubic ℝ}
    (hp : s.Hermite a b p) (hq : s.Hermite b c q) :
    p.eval (b.X s.g - a.X s.g) = q.eval 0 ∧ p.deriv (b.X s.g - a.X s.g) = q.deriv 0 :=
  ⟨hp.2.2.1.trans hq.1.symm, hp.2.2.2.trans hq.2.1.symm⟩

/-- Within half a grain of a node the direct evaluation may use the cubic of the neighbouring segment: on the
nodes (0,0), (1,0), (2,1), (3,1) with slope zero and granularity 1, the value at 1.6 is 1, while the cubic through
the two surrounding nodes has value 0.648 there. -/
theorem C25_window_uses_neighbour :
    let s : Spline := ⟨⟨0, 1⟩, 1, [⟨0, 0, 0⟩, ⟨1, 0, 0⟩, ⟨2, 65535, 0⟩, ⟨3, 65535, 0⟩], 7⟩
    s.calculate (8 / 5) .value = some 1 ∧
    ∀ c, s.Hermite ⟨1, 0, 0⟩ ⟨2, 65535, 0⟩ c → c.eval (8 / 5 - 1) = 81 / 125 := by
  intro s
  have hq : quantizeX (8 / 5) 1 = some 2 := by
    rw [quantizeX_eq (by norm_num) (by norm_num) (by norm_num)]
    norm_num [Int.floor_eq_iff]
  have hi : s.indexForX (8 / 5) 0 = some 2 := by
    simp [s, indexForX, hq, searchIndex, guessOk, containsX, binarySearch, upperBound]
  constructor
  · rw [calculate_segment hi (by simp [s]) (a := ⟨2, 65535, 0⟩) (b := ⟨3, 65535, 0⟩) (by simp [s]) (by simp [s])]
    norm_num [s, curveValue, Cubic.init, Cubic.eval, cubicInit, Node.Y, Node.D, Node.X, Range.lerp, widthX]
  · intro c hc
    rw [(hermite_iff (by norm_num [s]) (by norm_num) c).mp hc]
    norm_num [s, Cubic.init, Cubic.eval, cubicInit, Node.Y, Node.D, Range.lerp, widthX]

/-- The hypotheses hold of `sample`: 3.7 is inside its first segment, its first node is isolated, 20 is outside. -/
example : (Node.mk 2 0 0).X sample.g + sample.g / 2 ≤ 37 / 10 ∧
    37 / 10 < (Node.mk 5 65535 100).X sample.g - sample.g / 2 := by norm_num [sample, Node.X]
example : sample.endX = some 9 ∧ (9 : ℝ) + sample.g / 2 ≤ 20 := by norm_num [sample, endX, Node.X]

end Spline
end Motive.Splines
