import Verif.Spline.Bulk
import Verif.Spline.EvalProps

/-!
# Bulk evaluation agrees with direct evaluation (C26)
-/

namespace Motive.Splines
open Motive.Math Motive.Curve

namespace Spline

/-- `x` is on the segment (or outside part) number `j`, up to half a grain. -/
def Near (s : Spline) (x : ℝ) (j : ℕ) : Prop :=
  (j = kBefore ∧ ∃ f, s.nodes[0]? = some f ∧ x ≤ f.X s.g) ∨
  (j = kAfter ∧ ∃ b, s.nodes[s.nodes.length - 1]? = some b ∧
    (b.X s.g + s.g / 2 ≤ x ∨ (s.nodes.length = 1 ∧ b.X s.g - s.g / 2 ≤ x))) ∨
  (∃ a c, s.nodes[j]? = some a ∧ s.nodes[j + 1]? = some c ∧ a.X s.g - s.g / 2 ≤ x ∧ x ≤ c.X s.g + s.g / 2)

theorem near_index {s : Spline} (hs : s.WF) (hn : s.Indexable) {x : ℝ} (h0 : 0 ≤ x)
    (hr : x / s.g + 1 / 2 < 2147483648) (guess : ℕ) : ∃ i, s.indexForX x guess = some i ∧ s.Near x i := by
  have hg := hs.g_pos
  have hq := quantizeX_eq (x := x) hg (by linarith) hr
  set q := ⌊x / s.g + 1 / 2⌋ with hqd
  have hqn := quantizeX_near hg (by linarith) hq
  obtain ⟨i, f, b, hi, hf0, hbl, i1, i2, i3⟩ := C23_index_for_x hs hn hq guess
  refine ⟨i, hi, ?_⟩
  by_cases c1 : q < f.x
  · refine Or.inl ⟨i1.mpr c1, f, hf0, ?_⟩
    have : (q : ℝ) + 1 ≤ f.x := by exact_mod_cast c1
    simp only [Node.X]; nlinarith [hqn.2.2]
  by_cases c2 : (b.x : ℤ) < q ∨ (q = b.x ∧ s.nodes.length = 1)
  · refine Or.inr (Or.inl ⟨i2.mpr c2, b, hbl, ?_⟩)
    rcases c2 with c2 | ⟨c2, c3⟩
    · left
      have : (b.x : ℝ) + 1 ≤ q := by exact_mod_cast c2
      simp only [Node.X]; nlinarith [hqn.2.1]
    · right
      have : (q : ℝ) = b.x := by exact_mod_cast c2
      refine ⟨c3, ?_⟩
      simp only [Node.X]; rw [← this]; exact hqn.2.1
  · have hlen := hn.1
    have hfb := hs.sorted.le (Nat.zero_le _) hf0 hbl
    have hone : s.nodes.length = 1 → f = b := by
      intro h1; rw [h1] at hbl; simp only [Nat.sub_self] at hbl; rw [hf0] at hbl; exact Option.some.inj hbl
    have h2 : 2 ≤ s.nodes.length := by
      by_contra hc
      have := hone (by omega)
      subst this
      omega
    obtain ⟨a, c, -, ha, hc, e1, e2, -⟩ := i3 (by omega) (by omega) h2
    refine Or.inr (Or.inr ⟨a, c, ha, hc, ?_, ?_⟩)
    · have : (a.x : ℝ) ≤ q := by exact_mod_cast e1
      simp only [Node.X]; nlinarith [hqn.2.1]
    · have : (q : ℝ) ≤ c.x := by exact_mod_cast e2
      simp only [Node.X]; nlinarith [hqn.2.2]

/-- The data that the evaluator caches for the segment or outside part `j`. -/
theorem near_data {s : Spline} (hn : s.Indexable) {x : ℝ} {j : ℕ} (h : s.Near x j) :
    ∃ x0 L ci, s.nodeX j = some x0 ∧ s.rangeX j = some (x0, L) ∧ s.cubicInitAt j = some ci ∧
      (L = ⊤ ↔ j = kAfter) := by
  rcases h with ⟨rfl, f, hf, -⟩ | ⟨rfl, b, hb, -⟩ | ⟨a, c, ha, hc, -⟩
  · refine ⟨0, ((f.X s.g - 0 : ℝ) : WithTop ℝ), ⟨f.Y s.yRange, 0, f.Y s.yRange, 0, 1⟩, ?_, ?_, ?_, ?_⟩
    · simp [nodeX, kBefore, kAfter]
    · simp [rangeX, startX, List.head?_eq_getElem?, hf]
    · simp [cubicInitAt, outside, kBefore, kAfter, List.head?_eq_getElem?, hf]
    · simp [kBefore, kAfter]
  · refine ⟨b.X s.g, ⊤, ⟨b.Y s.yRange, 0, b.Y s.yRange, 0, 1⟩, ?_, ?_, ?_, by simp⟩
    · simp [nodeX, endX, List.getLast?_eq_getElem?, hb]
    · simp [rangeX, endX, List.getLast?_eq_getElem?, hb, kAfter, kBefore]
    · simp [cubicInitAt, outside, kBefore, kAfter, List.getLast?_eq_getElem?, hb]
  · have hlt := (List.getElem?_eq_some_iff.mp hc).1
    have hmax := hn.2
    have h1 : j ≠ kBefore := by simp only [kBefore]; omega
    have h2 : j ≠ kAfter := by simp only [kAfter]; omega
    have h3 : outside j = false := by unfold outside kAfter; exact decide_eq_false (by omega)
    refine ⟨a.X s.g, ((c.X s.g - a.X s.g : ℝ) : WithTop ℝ), s.cubicInit a c, ?_, ?_, ?_, by simp [h2]⟩
    · simp [nodeX, h1, h2, ha]
    · simp [rangeX, h1, h2, ha, hc]
    · simp [cubicInitAt, h3, ha, hc]

/-- Direct evaluation reads the same data. -/
theorem calculate_data {s : Spline} (hn : s.Indexable) {x x0 : ℝ} {j : ℕ} {ci : CubicInit ℝ}
    (hi : s.indexForX x 0 = some j) (h : s.Near x j) (h0 : s.nodeX j = some x0) (hc : s.cubicInitAt j = some ci) :
    s.calculate x .value = some ((Cubic.init ci).eval (x - x0)) ∧
    s.calculate x .derivative = some ((Cubic.init ci).deriv (x - x0)) := by
  have hba : kAfter ≠ kBefore := by simp [kAfter, kBefore]
  rcases h with ⟨rfl, f, hf, -⟩ | ⟨rfl, b, hb, -⟩ | ⟨a, c, ha, hc', -⟩
  · have : ci = ⟨f.Y s.yRange, 0, f.Y s.yRange, 0, 1⟩ := by
      simpa [cubicInitAt, outside, kBefore, kAfter, List.head?_eq_getElem?, hf] using hc.symm
    subst this
    unfold calculate; rw [hi]
    simp [startY, List.head?_eq_getElem?, hf, Cubic.init, Cubic.eval, Cubic.deriv]
  · have : ci = ⟨b.Y s.yRange, 0, b.Y s.yRange, 0, 1⟩ := by
      simpa [cubicInitAt, outside, kBefore, kAfter, List.getLast?_eq_getElem?, hb] using hc.symm
    subst this
    unfold calculate; rw [hi]
    simp [endY, List.getLast?_eq_getElem?, hb, Cubic.init, Cubic.eval, Cubic.deriv, hba]
  · have hlt := (List.getElem?_eq_some_iff.mp hc').1
    have hmax := hn.2
    have h1 : j ≠ kBefore := by simp only [kBefore]; omega
    have h2 : j ≠ kAfter := by simp only [kAfter]; omega
    unfold calculate; rw [hi]
    simp [h1, h2, hc, h0, curveValue]

/-- More than half a grain away from all nodes, the segment is unique. -/
theorem near_unique {s : Spline} (hs : s.WF) {x : ℝ} {i j : ℕ} (hi : s.Near x i) (hj : s.Near x j)
    (haway : ∀ n ∈ s.nodes, s.g / 2 < |x - n.X s.g|) : i = j := by
  have hg := hs.g_pos
  have lo : ∀ {k : ℕ} {n : Node}, s.nodes[k]? = some n → n.X s.g - s.g / 2 ≤ x → n.X s.g + s.g / 2 < x := by
    intro k n hk h
    rcases lt_abs.mp (haway n (List.mem_of_getElem? hk)) with h' | h' <;> linarith
  have hi' : ∀ {k : ℕ} {n : Node}, s.nodes[k]? = some n → x ≤ n.X s.g + s.g / 2 → x < n.X s.g - s.g / 2 := by
    intro k n hk h
    rcases lt_abs.mp (haway n (List.mem_of_getElem? hk)) with h' | h' <;> linarith
  have mono : ∀ {k l : ℕ} {n m : Node}, k ≤ l → s.nodes[k]? = some n → s.nodes[l]? = some m →
      n.X s.g ≤ m.X s.g := by
    intro k l n m hkl hk hl
    have : (n.x : ℝ) ≤ m.x := by exact_mod_cast hs.sorted.le hkl hk hl
    simp only [Node.X]; exact mul_le_mul_of_nonneg_right this hg.le
  have key : ∀ {i j : ℕ} {a c a' c' : Node}, s.nodes[i]? = some a → s.nodes[i + 1]? = some c →
      s.nodes[j]? = some a' → s.nodes[j + 1]? = some c' → x ≤ c.X s.g + s.g / 2 → a'.X s.g - s.g / 2 ≤ x → ¬ i < j := by
    intro i j a c a' c' _ hc ha' _ h1 h2 hlt
    have := mono (show i + 1 ≤ j by omega) hc ha'
    have := hi' hc h1
    have := lo ha' h2
    linarith
  rcases hi with ⟨rfl, f, hf, f1⟩ | ⟨rfl, b, hb, b1⟩ | ⟨a, c, ha, hc, a1, a2⟩ <;>
    rcases hj with ⟨rfl, f', hf', f1'⟩ | ⟨rfl, b', hb', b1'⟩ | ⟨a', c', ha', hc', a1', a2'⟩
  · rfl
  · exfalso
    have h1 := hi' hf (by linarith)
    have h2 := mono (Nat.zero_le _) hf hb'
    rcases b1' with b1' | ⟨-, b1'⟩ <;> linarith
  · exfalso
    have h1 := hi' hf (by linarith)
    have h2 := mono (Nat.zero_le _) hf ha'
    linarith
  · exfalso
    have h1 := hi' hf' (by linarith)
    have h2 := mono (Nat.zero_le _) hf' hb
    rcases b1 with b1 | ⟨-, b1⟩ <;> linarith
  · rfl
  · exfalso
    have h1 := hi' hc' a2'
    have hlt := (List.getElem?_eq_some_iff.mp hc').1
    have h2 := mono (show j + 1 ≤ s.nodes.length - 1 by omega) hc' hb
    rcases b1 with b1 | ⟨-, b1⟩
    · linarith
    · have := lo hb b1; linarith
  · exfalso
    have h1 := hi' hf' (by linarith)
    have h2 := mono (Nat.zero_le _) hf' ha
    linarith
  · exfalso
    have h1 := hi' hc a2
    have hlt := (List.getElem?_eq_some_iff.mp hc).1
    have h2 := mono (show i + 1 ≤ s.nodes.length - 1 by omega) hc hb'
    rcases b1' with b1' | ⟨-, b1'⟩
    · linarith
    · have := lo hb' b1'; linarith
  · have k1 := key ha hc ha' hc' a2 a1'
    have k2 := key ha' hc' ha hc a2' a1
    omega

/-- On a node with no neighbour at the same x, every segment near it gives the node's value; its slope too, except
before the first node. -/
theorem near_node {s : Spline} (hs : s.WF) (hn : s.Indexable) {k j : ℕ} {n : Node}
    (hk : s.nodes[k]? = some n) (hprev : ∀ p, 0 < k → s.nodes[k - 1]? = some p → p.x < n.x)
    (hnext : ∀ p, s.nodes[k + 1]? = some p → n.x < p.x) (hj : s.Near (n.X s.g) j) {x0 : ℝ} {ci : CubicInit ℝ}
    (h0 : s.nodeX j = some x0) (hc : s.cubicInitAt j = some ci) :
    (Cubic.init ci).eval (n.X s.g - x0) = n.Y s.yRange ∧
    (0 < k → (Cubic.init ci).deriv (n.X s.g - x0) = n.D) := by
  have hg := hs.g_pos
  have hklt := (List.getElem?_eq_some_iff.mp hk).1
  have hmax := hn.2
  have xle : ∀ {m m' : Node}, m.X s.g - s.g / 2 ≤ m'.X s.g → m.x ≤ m'.x := by
    intro m m' h
    by_contra hlt
    have : (m'.x : ℝ) + 1 ≤ m.x := by exact_mod_cast not_le.mp hlt
    simp only [Node.X] at h; nlinarith
  have before : ∀ {i m}, s.nodes[i]? = some m → i < k → m.x < n.x := by
    intro i m hi hlt
    obtain ⟨p, hp⟩ : ∃ p, s.nodes[k - 1]? = some p := ⟨_, List.getElem?_eq_getElem (by omega)⟩
    have := hprev p (by omega) hp
    have := hs.sorted.le (show i ≤ k - 1 by omega) hi hp
    omega
  have after : ∀ {i m}, s.nodes[i]? = some m → k < i → n.x < m.x := by
    intro i m hi hlt
    have := (List.getElem?_eq_some_iff.mp hi).1
    obtain ⟨p, hp⟩ : ∃ p, s.nodes[k + 1]? = some p := ⟨_, List.getElem?_eq_getElem (by omega)⟩
    have := hnext p hp
    have := hs.sorted.le (show k + 1 ≤ i by omega) hp hi
    omega
  rcases hj with ⟨rfl, f, hf, hx⟩ | ⟨rfl, b, hb, hx⟩ | ⟨a, c, ha, hc', h1, h2⟩
  · have : n.x ≤ f.x := xle (by linarith)
    have hk0 : k = 0 := by
      by_contra hne
      have := before hf (by omega); omega
    subst hk0
    rw [hk] at hf; cases hf
    have : ci = ⟨n.Y s.yRange, 0, n.Y s.yRange, 0, 1⟩ := by
      simpa [cubicInitAt, outside, kBefore, kAfter, List.head?_eq_getElem?, hk] using hc.symm
    subst this
    exact ⟨by simp [Cubic.init, Cubic.eval], by omega⟩
  · rcases hx with hx | ⟨hl, hx⟩
    · exfalso
      have := hs.sorted.le (show k ≤ s.nodes.length - 1 by omega) hk hb
      have : (n.x : ℝ) ≤ b.x := by exact_mod_cast this
      simp only [Node.X] at hx; nlinarith
    · have hk0 : k = 0 := by omega
      subst hk0
      rw [hl] at hb; simp only [Nat.sub_self] at hb
      rw [hk] at hb; cases hb
      have : ci = ⟨n.Y s.yRange, 0, n.Y s.yRange, 0, 1⟩ := by
        have hlast : s.nodes.getLast? = some n := by rw [List.getLast?_eq_getElem?, hl]; exact hk
        simpa [cubicInitAt, outside, kBefore, kAfter, hlast] using hc.symm
      subst this
      exact ⟨by simp [Cubic.init, Cubic.eval], by omega⟩
  · have hlt := (List.getElem?_eq_some_iff.mp hc').1
    have g1 : j ≠ kBefore := by simp only [kBefore]; omega
    have g2 : j ≠ kAfter := by simp only [kAfter]; omega
    have g3 : outside j = false := by unfold outside kAfter; exact decide_eq_false (by omega)
    have e0 : x0 = a.X s.g := by simpa [nodeX, g1, g2, ha] using h0.symm
    have ec : ci = s.cubicInit a c := by simpa [cubicInitAt, g3, ha, hc'] using hc.symm
    subst e0 ec
    have l1 : a.x ≤ n.x := xle h1
    have l2 : n.x ≤ c.x := xle (by linarith)
    have hjk : j ≤ k := by by_contra h; have := after ha (by omega); omega
    have hkj : k ≤ j + 1 := by by_contra h; have := before hc' (by omega); omega
    rcases (show k = j ∨ k = j + 1 by omega) with rfl | rfl
    · rw [hk] at ha; cases ha
      have hwid := after hc' (by omega)
      have hH := (hermite_iff hg hwid _).mpr rfl
      rw [sub_self]
      exact ⟨hH.1, fun _ => hH.2.1⟩
    · rw [hk] at hc'; cases hc'
      have hwid := before ha (by omega)
      have hH := (hermite_iff hg hwid _).mpr rfl
      exact ⟨hH.2.2.1, fun _ => hH.2.2.2⟩

end Spline

namespace Slot

/-- Specification: at `X`, the record reports the value and derivative that direct evaluation gives, scaled and
shifted, if `X` is more than half a grain away from the nodes; and those of the node if `X` is on a node with no
neighbour at the same x. -/
def Reports (s : Spline) (p : Playback) (c : Slot) (X : ℝ) : Prop :=
  ((∀ n ∈ s.nodes, s.g / 2 < |X - n.X s.g|) →
    ∃ v d, s.calculate X .value = some v ∧ s.calculate X .derivative = some d ∧
      c.y = p.yScale * v + p.yOffset ∧ c.derivative = p.rate * (p.yScale * d)) ∧
  (∀ k n, s.nodes[k]? = some n → (∀ m, 0 < k → s.nodes[k - 1]? = some m → m.x < n.x) →
    (∀ m, s.nodes[k + 1]? = some m → n.x < m.x) → X = n.X s.g →
      c.y = p.yScale * n.Y s.yRange + p.yOffset ∧ (0 < k → c.derivative = p.rate * (p.yScale * n.D)))

/-- The record is playing spline `s` at `X`; the cached cubic is that of a segment near `X`. -/
structure At (s : Spline) (id : ℕ) (p : Playback) (c : Slot) (X : ℝ) : Prop where
  spline : c.spline = some id
  rep : c.rep = p.rep
  rate : c.rate = p.rate
  off : c.yOffset = p.yOffset
  scale : c.yScale = p.yScale
  nonneg : 0 ≤ X
  near : s.Near X c.xIndex
  inside : p.rep = true → 2 ≤ s.nodes.length → c.xIndex ≠ kAfter
  data : ∃ x0 L ci, s.nodeX c.xIndex = some x0 ∧ s.rangeX c.xIndex = some (x0, L) ∧
    s.cubicInitAt c.xIndex = some ci ∧ c.cubicX = X - x0 ∧ c.cubicXEnd = L ∧
    c.cubic = ((Cubic.init ci).scaleUp p.yScale).shiftUp p.yOffset

theorem At.evaluate {s : Spline} {id : ℕ} {p : Playback} {c : Slot} {X : ℝ} (h : At s id p c X) :
    At s id p c.evaluate X := ⟨h.1, h.2, h.3, h.4, h.5, h.6, h.7, h.8, h.9⟩

theorem At.x {hp : Heap} {s : Spline} {id : ℕ} {p : Playback} {c : Slot} {X : ℝ} (h : At s id p c X)
    (hh : hp id = some s) : c.X hp = some X := by
  obtain ⟨x0, L, ci, h0, -, -, hx, -, -⟩ := h.data
  unfold Slot.X
  rw [h.spline]
  simp [hh, h0, hx]

theorem At.reports {s : Spline} (hs : s.WF) (hn : s.Indexable) {id : ℕ} {p : Playback} {c : Slot} {X : ℝ}
    (h : At s id p c X) (hr : X / s.g + 1 / 2 < 2147483648) : Reports s p c.evaluate X := by
  obtain ⟨x0, L, ci, h0, -, hci, hx, -, hcub⟩ := h.data
  have hy : c.evaluate.y = p.yScale * (Cubic.init ci).eval (X - x0) + p.yOffset := by
    simp only [Slot.evaluate, hcub, hx, Cubic.eval, Cubic.scaleUp, Cubic.shiftUp]; ring
  have hd : c.evaluate.derivative = p.rate * (p.yScale * (Cubic.init ci).deriv (X - x0)) := by
    simp only [Slot.evaluate, derivative, h.rate, hcub, hx, Cubic.deriv, Cubic.scaleUp, Cubic.shiftUp]; ring
  constructor
  · intro haway
    obtain ⟨i, hi, hnear⟩ := Spline.near_index hs hn h.nonneg hr 0
    have := Spline.near_unique hs hnear h.near haway
    subst this
    obtain ⟨e1, e2⟩ := Spline.calculate_data hn hi h.near h0 hci
    exact ⟨_, _, e1, e2, hy, hd⟩
  · intro k n hk hprev hnext hX
    subst hX
    obtain ⟨e1, e2⟩ := Spline.near_node hs hn hk hprev hnext h.near h0 hci
    rw [hy, hd, e1]
    exact ⟨rfl, fun h => by rw [e2 h]⟩

theorem initCubic_at {hp : Heap} {s : Spline} (hs : s.WF) (hn : s.Indexable) {id : ℕ} (hh : hp id = some s)
    {p : Playback} {c : Slot} (h1 : c.spline = some id) (h2 : c.rep = p.rep) (h3 : c.rate = p.rate)
    (h4 : c.yOffset = p.yOffset) (h5 : c.yScale = p.yScale) {X e : ℝ} (h0 : 0 ≤ X)
    (hr : X / s.g + 1 / 2 < 2147483648) (he : s.endX = some e) (hpos : p.rep = true → 0 < e) :
    ∃ c' X', c.initCubic hp X = some c' ∧ At s id p c' X' ∧ (p.rep = false → X' = X) ∧
      (∃ k : ℤ, X' = X + k * e) ∧ X' ≤ max X e := by
  have hg := hs.g_pos
  have fin : ∀ (i : ℕ) (X' : ℝ), s.indexForXRepeat X ((c.xIndex + 1) % 65536) c.rep = some (i, X') → s.Near X' i →
      0 ≤ X' → (p.rep = true → 2 ≤ s.nodes.length → i ≠ kAfter) →
      ∃ c', c.initCubic hp X = some c' ∧ At s id p c' X' := by
    intro i X' hix hnear hx0 hins
    obtain ⟨x0, L, ci, d1, d2, d3, -⟩ := Spline.near_data hn hnear
    refine ⟨{ c with
              cubicX := X' - x0
              xIndex := i
              cubicXEnd := L
              cubic := ((Cubic.init ci).scaleUp c.yScale).shiftUp c.yOffset }, ?_, ?_⟩
    · unfold initCubic
      rw [h1]
      simp only [hh, Option.bind_some, hix, d2, d3, Option.map_some]
    · exact ⟨h1, h2, h3, h4, h5, hx0, hnear, hins, x0, L, ci, d1, d2, d3, rfl, rfl, by rw [← h4, ← h5]⟩
  obtain ⟨i, hi, hnear⟩ := Spline.near_index hs hn h0 hr ((c.xIndex + 1) % 65536)
  by_cases hrep : p.rep = true
  · have hep := hpos hrep
    obtain ⟨j, fx, hj, -, j2, j3⟩ :=
      Spline.C24_repeat hs hn (quantizeX_eq hg (by linarith) hr) ((c.xIndex + 1) % 65536) c.rep he hep
    by_cases hia : i = kAfter
    · obtain ⟨f1, f2, ⟨k, f3⟩, f4, f5⟩ := j3 (by rw [h2]; exact hrep) (by rw [hi, hia])
      have hee : e / s.g ≤ 65535 := by
        obtain ⟨b, hb⟩ : ∃ b, s.nodes.getLast? = some b := by
          unfold Spline.endX at he
          cases hb : s.nodes.getLast? with
          | none => rw [hb] at he; simp at he
          | some b => exact ⟨b, rfl⟩
        have : e = b.X s.g := by unfold Spline.endX at he; rw [hb] at he; simpa using he.symm
        have hb65 : (b.x : ℝ) ≤ 65535 := by exact_mod_cast (hs.ok b (List.mem_of_getLast? hb)).1
        rw [div_le_iff₀ hg, this]; simp only [Node.X]
        exact mul_le_mul_of_nonneg_right hb65 hg.le
      have hfr : fx / s.g ≤ e / s.g := by rw [div_le_div_iff_of_pos_right hg]; exact f2
      obtain ⟨j', hj', hnear'⟩ := Spline.near_index hs hn f1.le (by linarith) 0
      rw [f4] at hj'; cases hj'
      obtain ⟨c', hc', hat⟩ := fin j fx hj hnear' f1.le (fun _ h => f5 h)
      exact ⟨c', fx, hc', hat, by simp [hrep], ⟨k, f3⟩, le_trans f2 (le_max_right _ _)⟩
    · obtain ⟨f1, f2⟩ := j2 (by rw [hi]; simpa using hia)
      subst f1
      rw [hi] at f2; cases f2
      obtain ⟨c', hc', hat⟩ := fin i fx hj hnear h0 (fun _ _ => hia)
      exact ⟨c', fx, hc', hat, fun _ => rfl, ⟨0, by simp⟩, le_max_left _ _⟩
  · have hrep' : c.rep = false := by rw [h2]; simpa using hrep
    obtain ⟨c', hc', hat⟩ := fin i X (by unfold Spline.indexForXRepeat; rw [hi, hrep']; simp) hnear h0
      (fun h => absurd h hrep)
    exact ⟨c', X, hc', hat, fun _ => rfl, ⟨0, by simp⟩, le_max_left _ _⟩

theorem advance_at {hp : Heap} {s : Spline} (hs : s.WF) (hn : s.Indexable) {id : ℕ} (hh : hp id = some s)
    {p : Playback} {c : Slot} {X e dx : ℝ} (h : At s id p c X) (hd : 0 ≤ dx * p.rate)
    (hr : c.xIndex ≠ kAfter → (X + dx * p.rate) / s.g + 1 / 2 < 2147483648) (he : s.endX = some e) (hpos : p.rep = true → 0 < e) :
    ∃ c' X', c.advance hp dx = some c'.evaluate ∧ At s id p c' X' ∧ (p.rep = false → X' = X + dx * p.rate) ∧
      (∃ k : ℤ, X' = X + dx * p.rate + k * e) ∧ X' ≤ max (X + dx * p.rate) e := by
  have hg := hs.g_pos
  obtain ⟨x0, L, ci, d1, d2, d3, d4, d5, d6⟩ := h.data
  unfold advance
  have hx1 : c.cubicX + dx * c.rate = X + dx * p.rate - x0 := by rw [d4, h.rate]; ring
  set c1 : Slot := { c with cubicX := c.cubicX + dx * c.rate } with hc1
  by_cases hpast : c1.cubicXEnd < ((c1.cubicX : ℝ) : WithTop ℝ)
  · simp only
    rw [if_pos hpast]
    have hX1 : c1.X hp = some (X + dx * p.rate) := by
      unfold Slot.X
      have : c1.spline = some id := h.spline
      rw [this]
      have : c1.xIndex = c.xIndex := rfl
      simp only [Option.bind_some, hh, this, d1, Option.map_some]
      have : c1.cubicX = X + dx * p.rate - x0 := hx1
      rw [this]; congr 1; ring
    rw [hX1]
    obtain ⟨c', X', e1, e2, e3, e4, e5⟩ := initCubic_at hs hn hh (c := c1) (p := p) h.spline h.rep h.rate h.off
      h.scale (X := X + dx * p.rate) (by linarith [h.nonneg]) (hr (by
        intro ha
        rw [ha] at d2
        simp only [Spline.rangeX, if_neg (by decide : kAfter ≠ kBefore), if_true, Option.map_eq_some_iff, Prod.mk.injEq] at d2
        obtain ⟨_, -, -, hL⟩ := d2
        have : c1.cubicXEnd = ⊤ := by show c.cubicXEnd = ⊤; rw [d5, ← hL]
        rw [this] at hpast
        exact absurd hpast not_top_lt)) he hpos
    refine ⟨c', X', ?_, e2, e3, e4, e5⟩
    simp only [Option.bind_some, e1, Option.map_some]
  · simp only
    rw [if_neg hpast]
    refine ⟨c1, X + dx * p.rate, rfl, ?_, fun _ => rfl, ⟨0, by simp⟩, le_max_left _ _⟩
    have hend : c1.cubicXEnd = L := d5
    have hcx : c1.cubicX = X + dx * p.rate - x0 := hx1
    rw [hend, hcx] at hpast
    refine ⟨h.spline, h.rep, h.rate, h.off, h.scale, by linarith [h.nonneg], ?_, h.inside, x0, L, ci, d1, d2, d3, hx1,
      d5, d6⟩
    show s.Near _ c.xIndex
    rcases h.near with ⟨hj, f, hf, hx⟩ | ⟨hj, b, hb, hx⟩ | ⟨a, b, ha, hb, ha1, ha2⟩
    · refine Or.inl ⟨hj, f, hf, ?_⟩
      rw [hj] at d1 d2
      have e0 : x0 = 0 := by simpa [Spline.nodeX, kBefore, kAfter] using d1.symm
      have eL : L = ((f.X s.g : ℝ) : WithTop ℝ) := by
        have := d2
        simp only [Spline.rangeX, if_true, Spline.startX, List.head?_eq_getElem?, hf, Option.map_some,
          Option.some.injEq, Prod.mk.injEq] at this
        rw [← this.2, sub_zero]
      rw [eL, e0, sub_zero] at hpast
      exact_mod_cast not_lt.mp hpast
    · refine Or.inr (Or.inl ⟨hj, b, hb, ?_⟩)
      rcases hx with hx | ⟨hl, hx⟩
      · left; linarith
      · right; exact ⟨hl, by linarith⟩
    · refine Or.inr (Or.inr ⟨a, b, ha, hb, by linarith, ?_⟩)
      have hlt := (List.getElem?_eq_some_iff.mp hb).1
      have hmax := hn.2
      have g1 : c.xIndex ≠ kBefore := by simp only [kBefore]; omega
      have g2 : c.xIndex ≠ kAfter := by simp only [kAfter]; omega
      have e0 : x0 = a.X s.g := by simpa [Spline.nodeX, g1, g2, ha] using d1.symm
      have eL : L = ((b.X s.g - a.X s.g : ℝ) : WithTop ℝ) := by
        have := d2
        simp only [Spline.rangeX, if_neg g1, if_neg g2, ha, hb, Option.bind_some, Option.map_some,
          Option.some.injEq, Prod.mk.injEq] at this
        exact this.2.symm
      rw [eL, e0] at hpast
      have : X + dx * p.rate - a.X s.g ≤ b.X s.g - a.X s.g := by exact_mod_cast not_lt.mp hpast
      linarith

/-- Start a spline, then advance by the increments `dxs`. -/
noncomputable def play (hp : Heap) (c : Slot) (id : ℕ) (p : Playback) (dxs : List ℝ) : Option Slot :=
  (c.setSpline hp id p).bind fun c => dxs.foldlM (fun c dx => c.advance hp dx) c

theorem foldlM_at {hp : Heap} {s : Spline} (hs : s.WF) (hn : s.Indexable) {id : ℕ} (hh : hp id = some s)
    {p : Playback} {e : ℝ} (hrate : 0 ≤ p.rate) (he : s.endX = some e) (hpos : p.rep = true → 0 < e) :
    ∀ (dxs : List ℝ), (∀ d ∈ dxs, 0 ≤ d) → ∀ (c : Slot) (X B : ℝ), At s id p c X → X ≤ B → e ≤ B →
      (B + dxs.sum * p.rate) / s.g + 1 / 2 < 2147483648 →
      ∃ c' X', dxs.foldlM (fun c dx => c.advance hp dx) c.evaluate = some c'.evaluate ∧ At s id p c' X' ∧
        (p.rep = false → X' = X + dxs.sum * p.rate) ∧ (∃ k : ℤ, X' = X + dxs.sum * p.rate + k * e) ∧
        X' ≤ B + dxs.sum * p.rate := by
  intro dxs
  induction dxs with
  | nil =>
    intro _ c X B h hB _ hr
    exact ⟨c, X, rfl, h, fun _ => by simp, ⟨0, by simp⟩, by simpa using hB⟩
  | cons d dxs ih =>
    intro hd c X B h hB heB hr
    have hg := hs.g_pos
    have hd0 : 0 ≤ d * p.rate := mul_nonneg (hd d (by simp)) hrate
    have hs0 : 0 ≤ dxs.sum * p.rate :=
      mul_nonneg (List.sum_nonneg fun x hx => hd x (List.mem_cons_of_mem _ hx)) hrate
    have hsum : (d :: dxs).sum * p.rate = d * p.rate + dxs.sum * p.rate := by rw [List.sum_cons]; ring
    rw [hsum] at hr ⊢
    have hr1 : (X + d * p.rate) / s.g + 1 / 2 < 2147483648 := by
      have : (X + d * p.rate) / s.g ≤ (B + (d * p.rate + dxs.sum * p.rate)) / s.g := by
        rw [div_le_div_iff_of_pos_right hg]; linarith
      linarith
    obtain ⟨c1, X1, a1, a2, a3, ⟨k1, a4⟩, a5⟩ := advance_at hs hn hh h.evaluate hd0 (fun _ => hr1) he hpos
    have hX1 : X1 ≤ B + d * p.rate := le_trans a5 (max_le (by linarith) (by linarith))
    obtain ⟨c2, X2, b1, b2, b3, ⟨k2, b4⟩, b5⟩ :=
      ih (fun x hx => hd x (List.mem_cons_of_mem _ hx)) c1 X1 (B + d * p.rate) a2 hX1 (by linarith)
        (by rw [add_assoc]; exact hr)
    refine ⟨c2, X2, ?_, b2, ?_, ⟨k1 + k2, ?_⟩, by linarith⟩
    · rw [List.foldlM_cons, a1]; exact b1
    · intro h'; rw [b3 h', a3 h']; ring
    · rw [b4, a4]; push_cast; ring

/-- The general form of C26 and its extension to repeating playback. -/
theorem play_reports {hp : Heap} {s : Spline} (hs : s.WF) (hn : s.Indexable) {id : ℕ} (hh : hp id = some s)
    (c0 : Slot) (p : Playback) (hblend : c0.spline = none ∨ p.blendX ≤ 0) (hrate : 0 ≤ p.rate) (hx : 0 ≤ p.startX)
    {e : ℝ} (he : s.endX = some e) (hpos : p.rep = true → 0 < e)
    (dxs : List ℝ) (hd : ∀ d ∈ dxs, 0 ≤ d)
    (hr : (p.startX + e + dxs.sum * p.rate) / s.g + 1 / 2 < 2147483648) :
    ∃ c X, c0.play hp id p dxs = some c ∧ c.X hp = some X ∧ Reports s p c X ∧
      (p.rep = false → X = p.startX + dxs.sum * p.rate) ∧
      (∃ k : ℤ, X = p.startX + dxs.sum * p.rate + k * e) ∧ 0 ≤ X ∧
      (p.rep = true → 2 ≤ s.nodes.length → X ≤ e + s.g / 2) := by
  have hg := hs.g_pos
  have he0 : 0 ≤ e := by
    unfold Spline.endX at he
    cases hb : s.nodes.getLast? with
    | none => rw [hb] at he; simp at he
    | some b =>
      rw [hb] at he
      simp only [Option.map_some, Option.some.injEq] at he
      rw [← he]; simp only [Node.X]; positivity
  have hs0 : 0 ≤ dxs.sum * p.rate := mul_nonneg (List.sum_nonneg hd) hrate
  have hr1 : p.startX / s.g + 1 / 2 < 2147483648 := by
    have : p.startX / s.g ≤ (p.startX + e + dxs.sum * p.rate) / s.g := by
      rw [div_le_div_iff_of_pos_right hg]; linarith
    linarith
  obtain ⟨c1, X1, a1, a2, a3, ⟨k1, a4⟩, a5⟩ := initCubic_at hs hn hh (p := p)
    (c := { c0 with rate := p.rate, yOffset := p.yOffset, yScale := p.yScale, spline := some id,
                    xIndex := kInvalid, rep := p.rep }) rfl rfl rfl rfl rfl hx hr1 he hpos
  obtain ⟨c2, X2, b1, b2, b3, ⟨k2, b4⟩, b5⟩ := foldlM_at hs hn hh hrate he hpos dxs hd c1 X1 (p.startX + e) a2
    (le_trans a5 (max_le (by linarith) (by linarith))) (by linarith) hr
  have hset : c0.setSpline hp id p = some c1.evaluate := by
    unfold setSpline
    rw [if_neg (by
      rintro ⟨h1, h2⟩
      rcases hblend with h | h
      · rw [h] at h1; simp at h1
      · linarith)]
    unfold jumpTo
    rw [a1]; rfl
  have hr2 : X2 / s.g + 1 / 2 < 2147483648 := by
    have : X2 / s.g ≤ (p.startX + e + dxs.sum * p.rate) / s.g := by
      rw [div_le_div_iff_of_pos_right hg]; linarith
    linarith
  refine ⟨c2.evaluate, X2, ?_, b2.evaluate.x hh, b2.reports hs hn hr2, ?_, ⟨k1 + k2, ?_⟩, b2.nonneg, ?_⟩
  · unfold play; rw [hset]; exact b1
  · intro h'; rw [b3 h', a3 h']
  · rw [b4, a4]; push_cast; ring
  · intro h1 h2
    have hin := b2.inside h1 h2
    rcases b2.near with ⟨-, f, hf, hx⟩ | ⟨hj, -⟩ | ⟨a, b, ha, hb, -, hx⟩
    · have hflt := (List.getElem?_eq_some_iff.mp hf).1
      obtain ⟨b, hb⟩ : ∃ b, s.nodes[s.nodes.length - 1]? = some b := ⟨_, List.getElem?_eq_getElem (by omega)⟩
      have : (f.x : ℝ) ≤ b.x := by exact_mod_cast hs.sorted.le (Nat.zero_le _) hf hb
      have heb : e = b.X s.g := by
        unfold Spline.endX at he; rw [List.getLast?_eq_getElem?, hb] at he; exact (Option.some.inj he).symm
      rw [heb]; simp only [Node.X] at hx ⊢; nlinarith
    · exact absurd hj hin
    · have hflt := (List.getElem?_eq_some_iff.mp hb).1
      obtain ⟨l, hl⟩ : ∃ b, s.nodes[s.nodes.length - 1]? = some b := ⟨_, List.getElem?_eq_getElem (by omega)⟩
      have : (b.x : ℝ) ≤ l.x := by exact_mod_cast hs.sorted.le (by omega) hb hl
      have heb : e = l.X s.g := by
        unfold Spline.endX at he; rw [List.getLast?_eq_getElem?, hl] at he; exact (Option.some.inj he).symm
      rw [heb]; simp only [Node.X] at hx ⊢; nlinarith

/-- C26: start a spline at `startX` (no repeat, no blend, rate not negative) and advance by any non-negative
increments.  The evaluator never fails, reports the x that the increments sum to, and there `Reports` the scaled
and shifted value and derivative of the spline. -/
theorem C26_bulk_agrees {hp : Heap} {s : Spline} (hs : s.WF) (hn : s.Indexable) {id : ℕ} (hh : hp id = some s)
    (c0 : Slot) (p : Playback) (hrep : p.rep = false) (hblend : c0.spline = none ∨ p.blendX ≤ 0)
    (hrate : 0 ≤ p.rate) (hx : 0 ≤ p.startX) {e : ℝ} (he : s.endX = some e) (dxs : List ℝ) (hd : ∀ d ∈ dxs, 0 ≤ d)
    (hr : (p.startX + e + dxs.sum * p.rate) / s.g + 1 / 2 < 2147483648) :
    ∃ c, c0.play hp id p dxs = some c ∧ c.X hp = some (p.startX + dxs.sum * p.rate) ∧
      Reports s p c (p.startX + dxs.sum * p.rate) := by
  obtain ⟨c, X, h1, h2, h3, h4, -⟩ := play_reports hs hn hh c0 p hblend hrate hx he (by simp [hrep]) dxs hd hr
  rw [h4 hrep] at h2 h3
  exact ⟨c, h1, h2, h3⟩

/-- C26 for repeating playback: x is the summed x modulo the end of the spline, never leaves the spline by more than
half a grain, and the reports agree with direct evaluation at it. -/
theorem C26_bulk_agrees_repeating {hp : Heap} {s : Spline} (hs : s.WF) (hn : s.Indexable) {id : ℕ}
    (hh : hp id = some s) (c0 : Slot) (p : Playback) (hrep : p.rep = true)
    (hblend : c0.spline = none ∨ p.blendX ≤ 0) (hrate : 0 ≤ p.rate) (hx : 0 ≤ p.startX) {e : ℝ}
    (he : s.endX = some e) (hpos : 0 < e) (h2 : 2 ≤ s.nodes.length) (dxs : List ℝ) (hd : ∀ d ∈ dxs, 0 ≤ d)
    (hr : (p.startX + e + dxs.sum * p.rate) / s.g + 1 / 2 < 2147483648) :
    ∃ c X, c0.play hp id p dxs = some c ∧ c.X hp = some X ∧ Reports s p c X ∧
      (∃ k : ℤ, X = p.startX + dxs.sum * p.rate + k * e) ∧ 0 ≤ X ∧ X ≤ e + s.g / 2 := by
  obtain ⟨c, X, h1, h2', h3, -, h5, h6, h7⟩ :=
    play_reports hs hn hh c0 p hblend hrate hx he (fun _ => hpos) dxs hd hr
  exact ⟨c, X, h1, h2', h3, h5, h6, h7 hrep h2⟩

/-- The hypotheses hold of the sample spline, played at double speed from 1 in steps of 1/2 and 3. -/
example : ∃ c, Slot.play (fun _ => some Spline.sample) {} 0 { startX := 1, rate := 2, yScale := 3 } [1 / 2, 3] =
    some c ∧ c.X (fun _ => some Spline.sample) = some 8 := by
  obtain ⟨c, h1, h2, -⟩ := C26_bulk_agrees (hp := fun _ => some Spline.sample) (id := 0) Spline.sample_wf.1
    Spline.sample_wf.2 rfl {} { startX := 1, rate := 2, yScale := 3 } rfl (Or.inl rfl) (by norm_num) (by norm_num)
    (e := 9) (by norm_num [Spline.sample, Spline.endX, Node.X]) [1 / 2, 3] (by norm_num) (by norm_num [Spline.sample])
  refine ⟨c, h1, ?_⟩
  rw [h2]; norm_num

end Slot
end Motive.Splines
