import Verif.Util.Keyframes
/-!
# C50: the nodes made from keyframes
-/

namespace Motive.Util

open Motive.Math Motive.Splines Motive.Matrix4

set_option linter.unusedSimpArgs false

noncomputable section

/-- The list has exactly two nodes for each of `n` keyframes: `a k` and then `b k`. -/
def TwoPer (l : List Uncompressed) (n : ℕ) (a b : ℕ → Uncompressed) : Prop :=
  l = (List.range n).flatMap fun k => [a k, b k]

/-- The slope of the line between two keyframes. -/
def slope (t v : ℕ → ℝ) (k : ℕ) : ℝ := if t k < t (k + 1) then (v (k + 1) - v k) / (t (k + 1) - t k) else 0

/-- The left nodes for linear interpolation. -/
def linearLeft (t v : ℕ → ℝ) (k : ℕ) : Uncompressed := ⟨t k, v k, if k = 0 then 0 else slope t v (k - 1)⟩
/-- The right nodes for linear interpolation of `n` keyframes. -/
def linearRight (n : ℕ) (t v : ℕ → ℝ) (k : ℕ) : Uncompressed := ⟨t k, v k, if k + 1 < n then slope t v k else 0⟩
/-- The left nodes for step interpolation. -/
def stepLeft (t v : ℕ → ℝ) (k : ℕ) : Uncompressed := ⟨t k, v (k - 1), 0⟩
/-- The right nodes for step interpolation. -/
def stepRight (t v : ℕ → ℝ) (k : ℕ) : Uncompressed := ⟨t k, v k, 0⟩

/-- The nodes of the first `m` frames, by index, and zeros after them. -/
def partialNodes (m : ℕ) (a b : ℕ → Uncompressed) (j : ℕ) : Uncompressed :=
  if j / 2 < m then (if j % 2 = 0 then a (j / 2) else b (j / 2)) else ⟨0, 0, 0⟩

def Filled (n m : ℕ) (a b : ℕ → Uncompressed) (l : List Uncompressed) : Prop :=
  ∀ j, l[j]? = if j < n * 2 then some (partialNodes m a b j) else none

theorem getModify {A : Type} (l : List A) (i : ℕ) (f : A → A) (j : ℕ) : (l.modify i f)[j]? = l[j]?.map fun a => if i = j then f a else a := by
  rw [List.getElem?_modify]; rfl

theorem getElem?_pairs (n : ℕ) (a b : ℕ → Uncompressed) (j : ℕ) :
    ((List.range n).flatMap fun k => [a k, b k])[j]? = if j < n * 2 then some (if j % 2 = 0 then a (j / 2) else b (j / 2)) else none := by
  have hlen : ∀ n, ((List.range n).flatMap fun k => [a k, b k]).length = n * 2 := by intro n; simp [List.length_flatMap]
  induction n with
  | zero => simp
  | succ n ih =>
    rw [List.range_succ, List.flatMap_append]
    rw [List.getElem?_append, hlen]
    by_cases h : j < n * 2
    · simp only [if_pos h, ih, if_pos (show j < (n + 1) * 2 by omega)]
    · rw [if_neg h]
      by_cases h' : j < (n + 1) * 2
      · rw [if_pos h']
        rcases (by omega : j = n * 2 ∨ j = n * 2 + 1) with rfl | rfl
        · simp
        · have e : (n * 2 + 1) / 2 = n := by omega
          simp [Nat.add_mod, e]
      · rw [if_neg h']
        rw [List.getElem?_eq_none_iff]
        simp; omega

theorem Filled.twoPer {n : ℕ} {a b : ℕ → Uncompressed} {l : List Uncompressed} (h : Filled n n a b l) : TwoPer l n a b := by
  refine List.ext_getElem? fun j => ?_
  rw [h j, getElem?_pairs]
  by_cases hj : j < n * 2
  · simp only [if_pos hj, partialNodes, if_pos (show j / 2 < n by omega)]
  · simp only [if_neg hj]

theorem filled_zero (n : ℕ) (a b : ℕ → Uncompressed) : Filled n 0 a b (List.replicate (n * 2) ⟨0, 0, 0⟩) := by
  intro j
  rw [List.getElem?_replicate]
  simp [partialNodes]

section bodies
variable {d : KeyframeData} {v : ℕ → ℝ} {l : List Uncompressed} {m : ℕ}

theorem linear_filled (hm : m < d.count) (h : Filled d.count m (linearLeft d.time v) (linearRight m d.time v) l) :
    Filled d.count (m + 1) (linearLeft d.time v) (linearRight (m + 1) d.time v) (linearBody d m (v m) l) := by
  have hprev : 0 < m → l.getD (m * 2 - 1) ⟨0, 0, 0⟩ = linearRight m d.time v (m - 1) := by
    intro h0
    rw [List.getD_eq_getElem?_getD, h (m * 2 - 1), if_pos (by omega)]
    simp only [Option.getD_some, partialNodes, if_pos (show (m * 2 - 1) / 2 < m by omega)]
    rw [if_neg (by omega), show (m * 2 - 1) / 2 = m - 1 by omega]
  intro j
  unfold linearBody
  simp only
  by_cases hj : j < d.count * 2
  · rw [if_pos hj]
    have hl : l[j]? = some (partialNodes m (linearLeft d.time v) (linearRight m d.time v) j) := by rw [h j, if_pos hj]
    by_cases h0 : m * 2 = 0
    · have hm0 : m = 0 := by omega
      subst hm0
      rw [if_pos h0]
      simp only [getModify, hl, Option.map_some, Option.some.injEq]
      rcases (by omega : j = 0 ∨ j = 1 ∨ 2 ≤ j) with rfl | rfl | hj2
      · simp [partialNodes, linearLeft]
      · simp [partialNodes, linearRight]
      · rw [if_neg (by omega), if_neg (by omega), if_neg (by omega)]
        simp only [partialNodes, if_neg (show ¬ j / 2 < 0 + 1 by omega), if_neg (show ¬ j / 2 < 0 by omega)]
    · rw [if_neg h0]
      have hg : (((l.modify (m * 2) fun n => { n with x := d.time m, y := v m }).modify (m * 2 + 1) fun n => { n with x := d.time m, y := v m }).getD (m * 2 - 1) ⟨0, 0, 0⟩) = linearRight m d.time v (m - 1) := by
        rw [← hprev (by omega), List.getD_eq_getElem?_getD, List.getD_eq_getElem?_getD, getModify, getModify]
        simp only [if_neg (show ¬ m * 2 + 1 = m * 2 - 1 by omega), if_neg (show ¬ m * 2 = m * 2 - 1 by omega), Option.map_id_fun', id_eq]
      rw [hg]
      have ht : (if d.time m - (linearRight m d.time v (m - 1)).x > 0 then (v m - (linearRight m d.time v (m - 1)).y) / (d.time m - (linearRight m d.time v (m - 1)).x) else 0) = slope d.time v (m - 1) := by
        simp only [linearRight, slope, show m - 1 + 1 = m by omega, gt_iff_lt, sub_pos]
      rw [ht]
      have key : ∀ l' : List Uncompressed, (l' = l'.modify (m * 2 + 1) fun n => { n with derivative := 0 }) →
          (if m = d.count - 1 then l'.modify (m * 2 + 1) fun n => { n with derivative := 0 } else l') = l' := by
        intro l' hl'
        split
        · exact hl'.symm
        · rfl
      rw [key]
      · simp only [getModify, hl, Option.map_some, Option.some.injEq]
        rcases (by omega : j < m * 2 - 1 ∨ j = m * 2 - 1 ∨ j = m * 2 ∨ j = m * 2 + 1 ∨ m * 2 + 1 < j) with hc | hc | hc | hc | hc
        · rw [if_neg (by omega), if_neg (by omega), if_neg (by omega), if_neg (by omega)]
          simp only [partialNodes, if_pos (show j / 2 < m by omega), if_pos (show j / 2 < m + 1 by omega)]
          split
          · rfl
          · simp only [linearRight, if_pos (show j / 2 + 1 < m by omega), if_pos (show j / 2 + 1 < m + 1 by omega)]
        · rw [if_neg (by omega), if_pos (by omega), if_neg (by omega), if_neg (by omega)]
          have e : j / 2 = m - 1 := by omega
          simp only [partialNodes, if_pos (show m - 1 < m by omega), if_pos (show m - 1 < m + 1 by omega), if_pos (show j / 2 < m by omega), if_pos (show j / 2 < m + 1 by omega), if_neg (show ¬ j % 2 = 0 by omega), linearRight, e,
            if_pos (show m - 1 + 1 < m + 1 by omega)]
        · rw [if_pos (by omega), if_neg (by omega), if_neg (by omega), if_pos (by omega)]
          have e : j / 2 = m := by omega
          simp only [partialNodes, if_pos (show m < m + 1 by omega), if_neg (show ¬ m < m by omega), if_pos (show j / 2 < m + 1 by omega), if_pos (show j % 2 = 0 by omega), linearLeft, e, if_neg (show ¬ m = 0 by omega)]
        · rw [if_neg (by omega), if_neg (by omega), if_pos (by omega), if_neg (by omega)]
          have e : j / 2 = m := by omega
          simp only [partialNodes, if_pos (show m < m + 1 by omega), if_neg (show ¬ m < m by omega), if_neg (show ¬ j / 2 < m by omega), if_pos (show j / 2 < m + 1 by omega), if_neg (show ¬ j % 2 = 0 by omega), linearRight, e,
            if_neg (show ¬ m + 1 < m + 1 by omega)]
        · rw [if_neg (by omega), if_neg (by omega), if_neg (by omega), if_neg (by omega)]
          simp only [partialNodes, if_neg (show ¬ j / 2 < m by omega), if_neg (show ¬ j / 2 < m + 1 by omega)]
      · refine List.ext_getElem? fun i => ?_
        by_cases hi : m * 2 + 1 = i
        · subst hi
          simp only [getModify, h (m * 2 + 1), if_pos (show m * 2 + 1 < d.count * 2 by omega), Option.map_some]
          simp [partialNodes, show ¬ (m * 2 + 1) / 2 < m by omega, show ¬ m * 2 - 1 = m * 2 + 1 by omega]
        · rw [getModify _ (m * 2 + 1)]
          simp only [if_neg hi, Option.map_id_fun', id_eq]
  · rw [if_neg hj]
    have hl : l[j]? = none := by rw [h j, if_neg hj]
    split
    · simp [getModify, hl]
    · split <;> simp [getModify, hl]

theorem step_filled {previous : ℝ} (hm : m < d.count) (hp : 0 < m → previous = v (m - 1))
    (h : Filled d.count m (stepLeft d.time v) (stepRight d.time v) l) :
    Filled d.count (m + 1) (stepLeft d.time v) (stepRight d.time v) (stepBody d m (v m) previous l) := by
  intro j
  unfold stepBody
  simp only
  by_cases hj : j < d.count * 2
  · rw [if_pos hj]
    have hl : l[j]? = some (partialNodes m (stepLeft d.time v) (stepRight d.time v) j) := by rw [h j, if_pos hj]
    have hrest : j < m * 2 ∨ m * 2 + 1 < j → partialNodes m (stepLeft d.time v) (stepRight d.time v) j = partialNodes (m + 1) (stepLeft d.time v) (stepRight d.time v) j := by
      rintro (hc | hc)
      · simp only [partialNodes, if_pos (show j / 2 < m by omega), if_pos (show j / 2 < m + 1 by omega)]
      · simp only [partialNodes, if_neg (show ¬ j / 2 < m by omega), if_neg (show ¬ j / 2 < m + 1 by omega)]
    by_cases h0 : m * 2 = 0
    · have hm0 : m = 0 := by omega
      subst hm0
      rw [if_pos h0]
      simp only [getModify, hl, Option.map_some, Option.some.injEq]
      rcases (by omega : j = 0 ∨ j = 1 ∨ 2 ≤ j) with rfl | rfl | hj2
      · simp [partialNodes, stepLeft]
      · simp [partialNodes, stepRight]
      · rw [if_neg (by omega), if_neg (by omega), if_neg (by omega)]
        exact hrest (Or.inr (by omega))
    · rw [if_neg h0]
      simp only [getModify, hl, Option.map_some, Option.some.injEq]
      rcases (by omega : (j < m * 2 ∨ m * 2 + 1 < j) ∨ j = m * 2 ∨ j = m * 2 + 1) with hc | hc | hc
      · rw [if_neg (by omega), if_neg (by omega), if_neg (by omega)]
        exact hrest hc
      · rw [if_pos (by omega), if_neg (by omega), if_pos (by omega), hp (by omega)]
        have e : j / 2 = m := by omega
        simp only [partialNodes, if_pos (show m < m + 1 by omega), if_neg (show ¬ m < m by omega), if_pos (show j / 2 < m + 1 by omega), if_pos (show j % 2 = 0 by omega), stepLeft, e]
      · rw [if_neg (by omega), if_pos (by omega)]
        have e : j / 2 = m := by omega
        simp only [partialNodes, if_pos (show m < m + 1 by omega), if_neg (show ¬ m < m by omega), if_pos (show j / 2 < m + 1 by omega), if_neg (show ¬ j % 2 = 0 by omega), stepRight, e]
  · rw [if_neg hj]
    have hl : l[j]? = none := by rw [h j, if_neg hj]
    split <;> simp [getModify, hl]

theorem cubic_filled {a b : ℕ → ℝ} (h : Filled d.count m (fun k => ⟨d.time k, v k, a k / d.msPerUnit⟩) (fun k => ⟨d.time k, v k, b k / d.msPerUnit⟩) l) :
    Filled d.count (m + 1) (fun k => ⟨d.time k, v k, a k / d.msPerUnit⟩) (fun k => ⟨d.time k, v k, b k / d.msPerUnit⟩) (cubicBody d m (v m) (a m) (b m) l) := by
  intro j
  unfold cubicBody
  simp only [getModify, h j]
  by_cases hj : j < d.count * 2
  · simp only [if_pos hj, Option.map_some, Option.some.injEq]
    rcases (by omega : j < m * 2 ∨ m * 2 + 1 < j ∨ j = m * 2 ∨ j = m * 2 + 1) with hc | hc | hc | hc
    · rw [if_neg (by omega), if_neg (by omega)]
      simp only [partialNodes, if_pos (show j / 2 < m by omega), if_pos (show j / 2 < m + 1 by omega)]
    · rw [if_neg (by omega), if_neg (by omega)]
      simp only [partialNodes, if_neg (show ¬ j / 2 < m by omega), if_neg (show ¬ j / 2 < m + 1 by omega)]
    · rw [if_neg (by omega), if_pos (by omega)]
      have e : j / 2 = m := by omega
      simp only [partialNodes, if_pos (show m < m + 1 by omega), if_neg (show ¬ m < m by omega), if_pos (show j / 2 < m + 1 by omega), if_pos (show j % 2 = 0 by omega), e]
    · rw [if_pos (by omega)]
      have e : j / 2 = m := by omega
      simp only [partialNodes, if_pos (show m < m + 1 by omega), if_neg (show ¬ m < m by omega), if_pos (show j / 2 < m + 1 by omega), if_neg (show ¬ j % 2 = 0 by omega), e]
  · simp [if_neg hj]

end bodies

/-- The keyframes in order: each is computed from the one before. -/
def keyAt (fn : ℕ → Keyframe → Keyframe) : ℕ → Keyframe
  | 0 => fn 0 {}
  | k + 1 => fn (k + 1) (keyAt fn k)

/-- The keyframe before frame `m`. -/
def keyBefore (fn : ℕ → Keyframe → Keyframe) (m : ℕ) : Keyframe := if m = 0 then {} else keyAt fn (m - 1)

theorem keyAt_eq (fn : ℕ → Keyframe → Keyframe) (m : ℕ) : fn m (keyBefore fn m) = keyAt fn m := by
  cases m with
  | zero => rfl
  | succ m => simp [keyBefore, keyAt]

theorem frameLoop_spec {d : KeyframeData} {fn : ℕ → Keyframe → Keyframe} (a b : ℕ → ℕ → ℕ → Uncompressed)
    (hstep : ∀ m c l, m < d.count → Filled d.count m (a m c) (b m c) l →
      Filled d.count (m + 1) (a (m + 1) c) (b (m + 1) c) (channelBody d m (keyAt fn m) (keyBefore fn m) c l)) :
    ∀ n m nodes, n + m = d.count → (∀ c l, nodes[c]? = some l → Filled d.count m (a m c) (b m c) l) →
      (frameLoop d fn n m (keyBefore fn m) nodes).length = nodes.length ∧
      ∀ c l, (frameLoop d fn n m (keyBefore fn m) nodes)[c]? = some l → Filled d.count d.count (a d.count c) (b d.count c) l
  | 0, m, nodes, hn, h => by
    have : m = d.count := by omega
    subst this
    exact ⟨rfl, h⟩
  | n + 1, m, nodes, hn, h => by
    rw [frameLoop]
    simp only [keyAt_eq fn m]
    have hk : keyAt fn m = keyBefore fn (m + 1) := by simp [keyBefore]
    have := frameLoop_spec a b hstep n (m + 1) (nodes.mapIdx fun channel l => channelBody d m (keyAt fn m) (keyBefore fn m) channel l) (by omega) (by
      intro c l hl
      rw [List.getElem?_mapIdx] at hl
      cases hc : nodes[c]? with
      | none => simp [hc] at hl
      | some l' =>
        simp only [hc, Option.map_some, Option.some.injEq] at hl
        subst hl
        exact hstep m c l' (by omega) (h c l' hc))
    rw [← hk] at this
    simp only [List.length_mapIdx] at this
    exact this

theorem add_spec {d : KeyframeData} {fn : ℕ → Keyframe → Keyframe} (channels : ℕ) (a b : ℕ → ℕ → ℕ → Uncompressed)
    (hstep : ∀ m c l, m < d.count → Filled d.count m (a m c) (b m c) l →
      Filled d.count (m + 1) (a (m + 1) c) (b (m + 1) c) (channelBody d m (keyAt fn m) (keyBefore fn m) c l)) :
    addKeyframeData d channels fn = (List.range channels).map fun c => (List.range d.count).flatMap fun k => [a d.count c k, b d.count c k] := by
  have := frameLoop_spec a b hstep d.count 0 (List.replicate channels (List.replicate (d.count * 2) ⟨0, 0, 0⟩)) rfl (by
    intro c l hl
    rw [List.getElem?_replicate] at hl
    split at hl
    · simp only [Option.some.injEq] at hl
      subst hl
      exact filled_zero _ _ _
    · simp at hl)
  have hz : keyBefore fn 0 = {} := by simp [keyBefore]
  rw [hz] at this
  obtain ⟨hlen, h⟩ := this
  have hlen : (addKeyframeData d channels fn).length = channels := by simpa [addKeyframeData] using hlen
  refine List.ext_getElem? fun c => ?_
  by_cases hc : c < channels
  · have := h c ((addKeyframeData d channels fn)[c]'(by omega)) (by rw [← List.getElem?_eq_getElem]; rfl)
    rw [List.getElem?_eq_getElem (by omega), List.getElem?_map, List.getElem?_range hc, Option.map_some, this.twoPer]
  · rw [List.getElem?_eq_none (by omega), List.getElem?_eq_none (by simp; omega)]

variable (d : KeyframeData) (channels : ℕ) (fn : ℕ → Keyframe → Keyframe)

theorem nodes_linear (hi : d.interpolation = .linear) : addKeyframeData d channels fn =
    (List.range channels).map fun c => (List.range d.count).flatMap fun k =>
      [linearLeft d.time (fun k => (keyAt fn k).values c) k, linearRight d.count d.time (fun k => (keyAt fn k).values c) k] := by
  refine add_spec channels (fun _ c => linearLeft d.time fun k => (keyAt fn k).values c) (fun m c => linearRight m d.time fun k => (keyAt fn k).values c) ?_
  intro m c l hm h
  simp only [channelBody, hi]
  exact linear_filled hm h

theorem nodes_step (hi : d.interpolation = .step) : addKeyframeData d channels fn =
    (List.range channels).map fun c => (List.range d.count).flatMap fun k =>
      [stepLeft d.time (fun k => (keyAt fn k).values c) k, stepRight d.time (fun k => (keyAt fn k).values c) k] := by
  refine add_spec channels (fun _ c => stepLeft d.time fun k => (keyAt fn k).values c) (fun _ c => stepRight d.time fun k => (keyAt fn k).values c) ?_
  intro m c l hm h
  simp only [channelBody, hi]
  exact step_filled hm (fun h0 => by simp [keyBefore, show m ≠ 0 by omega]) h

theorem nodes_cubic (hi : d.interpolation = .cubic) : addKeyframeData d channels fn =
    (List.range channels).map fun c => (List.range d.count).flatMap fun k =>
      [⟨d.time k, (keyAt fn k).values c, (keyAt fn k).left c / d.msPerUnit⟩, ⟨d.time k, (keyAt fn k).values c, (keyAt fn k).right c / d.msPerUnit⟩] := by
  refine add_spec channels (fun _ c k => ⟨d.time k, (keyAt fn k).values c, (keyAt fn k).left c / d.msPerUnit⟩)
    (fun _ c k => ⟨d.time k, (keyAt fn k).values c, (keyAt fn k).right c / d.msPerUnit⟩) ?_
  intro m c l hm h
  simp only [channelBody, hi]
  exact cubic_filled (v := fun k => (keyAt fn k).values c) (a := fun k => (keyAt fn k).left c) (b := fun k => (keyAt fn k).right c) h

/-- C50 (arrays, linear): channel `c` has two nodes for each keyframe `k`, both at its time and with its value
`values[c + k * channels]`. Between keyframes both nodes have the slope of the connecting line. -/
theorem C50_linear_nodes (hi : d.interpolation = .linear) {c : ℕ} (hc : c < channels) :
    ∃ l, (addKeyframeData d channels fun frame _ => getArrayValue channels d frame)[c]? = some l ∧
      let v := fun k => d.values (c + k * channels)
      TwoPer l d.count (linearLeft d.time v) (linearRight d.count d.time v) := by
  rw [nodes_linear d channels _ hi, List.getElem?_map, List.getElem?_range hc, Option.map_some]
  refine ⟨_, rfl, ?_⟩
  have : (fun k => (keyAt (fun frame _ => getArrayValue channels d frame) k).values c) = fun k => d.values (c + k * channels) := by
    funext k
    cases k <;> simp [keyAt, getArrayValue, hi, add_comm]
  rw [this]
  rfl

/-- C50 (arrays, step): the left node has the value of the keyframe before, the right node that of the keyframe, and both are flat. -/
theorem C50_step_nodes (hi : d.interpolation = .step) {c : ℕ} (hc : c < channels) :
    ∃ l, (addKeyframeData d channels fun frame _ => getArrayValue channels d frame)[c]? = some l ∧
      let v := fun k => d.values (c + k * channels)
      TwoPer l d.count (stepLeft d.time v) (stepRight d.time v) := by
  rw [nodes_step d channels _ hi, List.getElem?_map, List.getElem?_range hc, Option.map_some]
  refine ⟨_, rfl, ?_⟩
  have : (fun k => (keyAt (fun frame _ => getArrayValue channels d frame) k).values c) = fun k => d.values (c + k * channels) := by
    funext k
    cases k <;> simp [keyAt, getArrayValue, hi, add_comm]
  rw [this]
  rfl

/-- C50 (arrays, cubic): keyframes are packed as left derivatives, values, right derivatives; the nodes have the value
and these derivatives, per millisecond. -/
theorem C50_cubic_nodes (hi : d.interpolation = .cubic) {c : ℕ} (hc : c < channels) :
    ∃ l, (addKeyframeData d channels fun frame _ => getArrayValue channels d frame)[c]? = some l ∧
      let at' := fun part k => d.values (k * (3 * channels) + part * channels + c)
      TwoPer l d.count (fun k => ⟨d.time k, at' 1 k, at' 0 k / d.msPerUnit⟩) (fun k => ⟨d.time k, at' 1 k, at' 2 k / d.msPerUnit⟩) := by
  rw [nodes_cubic d channels _ hi, List.getElem?_map, List.getElem?_range hc, Option.map_some]
  refine ⟨_, rfl, ?_⟩
  have hk : ∀ k, keyAt (fun frame _ => getArrayValue channels d frame) k = getArrayValue channels d k := fun k => by cases k <;> rfl
  simp only [TwoPer, hk]
  simp only [getArrayValue, hi, ne_eq, not_true, if_false]
  congr 1
  funext k
  have e0 : k * channels * 3 + c = k * (3 * channels) + 0 * channels + c := by ring
  have e1 : k * channels * 3 + channels + c = k * (3 * channels) + 1 * channels + c := by ring
  have e2 : k * channels * 3 + channels + channels + c = k * (3 * channels) + 2 * channels + c := by ring
  rw [e0, e1, e2]

/-- The dot product of four components. -/
def dot4 (p q : ℕ → ℝ) : ℝ := p 0 * q 0 + p 1 * q 1 + p 2 * q 2 + p 3 * q 3

/-- C50 (quaternions): the curves go through quaternions that are the input or its negation, the same for all four components. The
first is the input. For linear interpolation the dot products of neighbours are not negative. The other interpolations change no sign. -/
theorem C50_quaternion_signs : ∃ q : ℕ → ℕ → ℝ, (∀ k, q k = (keyAt (getQuaternionValue d) k).values) ∧
    let x := fun k i => (getArrayValue 4 d k).values i
    q 0 = x 0 ∧ (∀ k, q k = x k ∨ q k = fun i => - x k i) ∧
    (d.interpolation = .linear → ∀ k, 0 ≤ dot4 (q k) (q (k + 1))) ∧ (d.interpolation ≠ .linear → ∀ k, q k = x k) := by
  refine ⟨fun k => (keyAt (getQuaternionValue d) k).values, fun _ => rfl, ?_, ?_, ?_, ?_⟩
  · simp [keyAt, getQuaternionValue]
  · intro k
    cases k with
    | zero => left; simp [keyAt, getQuaternionValue]
    | succ k =>
      simp only [keyAt, getQuaternionValue]
      split
      · split
        · right; funext i; simp
        · left; rfl
      · left; rfl
  · intro hi k
    simp only [keyAt]
    rw [getQuaternionValue, if_pos ⟨by omega, hi⟩]
    simp only [dot4]
    split
    · rename_i h; simp only; nlinarith
    · rename_i h; nlinarith
  · intro hi k
    cases k with
    | zero => simp [keyAt, getQuaternionValue]
    | succ k => simp only [keyAt, getQuaternionValue]; rw [if_neg (fun h => hi h.2)]

/-- C50 (quaternions): the nodes of component `c` of the input order. -/
theorem C50_quaternion_nodes {c : ℕ} (hc : c < 4) : ∃ l, (addKeyframeData d 4 (getQuaternionValue d))[c]? = some l ∧
    let q := fun k => (keyAt (getQuaternionValue d) k).values c
    match d.interpolation with
    | .linear => TwoPer l d.count (linearLeft d.time q) (linearRight d.count d.time q)
    | .step => TwoPer l d.count (stepLeft d.time q) (stepRight d.time q)
    | .cubic =>
      let at' := fun part k => d.values (k * 12 + part * 4 + c)
      TwoPer l d.count (fun k => ⟨d.time k, q k, at' 0 k / d.msPerUnit⟩) (fun k => ⟨d.time k, q k, at' 2 k / d.msPerUnit⟩) := by
  cases hi : d.interpolation with
  | linear => exact ⟨_, by rw [nodes_linear d 4 _ hi, List.getElem?_map, List.getElem?_range hc, Option.map_some], rfl⟩
  | step => exact ⟨_, by rw [nodes_step d 4 _ hi, List.getElem?_map, List.getElem?_range hc, Option.map_some], rfl⟩
  | cubic =>
    refine ⟨_, by rw [nodes_cubic d 4 _ hi, List.getElem?_map, List.getElem?_range hc, Option.map_some], ?_⟩
    have hk : ∀ k, keyAt (getQuaternionValue d) k = getArrayValue 4 d k := by
      intro k
      cases k <;> simp [keyAt, getQuaternionValue, hi]
    simp only [TwoPer, hk]
    simp only [getArrayValue, hi, ne_eq, not_true, if_false]
    congr 1
    funext k
    have e0 : k * 4 * 3 + c = k * 12 + 0 * 4 + c := by ring
    have e2 : k * 4 * 3 + 4 + 4 + c = k * 12 + 2 * 4 + c := by ring
    rw [e0, e2]

/-- The splines are made for the components in the order W, X, Y, Z. -/
theorem C50_component_order (order : QuatOrder) : addQuaternionCurves d order =
    createSplinesInPlace ((List.range 4).filterMap fun i => (addKeyframeData d 4 (getQuaternionValue d))[quatIndex i order]?) := by
  have hlen : ∃ a b c e, addKeyframeData d 4 (getQuaternionValue d) = [a, b, c, e] := by
    obtain ⟨la, ha, -⟩ := C50_quaternion_nodes d (c := 0) (by norm_num)
    cases hi : d.interpolation with
    | linear => rw [nodes_linear d 4 _ hi]; exact ⟨_, _, _, _, rfl⟩
    | step => rw [nodes_step d 4 _ hi]; exact ⟨_, _, _, _, rfl⟩
    | cubic => rw [nodes_cubic d 4 _ hi]; exact ⟨_, _, _, _, rfl⟩
  obtain ⟨a, b, c, e, h⟩ := hlen
  unfold addQuaternionCurves
  rw [h]
  cases order <;> simp [quatIndex, List.range_succ]

end

end Motive.Util
