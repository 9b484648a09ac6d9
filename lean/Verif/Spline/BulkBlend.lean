import Verif.Spline.BulkProps

/-!
# Blending to a spline (C57) and repositioning (C58)
-/

namespace Motive.Splines
open Motive.Math Motive.Curve

namespace Slot

/-- The record is blending to spline `s` with the curve `b`; `t` is the time since the blend began. -/
structure Blending (s : Spline) (id : ℕ) (p : Playback) (b : Cubic ℝ) (c : Slot) (t : ℝ) : Prop where
  spline : c.spline = some id
  rep : c.rep = p.rep
  rate : c.rate = p.rate
  off : c.yOffset = p.yOffset
  scale : c.yScale = p.yScale
  data : ∃ x0, s.nodeX c.xIndex = some x0 ∧ c.cubicX = p.startX - x0 + t * p.rate ∧
    c.cubicXEnd = ((p.startX - x0 + p.blendX * p.rate : ℝ) : WithTop ℝ) ∧ c.cubic = b.shiftRight (p.startX - x0)

theorem Blending.evaluate {s : Spline} {id : ℕ} {p : Playback} {b : Cubic ℝ} {c : Slot} {t : ℝ}
    (h : Blending s id p b c t) : Blending s id p b c.evaluate t := ⟨h.1, h.2, h.3, h.4, h.5, h.6⟩

theorem Blending.x {hp : Heap} {s : Spline} {id : ℕ} {p : Playback} {b : Cubic ℝ} {c : Slot} {t : ℝ}
    (h : Blending s id p b c t) (hh : hp id = some s) : c.X hp = some (p.startX + t * p.rate) := by
  obtain ⟨x0, h0, hx, -⟩ := h.data
  unfold Slot.X
  rw [h.spline]
  simp only [Option.bind_some, hh, h0, Option.map_some, hx]
  congr 1; ring

theorem shiftRight_deriv (c : Cubic ℝ) (s x : ℝ) : (c.shiftRight s).deriv x = c.deriv (x - s) := by
  unfold Cubic.shiftRight Cubic.shiftLeft
  by_cases h : -s = 0
  · have : s = 0 := by linarith
    simp [this]
  · rw [if_neg h]; simp only [Cubic.deriv, Cubic.second]; ring

theorem Blending.reads {s : Spline} {id : ℕ} {p : Playback} {b : Cubic ℝ} {c : Slot} {t : ℝ}
    (h : Blending s id p b c t) : c.evaluate.y = b.eval (t * p.rate) ∧
    c.evaluate.derivative = p.rate * b.deriv (t * p.rate) := by
  obtain ⟨x0, -, hx, -, hb⟩ := h.data
  constructor
  · simp only [Slot.evaluate, hb, hx]
    rw [(C29_transforms (K := ℝ) ⟨0, 0, 0⟩ ⟨0, 0, 0⟩ b _ _).2.2.2.2.2.2.2.2.2.1]
    congr 1; ring
  · simp only [Slot.evaluate, derivative, hb, hx, h.rate, shiftRight_deriv]
    congr 2; ring

theorem advance_blending {hp : Heap} {s : Spline} (hs : s.WF) (hn : s.Indexable) {id : ℕ} (hh : hp id = some s)
    {p : Playback} {b : Cubic ℝ} {c : Slot} {t e dx : ℝ} (h : Blending s id p b c t) (hrate : 0 < p.rate)
    (hx0 : 0 ≤ p.startX + (t + dx) * p.rate) (hrep : p.rep = false)
    (hr : (p.startX + (t + dx) * p.rate) / s.g + 1 / 2 < 2147483648) (he : s.endX = some e) :
    ∃ c', c.advance hp dx = some c'.evaluate ∧
      (t + dx ≤ p.blendX → Blending s id p b c' (t + dx)) ∧
      (p.blendX < t + dx → At s id p c' (p.startX + (t + dx) * p.rate)) := by
  obtain ⟨x0, d1, d2, d3, d4⟩ := h.data
  unfold advance
  set c1 : Slot := { c with cubicX := c.cubicX + dx * c.rate } with hc1
  have hb1 : Blending s id p b c1 (t + dx) :=
    ⟨h.spline, h.rep, h.rate, h.off, h.scale, x0, d1, by
      show c.cubicX + dx * c.rate = _
      rw [d2, h.rate]; ring, d3, d4⟩
  have hcond : c1.cubicXEnd < ((c1.cubicX : ℝ) : WithTop ℝ) ↔ p.blendX < t + dx := by
    have e1 : c1.cubicXEnd = ((p.startX - x0 + p.blendX * p.rate : ℝ) : WithTop ℝ) := d3
    have e2 : c1.cubicX = p.startX - x0 + (t + dx) * p.rate := by
      show c.cubicX + dx * c.rate = _
      rw [d2, h.rate]; ring
    rw [e1, e2, WithTop.coe_lt_coe]
    constructor
    · intro hlt; exact lt_of_mul_lt_mul_right (by linarith) hrate.le
    · intro hlt; have := mul_lt_mul_of_pos_right hlt hrate; linarith
  simp only
  by_cases hpast : p.blendX < t + dx
  · rw [if_pos (hcond.mpr hpast), hb1.x hh]
    obtain ⟨c', X', e1, e2, e3, -⟩ := initCubic_at hs hn hh (c := c1) (p := p) h.spline h.rep h.rate h.off h.scale
      hx0 hr he (by simp [hrep])
    rw [e3 hrep] at e2
    exact ⟨c', by simp only [Option.bind_some, e1, Option.map_some], fun hc => absurd hc (not_le.mpr hpast),
      fun _ => e2⟩
  · rw [if_neg (by rw [hcond]; exact hpast)]
    exact ⟨c1, rfl, fun _ => hb1, fun hc => absurd hc hpast⟩

/-- C57: a playing index is given a new spline with a positive blend time (no repeat, positive rate, no modular
range).  There is one cubic `b`, in the x of the new spline, that starts at the current value with slope
`c0.derivative` and ends, at the end of the blend, at the scaled and shifted value `v` of the spline with the slope
`d` of the unscaled spline.  Through any sequence of frames the index follows `b` until the blend time is over, and
from then on reports the values of the spline. -/
theorem C57_blend {hp : Heap} {s : Spline} (hs : s.WF) (hn : s.Indexable) {id : ℕ} (hh : hp id = some s)
    (c0 : Slot) (hplay : c0.spline ≠ none) (hmod : ¬ c0.modRange.valid) (p : Playback) (hrep : p.rep = false)
    (hblend : 0 < p.blendX) (hrate : 0 < p.rate) (hx : 0 ≤ p.startX) {e : ℝ} (he : s.endX = some e)
    (haway : ∀ n ∈ s.nodes, s.g / 2 < |p.startX + p.blendX * p.rate - n.X s.g|)
    (hr : (p.startX + p.blendX * p.rate) / s.g + 1 / 2 < 2147483648) :
    ∃ (b : Cubic ℝ) (v d : ℝ), s.calculate (p.startX + p.blendX * p.rate) .value = some v ∧
      s.calculate (p.startX + p.blendX * p.rate) .derivative = some d ∧
      b.eval 0 = c0.y ∧ b.deriv 0 = c0.derivative ∧
      b.eval (p.blendX * p.rate) = p.yScale * v + p.yOffset ∧ b.deriv (p.blendX * p.rate) = d ∧
      ∀ (dxs : List ℝ), (∀ x ∈ dxs, 0 ≤ x) →
        (p.startX + e + (p.blendX + dxs.sum) * p.rate) / s.g + 1 / 2 < 2147483648 →
        ∃ c, c0.play hp id p dxs = some c ∧ c.X hp = some (p.startX + dxs.sum * p.rate) ∧
          (dxs.sum ≤ p.blendX → c.y = b.eval (dxs.sum * p.rate) ∧
            c.derivative = p.rate * b.deriv (dxs.sum * p.rate)) ∧
          (p.blendX < dxs.sum → Reports s p c (p.startX + dxs.sum * p.rate)) := by
  have hg := hs.g_pos
  have hW : 0 < p.blendX * p.rate := mul_pos hblend hrate
  have he0 : 0 ≤ e := by
    unfold Spline.endX at he
    cases hb : s.nodes.getLast? with
    | none => rw [hb] at he; simp at he
    | some b =>
      rw [hb] at he
      simp only [Option.map_some, Option.some.injEq] at he
      rw [← he]; simp only [Node.X]; positivity
  set X := p.startX + p.blendX * p.rate with hX
  -- the end of the blend
  obtain ⟨j, hj, hnear⟩ := Spline.near_index hs hn (by linarith : (0 : ℝ) ≤ X) hr kInvalid
  obtain ⟨i, hi, hneari⟩ := Spline.near_index hs hn (by linarith : (0 : ℝ) ≤ X) hr 0
  have := Spline.near_unique hs hneari hnear haway
  subst this
  obtain ⟨x0, L, ci, d1, d2, d3, -⟩ := Spline.near_data hn hnear
  obtain ⟨v1, v2⟩ := Spline.calculate_data hn hi hnear d1 d3
  set v := (Cubic.init ci).eval (X - x0) with hv
  set d := (Cubic.init ci).deriv (X - x0) with hd
  have hend : blendEnd s p = some (v, d) := by
    unfold blendEnd
    have : s.indexForXRepeat (p.startX + p.blendX * p.rate) kInvalid p.rep = some (i, X) := by
      unfold Spline.indexForXRepeat
      rw [show p.startX + p.blendX * p.rate = X from rfl, hj, hrep]; simp
    rw [this]
    simp only [Option.bind_some]
    rcases hnear with ⟨rfl, f, hf, -⟩ | ⟨rfl, f, hf, -⟩ | ⟨a, c, ha, hc, -⟩
    · have hci : ci = ⟨f.Y s.yRange, 0, f.Y s.yRange, 0, 1⟩ := by
        simpa [Spline.cubicInitAt, outside, kBefore, kAfter, List.head?_eq_getElem?, hf] using d3.symm
      have hout : outside kBefore = true := by simp [outside, kBefore, kAfter]
      rw [if_pos hout, hv, hd, hci]
      simp [Spline.nodeY, kBefore, kAfter, Spline.startY, List.head?_eq_getElem?, hf, Cubic.init, Cubic.eval,
        Cubic.deriv]
    · have hci : ci = ⟨f.Y s.yRange, 0, f.Y s.yRange, 0, 1⟩ := by
        simpa [Spline.cubicInitAt, outside, kBefore, kAfter, List.getLast?_eq_getElem?, hf] using d3.symm
      have hout : outside kAfter = true := by simp [outside, kAfter]
      rw [if_pos hout, hv, hd, hci]
      simp [Spline.nodeY, Spline.endY, List.getLast?_eq_getElem?, hf, Cubic.init, Cubic.eval, Cubic.deriv]
    · have hlt := (List.getElem?_eq_some_iff.mp hc).1
      have hmax := hn.2
      have hout : outside i = false := by unfold outside kAfter; exact decide_eq_false (by omega)
      rw [if_neg (by rw [hout]; simp), d1, d3]
      rfl
  set bi : CubicInit ℝ := ⟨c0.y, c0.derivative, v * p.yScale + p.yOffset, d, p.blendX * p.rate⟩ with hbi
  have hinit : c0.blendInit s p = some bi := by
    unfold blendInit blendYs
    rw [hend]
    simp only [Option.bind_some]
    rw [if_neg hmod]
    rfl
  have hherm := (C29_hermite bi hW (Cubic.init bi)).mp rfl
  -- the start of the blend
  have hr0 : p.startX / s.g + 1 / 2 < 2147483648 := by
    have : p.startX / s.g ≤ X / s.g := by rw [div_le_div_iff_of_pos_right hg]; linarith
    linarith
  obtain ⟨k, hk, hneark⟩ := Spline.near_index hs hn hx hr0 kInvalid
  obtain ⟨x1, L1, ci1, q1, -, -, -⟩ := Spline.near_data hn hneark
  obtain ⟨cb, hcb, hB⟩ : ∃ cb, c0.setSpline hp id p = some cb.evaluate ∧ Blending s id p (Cubic.init bi) cb 0 := by
    refine ⟨{ c0 with
            rate := p.rate, yOffset := p.yOffset, yScale := p.yScale, spline := some id, xIndex := k,
            rep := p.rep
            cubicX := p.startX - x1
            cubicXEnd := ((p.startX - x1 + p.blendX * p.rate : ℝ) : WithTop ℝ)
            cubic := (Cubic.init bi).shiftRight (p.startX - x1) }, ?_, ⟨rfl, rfl, rfl, rfl, rfl, x1, q1, ?_, rfl, rfl⟩⟩
    · unfold setSpline blendTo
      rw [if_pos ⟨Option.isSome_iff_ne_none.mpr hplay, hblend⟩, hh]
      simp only [Option.bind_some, hinit]
      have : s.indexForXRepeat p.startX kInvalid p.rep = some (k, p.startX) := by
        unfold Spline.indexForXRepeat
        rw [hk, hrep]; simp
      rw [this]
      simp only [Option.bind_some, q1, Option.map_some]
    · simp
  refine ⟨Cubic.init bi, v, d, v1, v2, hherm.1, hherm.2.1, ?_, hherm.2.2.2, ?_⟩
  · have := hherm.2.2.1
    rw [show (bi.widthX) = p.blendX * p.rate from rfl] at this
    rw [this]; simp only [hbi]; ring
  · -- all frames
    have key : ∀ (dxs : List ℝ), (∀ x ∈ dxs, 0 ≤ x) → ∀ (c : Slot) (t : ℝ), 0 ≤ t → t ≤ p.blendX →
        Blending s id p (Cubic.init bi) c t →
        (p.startX + e + (p.blendX + (t + dxs.sum)) * p.rate) / s.g + 1 / 2 < 2147483648 →
        ∃ c', dxs.foldlM (fun c dx => c.advance hp dx) c.evaluate = some c'.evaluate ∧
          (t + dxs.sum ≤ p.blendX → Blending s id p (Cubic.init bi) c' (t + dxs.sum)) ∧
          (p.blendX < t + dxs.sum → At s id p c' (p.startX + (t + dxs.sum) * p.rate)) := by
      intro dxs
      induction dxs with
      | nil =>
        intro _ c t _ htb hB _
        refine ⟨c, rfl, ?_, ?_⟩
        · intro _; rw [List.sum_nil, add_zero]; exact hB
        · intro h; rw [List.sum_nil, add_zero] at h; linarith
      | cons x dxs ih =>
        intro hall c t ht0 htb hB hrr
        have hx0 := hall x (by simp)
        have hall' : ∀ y ∈ dxs, 0 ≤ y := fun y hy => hall y (List.mem_cons_of_mem _ hy)
        have hs0 : 0 ≤ dxs.sum := List.sum_nonneg hall'
        have hsp : 0 ≤ dxs.sum * p.rate := mul_nonneg hs0 hrate.le
        have htx : 0 ≤ (t + x) * p.rate := mul_nonneg (by linarith) hrate.le
        rw [List.sum_cons] at hrr ⊢
        have hrr' : (p.startX + e + p.blendX * p.rate + (t + x) * p.rate + dxs.sum * p.rate) / s.g + 1 / 2 <
            2147483648 := by
          have : p.startX + e + (p.blendX + (t + (x + dxs.sum))) * p.rate =
            p.startX + e + p.blendX * p.rate + (t + x) * p.rate + dxs.sum * p.rate := by ring
          rw [← this]; exact hrr
        have mono : ∀ z, z ≤ p.startX + e + p.blendX * p.rate + (t + x) * p.rate + dxs.sum * p.rate →
            z / s.g + 1 / 2 < 2147483648 := by
          intro z hz
          have : z / s.g ≤ (p.startX + e + p.blendX * p.rate + (t + x) * p.rate + dxs.sum * p.rate) / s.g := by
            rw [div_le_div_iff_of_pos_right hg]; exact hz
          linarith
        obtain ⟨c1, a1, a2, a3⟩ := advance_blending hs hn hh hB.evaluate hrate (dx := x) (by linarith) hrep
          (mono _ (by linarith)) he
        by_cases hc : t + x ≤ p.blendX
        · obtain ⟨c2, b1, b2, b3⟩ := ih hall' c1 (t + x) (by linarith) hc (a2 hc) (by
            rw [show p.startX + e + (p.blendX + (t + x + dxs.sum)) * p.rate =
              p.startX + e + p.blendX * p.rate + (t + x) * p.rate + dxs.sum * p.rate by ring]
            exact hrr')
          rw [← add_assoc]
          exact ⟨c2, by rw [List.foldlM_cons, a1]; exact b1, b2, b3⟩
        · have hAt := a3 (not_le.mp hc)
          obtain ⟨c2, X2, b1, b2, b3, -⟩ := foldlM_at hs hn hh hrate.le he (by simp [hrep]) dxs hall' c1 _
            (p.startX + e + (t + x) * p.rate) hAt (by linarith) (by linarith) (mono _ (by linarith))
          refine ⟨c2, by rw [List.foldlM_cons, a1]; exact b1, fun h => by linarith, fun _ => ?_⟩
          have : p.startX + (t + (x + dxs.sum)) * p.rate = X2 := by rw [b3 hrep]; ring
          rw [this]; exact b2
    intro dxs hall hrr
    have hs0 : 0 ≤ dxs.sum := List.sum_nonneg hall
    obtain ⟨c', k1, k2, k3⟩ := key dxs hall cb 0 le_rfl hblend.le hB (by rw [zero_add]; exact hrr)
    rw [zero_add] at k2 k3
    have hX' : c'.evaluate.X hp = some (p.startX + dxs.sum * p.rate) := by
      rcases le_or_gt dxs.sum p.blendX with h | h
      · exact (k2 h).evaluate.x hh
      · exact (k3 h).evaluate.x hh
    refine ⟨c'.evaluate, by unfold play; rw [hcb]; exact k1, hX', fun h => (k2 h).reads, fun h => ?_⟩
    refine (k3 h).reports hs hn ?_
    have : (p.startX + dxs.sum * p.rate) / s.g ≤ (p.startX + e + (p.blendX + dxs.sum) * p.rate) / s.g := by
      rw [div_le_div_iff_of_pos_right hg]
      have : 0 ≤ p.blendX * p.rate := hW.le
      linarith [add_mul p.blendX dxs.sum p.rate]
    linarith

/-- C57 is only true of the derivative at the start of the blend if the playback rate is 1: right after the switch
the reported derivative is the old one multiplied by the new playback rate. -/
theorem C57_start_derivative {hp : Heap} {s : Spline} (hs : s.WF) (hn : s.Indexable) {id : ℕ} (hh : hp id = some s)
    (c0 : Slot) (hplay : c0.spline ≠ none) (hmod : ¬ c0.modRange.valid) (p : Playback) (hrep : p.rep = false)
    (hblend : 0 < p.blendX) (hrate : 0 < p.rate) (hx : 0 ≤ p.startX) {e : ℝ} (he : s.endX = some e)
    (haway : ∀ n ∈ s.nodes, s.g / 2 < |p.startX + p.blendX * p.rate - n.X s.g|)
    (hr : (p.startX + e + p.blendX * p.rate) / s.g + 1 / 2 < 2147483648) :
    ∃ c, c0.setSpline hp id p = some c ∧ c.y = c0.y ∧ c.derivative = p.rate * c0.derivative ∧
      (c.derivative = c0.derivative ↔ p.rate = 1 ∨ c0.derivative = 0) := by
  have hg := hs.g_pos
  have he0 : 0 ≤ e := by
    unfold Spline.endX at he
    cases hb : s.nodes.getLast? with
    | none => rw [hb] at he; simp at he
    | some b =>
      rw [hb] at he
      simp only [Option.map_some, Option.some.injEq] at he
      rw [← he]; simp only [Node.X]; positivity
  have hW : 0 < p.blendX * p.rate := mul_pos hblend hrate
  obtain ⟨b, v, d, -, -, b1, b2, -, -, h⟩ := C57_blend hs hn hh c0 hplay hmod p hrep hblend hrate hx he haway (by
    have : (p.startX + p.blendX * p.rate) / s.g ≤ (p.startX + e + p.blendX * p.rate) / s.g := by
      rw [div_le_div_iff_of_pos_right hg]; linarith
    linarith)
  obtain ⟨c, k1, -, k2, -⟩ := h [] (by simp) (by simpa using hr)
  obtain ⟨y1, y2⟩ := k2 (by simpa using hblend.le)
  simp only [List.sum_nil, zero_mul, b1, b2] at y1 y2
  refine ⟨c, ?_, y1, y2, ?_⟩
  · unfold play at k1
    cases hset : c0.setSpline hp id p with
    | none => rw [hset] at k1; simp at k1
    | some c1 => rw [hset] at k1; exact k1
  · rw [y2]
    constructor
    · intro h
      by_cases h0 : c0.derivative = 0
      · exact Or.inr h0
      · left; exact mul_right_cancel₀ h0 (by linarith)
    · rintro (h | h)
      · rw [h, one_mul]
      · rw [h, mul_zero]

/-- C57 is only true of the derivative at the end of the blend if the spline is not scaled: at the end of the blend the
reported derivative is that of the unscaled spline, while the index reports the derivative of the scaled spline from
there on. -/
theorem C57_end_derivative {hp : Heap} {s : Spline} (hs : s.WF) (hn : s.Indexable) {id : ℕ} (hh : hp id = some s)
    (c0 : Slot) (hplay : c0.spline ≠ none) (hmod : ¬ c0.modRange.valid) (p : Playback) (hrep : p.rep = false)
    (hblend : 0 < p.blendX) (hrate : 0 < p.rate) (hx : 0 ≤ p.startX) {e : ℝ} (he : s.endX = some e)
    (haway : ∀ n ∈ s.nodes, s.g / 2 < |p.startX + p.blendX * p.rate - n.X s.g|)
    (hr : (p.startX + e + 2 * p.blendX * p.rate) / s.g + 1 / 2 < 2147483648) :
    ∃ c v d, c0.play hp id p [p.blendX] = some c ∧ c.X hp = some (p.startX + p.blendX * p.rate) ∧
      s.calculate (p.startX + p.blendX * p.rate) .value = some v ∧
      s.calculate (p.startX + p.blendX * p.rate) .derivative = some d ∧
      c.y = p.yScale * v + p.yOffset ∧ c.derivative = p.rate * d ∧
      (c.derivative = p.rate * (p.yScale * d) ↔ p.yScale = 1 ∨ d = 0) := by
  have hg := hs.g_pos
  have he0 : 0 ≤ e := by
    unfold Spline.endX at he
    cases hb : s.nodes.getLast? with
    | none => rw [hb] at he; simp at he
    | some b =>
      rw [hb] at he
      simp only [Option.map_some, Option.some.injEq] at he
      rw [← he]; simp only [Node.X]; positivity
  have hW : 0 < p.blendX * p.rate := mul_pos hblend hrate
  obtain ⟨b, v, d, hv, hd, -, -, b3, b4, h⟩ := C57_blend hs hn hh c0 hplay hmod p hrep hblend hrate hx he haway (by
    have : (p.startX + p.blendX * p.rate) / s.g ≤ (p.startX + e + 2 * p.blendX * p.rate) / s.g := by
      rw [div_le_div_iff_of_pos_right hg]; linarith
    linarith)
  obtain ⟨c, k1, k0, k2, -⟩ := h [p.blendX] (by simp [hblend.le]) (by
    rw [List.sum_singleton, ← two_mul]; exact hr)
  rw [List.sum_singleton] at k0 k2
  obtain ⟨y1, y2⟩ := k2 le_rfl
  rw [b3] at y1
  rw [b4] at y2
  refine ⟨c, v, d, k1, k0, hv, hd, y1, y2, ?_⟩
  rw [y2]
  constructor
  · intro h
    by_cases h0 : d = 0
    · exact Or.inr h0
    · left
      have h' := mul_left_cancel₀ hrate.ne' h
      exact mul_right_cancel₀ h0 (by linarith)
  · rintro (h | h)
    · rw [h, one_mul]
    · rw [h]; ring

/-- C57, modular values: with a modular range symmetric about zero, the blend starts at the normalised current value,
ends at a value congruent to the target and takes the shorter way. -/
theorem C57_modular (c : Slot) (endY : ℝ) (h1 : c.modRange.start = -c.modRange.stop) (h2 : 0 < c.modRange.stop) :
    ∃ a b, c.blendYs endY = some (a, b) ∧ c.modRange.start < a ∧ a ≤ c.modRange.stop ∧
      (∃ k : ℤ, a = c.y + k * (2 * c.modRange.stop)) ∧ (∃ k : ℤ, b = endY + k * (2 * c.modRange.stop)) ∧
      |b - a| ≤ c.modRange.stop := by
  have hlt : c.modRange.start < c.modRange.stop := by linarith
  have hlen : c.modRange.stop - c.modRange.start = 2 * c.modRange.stop := by linarith
  obtain ⟨a, a1, a2, a3, ka, a4⟩ := Range.normalizeClose_rep hlt c.y
  obtain ⟨m, m1, m2, m3, km, m4⟩ := Range.normalizeClose_rep hlt endY
  obtain ⟨d, d1, d2, d3, kd, d4⟩ := Range.normalize_rep (x := m - a) hlt (by linarith) (by linarith)
  rw [hlen] at a4 m4 d4
  refine ⟨a, a + d, ?_, a2, a3, ⟨ka, a4⟩, ⟨km + kd, ?_⟩, ?_⟩
  · unfold blendYs
    rw [if_pos (show c.modRange.valid from hlt.le), a1]
    simp only [Option.bind_some, m1, d1, Option.map_some]
  · rw [d4, m4]; push_cast; ring
  · rw [add_sub_cancel_left, abs_le]; constructor <;> linarith

/-- With a modular range that is not symmetric about zero the longer way may be taken: with the range (0, 360], a
blend from 350 to 340 goes up to 700. -/
theorem C57_modular_not_shortest :
    Slot.blendYs { modRange := ⟨0, 360⟩, y := 350 } 340 = some (350, 700) := by
  unfold blendYs
  rw [if_pos (by norm_num [Range.valid])]
  norm_num [Range.normalizeClose, Range.normalize, Range.modularAdjustment, Range.length, Range.containsExclStart]

/-- The hypotheses of the blend hold, for a blend of the sample spline to itself. -/
example : ∃ c, Slot.setSpline (fun _ => some Spline.sample) { spline := some 1, y := 3 } 0
    { startX := 1, rate := 2, blendX := 3 } = some c ∧ c.y = 3 := by
  obtain ⟨c, h1, h2, -⟩ := C57_start_derivative (hp := fun _ => some Spline.sample) (id := 0) Spline.sample_wf.1
    Spline.sample_wf.2 rfl { spline := some 1, y := 3 } (by simp) (by norm_num [Range.valid])
    { startX := 1, rate := 2, blendX := 3 } rfl (by norm_num) (by norm_num) (by norm_num)
    (e := 9) (by norm_num [Spline.sample, Spline.endX, Node.X])
    (by
      intro n hn
      simp only [Spline.sample, List.mem_cons, List.not_mem_nil, or_false] at hn
      rcases hn with rfl | rfl | rfl | rfl <;> norm_num [Spline.sample, Node.X, abs_of_pos, abs_of_neg])
    (by norm_num [Spline.sample])
  exact ⟨c, h1, h2⟩

/-- C58: repositioning a playing index with `SetXs` does the same as setting its spline again, with the same rate,
scale, offset and repeat state, no blend, and the new start x. -/
theorem C58_set_x {hp : Heap} {s : Spline} (hs : s.WF) (hn : s.Indexable) {id : ℕ} (hh : hp id = some s)
    (c : Slot) (hc : c.spline = some id) {x : ℝ} (hx : 0 ≤ x) (hr : x / s.g + 1 / 2 < 2147483648)
    (haway : ∀ n ∈ s.nodes, s.g / 2 < |x - n.X s.g|) :
    c.setX hp x = c.setSpline hp id ⟨x, c.rep, c.rate, 0, c.yOffset, c.yScale⟩ := by
  have hidx : ∀ g g', s.indexForXRepeat x g c.rep = s.indexForXRepeat x g' c.rep := by
    intro g g'
    obtain ⟨i, hi, ni⟩ := Spline.near_index hs hn hx hr g
    obtain ⟨j, hj, nj⟩ := Spline.near_index hs hn hx hr g'
    have := Spline.near_unique hs ni nj haway
    subst this
    unfold Spline.indexForXRepeat
    rw [hi, hj]
  unfold setX setSpline
  rw [if_neg (by simp)]
  unfold jumpTo initCubic
  rw [hc]
  simp only [hh, Option.bind_some]
  rw [hidx ((c.xIndex + 1) % 65536) ((kInvalid + 1) % 65536)]

/-- An index whose splines are cleared does not keep its value: at the next frame `Y` becomes the distance into the
segment that was being played. -/
theorem C58_clear_loses_value (hp : Heap) (c : Slot) (dx : ℝ) :
    c.clearSpline.advance hp dx = some { c.clearSpline with cubicX := dx * c.rate, y := c.cubicX } := by
  unfold advance clearSpline
  simp [evaluate, Cubic.eval]

end Slot
end Motive.Splines
