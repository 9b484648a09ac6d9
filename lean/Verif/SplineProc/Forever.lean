import Verif.SplineProc.Playing
import Verif.Spline.BulkBlend

/-!
# Spline motivators play for ever, and blend into any spline (C96)

C26, C57 and C91 bound the time that a spline plays, because `IndexForX` quantises x to an `int` (src/motive/math/compact_spline.cpp:119-153).
But x is quantised only when the evaluator leaves a segment (src/motive/math/bulk_spline_evaluator.cpp:281-296, 346-350), and then it is on
the spline, give or take a frame. So only the length of each frame has to be bounded. Here splines may also repeat while they are blended to,
values may be angles, and the rate and the time may be set during the blend.
-/

namespace Motive.SplineProc

open Motive.Proc Motive.Proc.Vector Motive.Splines Motive.Splines.Slot Motive.Math Motive.Curve

/-! ### Specification -/

/-- No frame moves a spline by more than `M`, and no position that is set is beyond `M`. The number is the rate. -/
def Strides (M : ℝ) : ℝ → List (Cmd ⊕ ℝ) → Prop
  | _, [] => True
  | r, .inr dt :: evs => dt * r ≤ M ∧ Strides M r evs
  | r, .inl (.time x) :: evs => x ≤ M ∧ Strides M r evs
  | _, .inl (.rate r) :: evs => Strides M r evs
  | r, .inl _ :: evs => Strides M r evs

/-- The blend is not over: the clock has not passed its end, and no position was set. -/
def InBlend (p : Playback) (evs : List (Cmd ⊕ ℝ)) : Prop :=
  (∀ x, Sum.inl (.time x) ∉ evs) ∧ (evs.foldl clock (p.startX, p.rate)).1 ≤ p.startX + p.blendX * p.rate

/-- The record plays the spline at `X`: as `Reports` says, as long as a position is a number that fits in an `int`; past the end it
shows the last value of the spline, at rest; but if the spline repeats, it is never more than half a grain past the end. -/
structure Shows (s : Spline) (p : Playback) (c : Slot) (X : ℝ) : Prop where
  reports : X / s.g + 1 / 2 < 2147483648 → Reports s p c X
  rests : ∀ e y, s.endX = some e → s.endY = some y → e + s.g / 2 < X → c.y = p.yScale * y + p.yOffset ∧ c.derivative = 0
  nonneg : 0 ≤ X
  wraps : p.rep = true → 2 ≤ s.nodes.length → ∀ e, s.endX = some e → X ≤ e + s.g / 2

/-- `b` leads from what the record shows to the spline: it starts at the value and with the slope of the record, and ends, when the blend is
over, at the scaled and shifted value of the spline, with the slope of the spline itself. `X` is the place on the spline where it ends.
Values are equal, or equal up to whole turns, if they are angles. -/
def Leads (s : Spline) (p : Playback) (c0 : Slot) (b : Cubic ℝ) : Prop :=
  ∃ (X v d : ℝ) (j k : ℤ), (¬ c0.modRange.valid → j = 0 ∧ k = 0) ∧
    (p.rep = false → X = p.startX + p.blendX * p.rate) ∧ (∀ e, s.endX = some e → ∃ n : ℤ, X = p.startX + p.blendX * p.rate + n * e) ∧
    ((∀ n ∈ s.nodes, s.g / 2 < |X - n.X s.g|) → s.calculate X .value = some v ∧ s.calculate X .derivative = some d) ∧
    b.eval 0 = c0.y + j * (2 * c0.modRange.stop) ∧ b.deriv 0 = c0.derivative ∧
    b.eval (p.blendX * p.rate) = p.yScale * v + p.yOffset + k * (2 * c0.modRange.stop) ∧ b.deriv (p.blendX * p.rate) = d

/-! ### Positions -/

theorem endX_nonneg {s : Spline} (hs : s.WF) {e : ℝ} (he : s.endX = some e) : 0 ≤ e := by
  obtain ⟨b, -, rfl⟩ := endX_last he
  have := hs.g_pos
  simp only [Node.X]
  positivity

/-- `IndexForXAllowingRepeat` always finds a position. -/
theorem index_repeat {s : Spline} (hs : s.WF) (hn : s.Indexable) {X e : ℝ} (h0 : 0 ≤ X) (hr : X / s.g + 1 / 2 < 2147483648)
    (he : s.endX = some e) (rep : Bool) (hpos : rep = true → 0 < e) (guess : ℕ) :
    ∃ i X', s.indexForXRepeat X guess rep = some (i, X') ∧ s.Near X' i ∧ 0 ≤ X' ∧ (rep = false → X' = X) ∧
      (∃ k : ℤ, X' = X + k * e) ∧ X' ≤ max X e := by
  have hg := hs.g_pos
  obtain ⟨i, hi, hnear⟩ := Spline.near_index hs hn h0 hr guess
  cases rep with
  | false =>
    exact ⟨i, X, by unfold Spline.indexForXRepeat; rw [hi]; simp, hnear, h0, fun _ => rfl, ⟨0, by simp⟩, le_max_left _ _⟩
  | true =>
    obtain ⟨j, fx, hj, -, j2, j3⟩ := Spline.C24_repeat hs hn (quantizeX_eq hg (by linarith) hr) guess true he (hpos rfl)
    by_cases hia : i = kAfter
    · obtain ⟨f1, f2, f3, f4, f5⟩ := j3 rfl (by rw [hi, hia])
      have hee : e / s.g ≤ 65535 := by
        obtain ⟨b, hb, rfl⟩ := endX_last he
        have hb65 : (b.x : ℝ) ≤ 65535 := by exact_mod_cast (hs.ok b (List.mem_of_getElem? hb)).1
        rw [div_le_iff₀ hg]; simp only [Node.X]
        exact mul_le_mul_of_nonneg_right hb65 hg.le
      have hfr : fx / s.g ≤ e / s.g := by rw [div_le_div_iff_of_pos_right hg]; exact f2
      obtain ⟨j', hj', hnear'⟩ := Spline.near_index hs hn f1.le (by linarith) 0
      rw [f4] at hj'; cases hj'
      exact ⟨j, fx, hj, hnear', f1.le, by simp, f3, le_trans f2 (le_max_right _ _)⟩
    · obtain ⟨f1, f2⟩ := j2 (by rw [hi]; simpa using hia)
      subst f1
      rw [hi] at f2; cases f2
      exact ⟨i, fx, hj, hnear, h0, fun _ => rfl, ⟨0, by simp⟩, le_max_left _ _⟩

/-- What the evaluator shows while it plays. -/
theorem at_shows {s : Spline} (hs : s.WF) (hn : s.Indexable) {id : ℕ} {p : Playback} {c : Slot} {X : ℝ} (h : At s id p c X) :
    Shows s p c.evaluate X := by
  refine ⟨fun hr => h.reports hs hn hr, fun e y he hy hX => ?_, h.nonneg, fun h1 h2 e he => near_le hs he h.near (h.inside h1 h2)⟩
  have hidx : c.xIndex = kAfter := by
    by_contra hne
    exact absurd (near_le hs he h.near hne) (not_le.mpr hX)
  obtain ⟨x0, L, ci, -, -, d3, -, -, d6⟩ := h.data
  have hci : ci = ⟨y, 0, y, 0, 1⟩ := by
    rw [hidx] at d3
    simp only [Spline.endY, Option.map_eq_some_iff] at hy
    obtain ⟨l, hl, rfl⟩ := hy
    simpa [Spline.cubicInitAt, outside, kAfter, kBefore, hl] using d3.symm
  simp only [Slot.evaluate, Slot.derivative, d6, hci]
  constructor
  · simp [Cubic.init, Cubic.scaleUp, Cubic.shiftUp, Cubic.eval]
    ring
  · simp [Cubic.init, Cubic.scaleUp, Cubic.shiftUp, Cubic.deriv]

/-- One frame of a spline that plays, however long it has played. -/
theorem advance_stride {hp : Heap} {s : Spline} (hs : s.WF) (hn : s.Indexable) {id : ℕ} (hh : hp id = some s) {p : Playback} {c : Slot}
    {X e dx : ℝ} (h : At s id p c X) (hd : 0 ≤ dx * p.rate) (hr : (e + dx * p.rate) / s.g + 1 < 2147483648) (he : s.endX = some e)
    (hpos : p.rep = true → 0 < e) :
    ∃ c' X', c.advance hp dx = some c'.evaluate ∧ At s id p c' X' ∧ (p.rep = false → X' = X + dx * p.rate) ∧
      (∃ k : ℤ, X' = X + dx * p.rate + k * e) := by
  have hg := hs.g_pos
  obtain ⟨c', X', h1, h2, h3, h4, -⟩ := advance_at hs hn hh h hd (fun hj => by
    have := near_le hs he h.near hj
    have h2 : (X + dx * p.rate) / s.g ≤ (e + dx * p.rate) / s.g + 1 / 2 := by
      rw [div_add' _ _ _ hg.ne', div_le_div_iff_of_pos_right hg]; linarith
    linarith) he hpos
  exact ⟨c', X', h1, h2, h3, h4⟩

/-- The invariant of a spline that plays: through any events with bounded strides. -/
theorem control_stride {hp : Heap} {s : Spline} (hs : s.WF) (hn : s.Indexable) {id : ℕ} (hh : hp id = some s) {e M : ℝ}
    (he : s.endX = some e) (hM : (e + M) / s.g + 1 < 2147483648) :
    ∀ (evs : List (Cmd ⊕ ℝ)), (∀ v ∈ evs, Control v) → ∀ (p : Playback) (c : Slot) (X x : ℝ),
      (p.rep = true → 0 < e) → 0 ≤ p.rate → At s id p c X → (p.rep = false → X = x) → (∃ k : ℤ, X = x + k * e) → Strides M p.rate evs →
      ∃ c' X', replay (machine hp) c.evaluate evs = some c'.evaluate ∧
        At s id { p with rate := (evs.foldl clock (x, p.rate)).2 } c' X' ∧
        (p.rep = false → X' = (evs.foldl clock (x, p.rate)).1) ∧ (∃ k : ℤ, X' = (evs.foldl clock (x, p.rate)).1 + k * e) := by
  have hg := hs.g_pos
  have he0 := endX_nonneg hs he
  intro evs
  induction evs with
  | nil => intro _ p c X x _ _ hat h1 h2 _; exact ⟨c, X, rfl, hat, h1, h2⟩
  | cons v evs ih =>
    intro hev p c X x hpos hrate hat h1 h2 hb
    have hrest : ∀ w ∈ evs, Control w := fun w hw => hev w (by simp [hw])
    have hv := hev v (by simp)
    match v with
    | .inr dt =>
      have hd : 0 ≤ dt * p.rate := mul_nonneg hv hrate
      obtain ⟨hb1, hb2⟩ : dt * p.rate ≤ M ∧ Strides M p.rate evs := hb
      have hr1 : (e + dt * p.rate) / s.g + 1 < 2147483648 := by
        have : (e + dt * p.rate) / s.g ≤ (e + M) / s.g := by
          rw [div_le_div_iff_of_pos_right hg]; linarith
        linarith
      obtain ⟨c1, X1, a1, a2, a3, k1, a4⟩ := advance_stride hs hn hh hat.evaluate hd hr1 he hpos
      obtain ⟨k, hk⟩ := h2
      obtain ⟨c', X', b1, b2, b3, b4⟩ := ih hrest p c1 X1 (x + dt * p.rate) hpos hrate a2
        (fun h => by rw [a3 h, h1 h]) ⟨k + k1, by rw [a4, hk]; push_cast; ring⟩ hb2
      refine ⟨c', X', ?_, b2, b3, b4⟩
      have : replay (machine hp) c.evaluate (.inr dt :: evs) = (c.evaluate.advance hp dt).bind fun d => replay (machine hp) d evs := rfl
      rw [this, a1]
      exact b1
    | .inl (.time t) =>
      have ht : (0 : ℝ) ≤ t := hv
      obtain ⟨hb1, hb2⟩ : t ≤ M ∧ Strides M p.rate evs := hb
      have hr1 : t / s.g + 1 / 2 < 2147483648 := by
        have : t / s.g ≤ (e + M) / s.g := by rw [div_le_div_iff_of_pos_right hg]; linarith
        linarith
      obtain ⟨c1, X1, a1, a2, a3, a4, -⟩ := initCubic_at hs hn hh (c := c.evaluate) (p := p) hat.spline hat.rep hat.rate hat.off
        hat.scale ht hr1 he hpos
      obtain ⟨c', X', b1, b2, b3, b4⟩ := ih hrest p c1 X1 t hpos hrate a2 a3 a4 hb2
      refine ⟨c', X', ?_, b2, b3, b4⟩
      have : replay (machine hp) c.evaluate (.inl (.time t) :: evs) =
        (c.evaluate.setX hp t).bind fun d => replay (machine hp) d evs := rfl
      rw [this, Slot.setX, a1]
      exact b1
    | .inl (.rate r) =>
      have hat' : At s id { p with rate := r } { c with rate := r } X :=
        ⟨hat.1, hat.2, rfl, hat.4, hat.5, hat.6, hat.7, hat.8, hat.9⟩
      obtain ⟨c', X', b1, b2, b3, b4⟩ := ih hrest { p with rate := r } { c with rate := r } X x hpos hv hat' h1 h2 hb
      exact ⟨c', X', b1, b2, b3, b4⟩
    | .inl (.play ..) => exact absurd hv (by simp [Control])
    | .inl (.repeating _) => exact absurd hv (by simp [Control])

/-! ### Blending -/

/-- The record blends to spline `s` with the curve `b`. The blend began at `X0` on the spline, and at `p.startX` on the clock, which is now
at `x`; `r` is the current rate. -/
structure Mixing (s : Spline) (id : ℕ) (p : Playback) (b : Cubic ℝ) (X0 : ℝ) (c : Slot) (x r : ℝ) : Prop where
  spline : c.spline = some id
  rep : c.rep = p.rep
  rate : c.rate = r
  off : c.yOffset = p.yOffset
  scale : c.yScale = p.yScale
  data : ∃ x0, s.nodeX c.xIndex = some x0 ∧ c.cubicX = X0 - x0 + (x - p.startX) ∧
    c.cubicXEnd = ((X0 - x0 + p.blendX * p.rate : ℝ) : WithTop ℝ) ∧ c.cubic = b.shiftRight (X0 - x0)

theorem Mixing.evaluate {s : Spline} {id : ℕ} {p : Playback} {b : Cubic ℝ} {X0 : ℝ} {c : Slot} {x r : ℝ}
    (h : Mixing s id p b X0 c x r) : Mixing s id p b X0 c.evaluate x r := ⟨h.1, h.2, h.3, h.4, h.5, h.6⟩

theorem Mixing.pos {hp : Heap} {s : Spline} {id : ℕ} {p : Playback} {b : Cubic ℝ} {X0 : ℝ} {c : Slot} {x r : ℝ}
    (h : Mixing s id p b X0 c x r) (hh : hp id = some s) : c.X hp = some (X0 + (x - p.startX)) := by
  obtain ⟨x0, h0, hx, -⟩ := h.data
  unfold Slot.X
  rw [h.spline]
  simp only [Option.bind_some, hh, h0, Option.map_some, hx]
  congr 1; ring

theorem Mixing.reads {s : Spline} {id : ℕ} {p : Playback} {b : Cubic ℝ} {X0 : ℝ} {c : Slot} {x r : ℝ}
    (h : Mixing s id p b X0 c x r) : c.evaluate.y = b.eval (x - p.startX) ∧ c.evaluate.derivative = r * b.deriv (x - p.startX) := by
  obtain ⟨x0, -, hx, -, hb⟩ := h.data
  constructor
  · simp only [Slot.evaluate, hb, hx]
    rw [(C29_transforms (K := ℝ) ⟨0, 0, 0⟩ ⟨0, 0, 0⟩ b _ _).2.2.2.2.2.2.2.2.2.1]
    congr 1; ring
  · simp only [Slot.evaluate, derivative, hb, hx, h.rate, shiftRight_deriv]
    congr 2; ring

/-- Time does not run backwards. -/
theorem clock_mono : ∀ (evs : List (Cmd ⊕ ℝ)), (∀ v ∈ evs, Control v) → (∀ x, Sum.inl (.time x) ∉ evs) → ∀ x r : ℝ, 0 ≤ r →
    x ≤ (evs.foldl clock (x, r)).1 := by
  intro evs
  induction evs with
  | nil => intro _ _ x r _; exact le_rfl
  | cons v evs ih =>
    intro hev ht x r hr
    have hrest : ∀ w ∈ evs, Control w := fun w hw => hev w (by simp [hw])
    have ht' : ∀ x, Sum.inl (.time x) ∉ evs := fun x hx => ht x (by simp [hx])
    have hv := hev v (by simp)
    match v with
    | .inr dt => exact le_trans (by nlinarith [mul_nonneg (show (0:ℝ) ≤ dt from hv) hr]) (ih hrest ht' (x + dt * r) r hr)
    | .inl (.time t) => exact absurd (by simp) (ht t)
    | .inl (.rate r') => exact ih hrest ht' x r' hv
    | .inl (.play ..) => exact absurd hv (by simp [Control])
    | .inl (.repeating _) => exact absurd hv (by simp [Control])

/-- The invariant of a blend, through any events with bounded strides. -/
theorem mixing_stride {hp : Heap} {s : Spline} (hs : s.WF) (hn : s.Indexable) {id : ℕ} (hh : hp id = some s) {e M R : ℝ}
    (he : s.endX = some e) {p : Playback} (hW : 0 < p.blendX * p.rate) (hpos : p.rep = true → 0 < e) (hR : e ≤ R)
    (hM : (R + p.blendX * p.rate + M) / s.g + 1 < 2147483648) {b : Cubic ℝ} {X0 : ℝ} (hX0 : 0 ≤ X0) (hX1 : X0 ≤ R)
    (hX2 : p.rep = false → X0 = p.startX) (hX3 : ∃ k : ℤ, X0 = p.startX + k * e) :
    ∀ (evs : List (Cmd ⊕ ℝ)), (∀ v ∈ evs, Control v) → ∀ (c : Slot) (x r : ℝ), 0 ≤ r → p.startX ≤ x → x ≤ p.startX + p.blendX * p.rate →
      Mixing s id p b X0 c x r → Strides M r evs →
      ∃ c', replay (machine hp) c.evaluate evs = some c'.evaluate ∧
        ((∀ t, Sum.inl (.time t) ∉ evs) ∧ (evs.foldl clock (x, r)).1 ≤ p.startX + p.blendX * p.rate →
          Mixing s id p b X0 c' (evs.foldl clock (x, r)).1 (evs.foldl clock (x, r)).2) ∧
        (¬ ((∀ t, Sum.inl (.time t) ∉ evs) ∧ (evs.foldl clock (x, r)).1 ≤ p.startX + p.blendX * p.rate) →
          ∃ X', At s id { p with rate := (evs.foldl clock (x, r)).2 } c' X' ∧
            (p.rep = false → X' = (evs.foldl clock (x, r)).1) ∧ (∃ k : ℤ, X' = (evs.foldl clock (x, r)).1 + k * e)) := by
  have hg := hs.g_pos
  have he0 := endX_nonneg hs he
  have hM1 : (e + M) / s.g + 1 < 2147483648 := by
    have : (e + M) / s.g ≤ (R + p.blendX * p.rate + M) / s.g := by
      rw [div_le_div_iff_of_pos_right hg]; linarith
    linarith
  intro evs
  induction evs with
  | nil => intro _ c x r _ _ hx hat _; exact ⟨c, rfl, fun _ => hat, fun h => absurd ⟨by simp, hx⟩ h⟩
  | cons v evs ih =>
    intro hev c x r hr hx0 hx hat hb
    have hrest : ∀ w ∈ evs, Control w := fun w hw => hev w (by simp [hw])
    have hv := hev v (by simp)
    match v with
    | .inr dt =>
      have hd : 0 ≤ dt * r := mul_nonneg hv hr
      obtain ⟨hb1, hb2⟩ : dt * r ≤ M ∧ Strides M r evs := hb
      obtain ⟨x0, d1, d2, d3, d4⟩ := hat.data
      have hrep : replay (machine hp) c.evaluate (.inr dt :: evs) =
        (c.evaluate.advance hp dt).bind fun d => replay (machine hp) d evs := rfl
      set c1 : Slot := { c.evaluate with cubicX := c.evaluate.cubicX + dt * c.evaluate.rate } with hc1
      have e2 : c1.cubicX = X0 - x0 + (x + dt * r - p.startX) := by
        show c.cubicX + dt * c.rate = _
        rw [d2, hat.rate]; ring
      have hm1 : Mixing s id p b X0 c1 (x + dt * r) r := ⟨hat.1, hat.2, hat.3, hat.4, hat.5, x0, d1, e2, d3, d4⟩
      have hcond : c1.cubicXEnd < ((c1.cubicX : ℝ) : WithTop ℝ) ↔ p.startX + p.blendX * p.rate < x + dt * r := by
        have e1 : c1.cubicXEnd = ((X0 - x0 + p.blendX * p.rate : ℝ) : WithTop ℝ) := d3
        rw [e1, e2, WithTop.coe_lt_coe]
        constructor <;> intro h <;> linarith
      have hmem : (∀ t, Sum.inl (.time t) ∉ (.inr dt :: evs : List (Cmd ⊕ ℝ))) ↔ ∀ t, Sum.inl (.time t) ∉ evs := by simp
      by_cases hpast : p.startX + p.blendX * p.rate < x + dt * r
      · obtain ⟨c', X', f1, f2, f3, ⟨k, f4⟩, -⟩ := initCubic_at hs hn hh (c := c1) (p := { p with rate := r }) hat.spline hat.rep hat.rate
          hat.off hat.scale (X := X0 + (x + dt * r - p.startX)) (by linarith) (by
            have : (X0 + (x + dt * r - p.startX)) / s.g ≤ (R + p.blendX * p.rate + M) / s.g := by
              rw [div_le_div_iff_of_pos_right hg]; linarith
            linarith) he hpos
        have hadv : c.evaluate.advance hp dt = some c'.evaluate := by
          unfold Slot.advance
          simp only
          rw [if_pos (hcond.mpr hpast), hm1.pos hh]
          simp only [Option.bind_some]
          rw [f1, Option.map_some]
        obtain ⟨k0, hk0⟩ := hX3
        obtain ⟨c2, X2, g1, g2, g3, g4⟩ := control_stride hs hn hh he hM1 evs hrest { p with rate := r } c' X' (x + dt * r) hpos hr f2
          (fun h => by rw [f3 h, hX2 h]; ring) ⟨k0 + k, by rw [f4, hk0]; push_cast; ring⟩ hb2
        refine ⟨c2, by rw [hrep, hadv]; exact g1, fun h => ?_, fun _ => ⟨X2, g2, g3, g4⟩⟩
        exfalso
        have := clock_mono evs hrest (hmem.mp h.1) (x + dt * r) r hr
        have h2 : (evs.foldl clock (x + dt * r, r)).1 ≤ p.startX + p.blendX * p.rate := h.2
        linarith
      · have hadv : c.evaluate.advance hp dt = some c1.evaluate := by
          unfold Slot.advance
          simp only
          rw [if_neg (by rw [hcond]; exact hpast)]
          rfl
        obtain ⟨c2, g1, g2, g3⟩ := ih hrest c1 (x + dt * r) r hr (by linarith) (not_lt.mp hpast) hm1 hb2
        refine ⟨c2, by rw [hrep, hadv]; exact g1, fun h => g2 ⟨hmem.mp h.1, h.2⟩, fun h => g3 (fun h' => h ⟨hmem.mpr h'.1, h'.2⟩)⟩
    | .inl (.time t) =>
      have ht : (0 : ℝ) ≤ t := hv
      obtain ⟨hb1, hb2⟩ : t ≤ M ∧ Strides M r evs := hb
      have hr1 : t / s.g + 1 / 2 < 2147483648 := by
        have : t / s.g ≤ (e + M) / s.g := by rw [div_le_div_iff_of_pos_right hg]; linarith
        linarith
      obtain ⟨c1, X1, a1, a2, a3, a4, -⟩ := initCubic_at hs hn hh (c := c.evaluate) (p := { p with rate := r }) hat.spline hat.rep hat.rate
        hat.off hat.scale ht hr1 he hpos
      obtain ⟨c', X', b1, b2, b3, b4⟩ := control_stride hs hn hh he hM1 evs hrest { p with rate := r } c1 X1 t hpos hr a2 a3 a4 hb2
      refine ⟨c', ?_, fun h => absurd (by simp) (h.1 t), fun _ => ⟨X', b2, b3, b4⟩⟩
      have : replay (machine hp) c.evaluate (.inl (.time t) :: evs) =
        (c.evaluate.setX hp t).bind fun d => replay (machine hp) d evs := rfl
      rw [this, Slot.setX, a1]
      exact b1
    | .inl (.rate r') =>
      have hat' : Mixing s id p b X0 { c with rate := r' } x r' := ⟨hat.1, hat.2, rfl, hat.4, hat.5, hat.6⟩
      obtain ⟨c', b1, b2, b3⟩ := ih hrest { c with rate := r' } x r' hv hx0 hx hat' hb
      have hmem : (∀ t, Sum.inl (.time t) ∉ (.inl (.rate r') :: evs : List (Cmd ⊕ ℝ))) ↔ ∀ t, Sum.inl (.time t) ∉ evs := by simp
      exact ⟨c', b1, fun h => b2 ⟨hmem.mp h.1, h.2⟩, fun h => b3 (fun h' => h ⟨hmem.mpr h'.1, h'.2⟩)⟩
    | .inl (.play ..) => exact absurd hv (by simp [Control])
    | .inl (.repeating _) => exact absurd hv (by simp [Control])

/-- Where a blend leads to. -/
theorem blendEnd_spec {s : Spline} (hs : s.WF) (hn : s.Indexable) {e : ℝ} (he : s.endX = some e) (p : Playback) (hx : 0 ≤ p.startX)
    (hW : 0 < p.blendX * p.rate) (hpos : p.rep = true → 0 < e) (hr : (p.startX + p.blendX * p.rate) / s.g + 1 / 2 < 2147483648) :
    ∃ X v d, blendEnd s p = some (v, d) ∧ (p.rep = false → X = p.startX + p.blendX * p.rate) ∧
      (∃ n : ℤ, X = p.startX + p.blendX * p.rate + n * e) ∧
      ((∀ n ∈ s.nodes, s.g / 2 < |X - n.X s.g|) → s.calculate X .value = some v ∧ s.calculate X .derivative = some d) := by
  have hg := hs.g_pos
  have he0 := endX_nonneg hs he
  obtain ⟨i, X, h1, h2, h3, h4, h5, h6⟩ := index_repeat hs hn (by linarith) hr he p.rep hpos kInvalid
  have hee : e / s.g ≤ 65535 := by
    obtain ⟨b, hb, rfl⟩ := endX_last he
    have hb65 : (b.x : ℝ) ≤ 65535 := by exact_mod_cast (hs.ok b (List.mem_of_getElem? hb)).1
    rw [div_le_iff₀ hg]; simp only [Node.X]
    exact mul_le_mul_of_nonneg_right hb65 hg.le
  have hXr : X / s.g + 1 / 2 < 2147483648 := by
    rcases le_max_iff.mp h6 with h | h
    · have : X / s.g ≤ (p.startX + p.blendX * p.rate) / s.g := by rw [div_le_div_iff_of_pos_right hg]; exact h
      linarith
    · have : X / s.g ≤ e / s.g := by rw [div_le_div_iff_of_pos_right hg]; exact h
      linarith
  obtain ⟨x0, L, ci, d1, d2, d3, -⟩ := Spline.near_data hn h2
  refine ⟨X, (Cubic.init ci).eval (X - x0), (Cubic.init ci).deriv (X - x0), ?_, h4, h5, ?_⟩
  · unfold blendEnd
    rw [h1]
    simp only [Option.bind_some]
    rcases h2 with ⟨rfl, f, hf, -⟩ | ⟨rfl, f, hf, -⟩ | ⟨a, c, ha, hc, -⟩
    · have hci : ci = ⟨f.Y s.yRange, 0, f.Y s.yRange, 0, 1⟩ := by
        simpa [Spline.cubicInitAt, outside, kBefore, kAfter, List.head?_eq_getElem?, hf] using d3.symm
      have hout : outside kBefore = true := by simp [outside, kBefore, kAfter]
      rw [if_pos hout, hci]
      simp [Spline.nodeY, kBefore, kAfter, Spline.startY, List.head?_eq_getElem?, hf, Cubic.init, Cubic.eval,
        Cubic.deriv]
    · have hci : ci = ⟨f.Y s.yRange, 0, f.Y s.yRange, 0, 1⟩ := by
        simpa [Spline.cubicInitAt, outside, kBefore, kAfter, List.getLast?_eq_getElem?, hf] using d3.symm
      have hout : outside kAfter = true := by simp [outside, kAfter]
      rw [if_pos hout, hci]
      simp [Spline.nodeY, Spline.endY, List.getLast?_eq_getElem?, hf, Cubic.init, Cubic.eval, Cubic.deriv]
    · have hlt := (List.getElem?_eq_some_iff.mp hc).1
      have hmax := hn.2
      have hout : outside i = false := by unfold outside kAfter; exact decide_eq_false (by omega)
      rw [if_neg (by rw [hout]; simp), d1, d3]
      rfl
  · intro haway
    obtain ⟨j, hj, hnear⟩ := Spline.near_index hs hn h3 hXr 0
    have := Spline.near_unique hs hnear h2 haway
    subst this
    exact Spline.calculate_data hn hj h2 d1 d3

/-- A blend begins. -/
theorem blend_starts {hp : Heap} {s : Spline} (hs : s.WF) (hn : s.Indexable) {id : ℕ} (hh : hp id = some s) {e : ℝ} (he : s.endX = some e)
    (c0 : Slot) (hplay : c0.spline ≠ none) (hmod : c0.modRange.valid → c0.modRange.start = -c0.modRange.stop ∧ 0 < c0.modRange.stop)
    (p : Playback) (hx : 0 ≤ p.startX) (hblend : 0 < p.blendX) (hrate : 0 < p.rate) (hpos : p.rep = true → 0 < e)
    (hr : (p.startX + p.blendX * p.rate) / s.g + 1 / 2 < 2147483648) :
    ∃ b c X0, c0.setSpline hp id p = some c.evaluate ∧ Mixing s id p b X0 c p.startX p.rate ∧ Leads s p c0 b ∧ 0 ≤ X0 ∧
      X0 ≤ max p.startX e ∧ (p.rep = false → X0 = p.startX) ∧ (∃ k : ℤ, X0 = p.startX + k * e) := by
  have hg := hs.g_pos
  have hW : 0 < p.blendX * p.rate := mul_pos hblend hrate
  obtain ⟨X, v, d, h1, h2, h3, h4⟩ := blendEnd_spec hs hn he p hx hW hpos hr
  obtain ⟨sy, ey, j, k, hys, hj, hk, h0⟩ : ∃ (sy ey : ℝ) (j k : ℤ), c0.blendYs (v * p.yScale + p.yOffset) = some (sy, ey) ∧
      sy = c0.y + j * (2 * c0.modRange.stop) ∧ ey = v * p.yScale + p.yOffset + k * (2 * c0.modRange.stop) ∧
      (¬ c0.modRange.valid → j = 0 ∧ k = 0) := by
    by_cases hv : c0.modRange.valid
    · obtain ⟨a1, a2⟩ := hmod hv
      obtain ⟨a, b, q1, -, -, ⟨j, q2⟩, ⟨k, q3⟩, -⟩ := C57_modular c0 (v * p.yScale + p.yOffset) a1 a2
      exact ⟨a, b, j, k, q1, q2, q3, fun h => absurd hv h⟩
    · exact ⟨_, _, 0, 0, by unfold blendYs; rw [if_neg hv], by simp, by simp, fun _ => ⟨rfl, rfl⟩⟩
  set bi : CubicInit ℝ := ⟨sy, c0.derivative, ey, d, p.blendX * p.rate⟩ with hbi
  have hinit : c0.blendInit s p = some bi := by
    unfold blendInit
    rw [h1]
    simp only [Option.bind_some, hys, Option.map_some, hbi]
  have hherm := (C29_hermite bi hW (Cubic.init bi)).mp rfl
  have hr0 : p.startX / s.g + 1 / 2 < 2147483648 := by
    have : p.startX / s.g ≤ (p.startX + p.blendX * p.rate) / s.g := by rw [div_le_div_iff_of_pos_right hg]; linarith
    linarith
  obtain ⟨i, X0, q1, q2, q3, q4, q5, q6⟩ := index_repeat hs hn hx hr0 he p.rep hpos kInvalid
  obtain ⟨x1, L1, ci1, r1, -, -, -⟩ := Spline.near_data hn q2
  refine ⟨Cubic.init bi, { c0 with
            rate := p.rate, yOffset := p.yOffset, yScale := p.yScale, spline := some id, xIndex := i,
            rep := p.rep
            cubicX := X0 - x1
            cubicXEnd := ((X0 - x1 + p.blendX * p.rate : ℝ) : WithTop ℝ)
            cubic := (Cubic.init bi).shiftRight (X0 - x1) }, X0, ?_, ⟨rfl, rfl, rfl, rfl, rfl, x1, r1, ?_, rfl, rfl⟩,
            ⟨X, v, d, j, k, h0, h2, ?_, h4, ?_, hherm.2.1, ?_, hherm.2.2.2⟩, q3, q6, q4, q5⟩
  · unfold setSpline blendTo
    rw [if_pos ⟨Option.isSome_iff_ne_none.mpr hplay, hblend⟩, hh]
    simp only [Option.bind_some, hinit, q1, r1, Option.map_some]
  · simp
  · intro e' he'
    rw [he] at he'; cases he'
    exact h3
  · rw [hherm.1]; exact hj
  · have := hherm.2.2.1
    rw [show (bi.widthX) = p.blendX * p.rate from rfl] at this
    rw [this]; simp only [hbi, hk]; ring

/-- A blend happens if there is something to blend from, and time to do it. -/
def Blends (c0 : Slot) (p : Playback) : Prop := c0.spline ≠ none ∧ 0 < p.blendX

/-- C96: a record of the evaluator is told to play a spline, whatever it was doing; values may be angles; the spline may repeat. Then any number
of frames pass, and the rate and the position are set, in any order, forwards and with bounded strides. Nothing fails. The position is the
one of the clock, up to whole turns of the spline if it repeats. If there was a blend, it follows a curve that leads from the old value and
velocity to the spline; when the blend is over, or if there was none, the record shows the spline. -/
theorem C96_plays {hp : Heap} {s : Spline} (hs : s.WF) (hn : s.Indexable) {id : ℕ} (hh : hp id = some s) {e M : ℝ} (he : s.endX = some e)
    (c0 : Slot) (p : Playback)
    (hmod : Blends c0 p → c0.modRange.valid → c0.modRange.start = -c0.modRange.stop ∧ 0 < c0.modRange.stop) (hx : 0 ≤ p.startX) (hrate : 0 < p.rate) (hpos : p.rep = true → 0 < e) (hM0 : 0 ≤ M)
    (hM : (p.startX + e + max p.blendX 0 * p.rate + M) / s.g + 1 < 2147483648) :
    ∃ b, (Blends c0 p → Leads s p c0 b) ∧
      ∀ evs : List (Cmd ⊕ ℝ), (∀ v ∈ evs, Control v) → Strides M p.rate evs →
      ∃ c X, replay (machine hp) c0 (.inl (.play id p) :: evs) = some c ∧ c.X hp = some X ∧
        (p.rep = false → X = (evs.foldl clock (p.startX, p.rate)).1) ∧ (∃ n : ℤ, X = (evs.foldl clock (p.startX, p.rate)).1 + n * e) ∧
        (Blends c0 p ∧ InBlend p evs → c.y = b.eval ((evs.foldl clock (p.startX, p.rate)).1 - p.startX) ∧
          c.derivative = (evs.foldl clock (p.startX, p.rate)).2 * b.deriv ((evs.foldl clock (p.startX, p.rate)).1 - p.startX)) ∧
        (¬ (Blends c0 p ∧ InBlend p evs) → Shows s { p with rate := (evs.foldl clock (p.startX, p.rate)).2 } c X) := by
  have hg := hs.g_pos
  have he0 := endX_nonneg hs he
  have hb0 : 0 ≤ max p.blendX 0 * p.rate := mul_nonneg (le_max_right _ _) hrate.le
  have mono : ∀ z, z ≤ p.startX + e + max p.blendX 0 * p.rate + M → z / s.g + 1 < 2147483648 := by
    intro z hz
    have : z / s.g ≤ (p.startX + e + max p.blendX 0 * p.rate + M) / s.g := by rw [div_le_div_iff_of_pos_right hg]; exact hz
    linarith
  have hrep : ∀ evs, replay (machine hp) c0 (.inl (.play id p) :: evs) =
    (c0.setSpline hp id p).bind fun d => replay (machine hp) d evs := fun _ => rfl
  by_cases hbl : Blends c0 p
  · have hmax : max p.blendX 0 = p.blendX := max_eq_left hbl.2.le
    rw [hmax] at mono hb0
    obtain ⟨b, c1, X0, h1, h2, h3, h4, h5, h6, h7⟩ := blend_starts hs hn hh he c0 hbl.1 (hmod hbl) p hx hbl.2 hrate hpos
      (by have := mono (p.startX + p.blendX * p.rate) (by linarith); linarith)
    refine ⟨b, fun _ => h3, fun evs hev hst => ?_⟩
    have hW := mul_pos hbl.2 hrate
    obtain ⟨c2, g1, g2, g3⟩ := mixing_stride hs hn hh (R := p.startX + e) he hW hpos (by linarith) (mono _ (by linarith)) h4
      (le_trans h5 (max_le (by linarith) (by linarith))) h6 h7 evs hev c1 p.startX p.rate hrate.le le_rfl (by linarith) h2 hst
    by_cases hin : InBlend p evs
    · have hm := g2 hin
      obtain ⟨k, hk⟩ := h7
      refine ⟨c2.evaluate, _, by rw [hrep, h1]; exact g1, hm.evaluate.pos hh, fun h => by rw [h6 h]; ring, ⟨k, by rw [hk]; ring⟩,
        fun _ => hm.reads, fun h => absurd ⟨hbl, hin⟩ h⟩
    · obtain ⟨X', f1, f2, f3⟩ := g3 hin
      exact ⟨c2.evaluate, X', by rw [hrep, h1]; exact g1, f1.evaluate.x hh, f2, f3, fun h => absurd h.2 hin, fun _ => at_shows hs hn f1⟩
  · refine ⟨⟨0, 0, 0, 0⟩, fun h => absurd h hbl, fun evs hev hst => ?_⟩
    obtain ⟨c1, X1, a1, a2, a3, a4, -⟩ := initCubic_at hs hn hh (p := p)
      (c := { c0 with rate := p.rate, yOffset := p.yOffset, yScale := p.yScale, spline := some id,
                      xIndex := kInvalid, rep := p.rep }) rfl rfl rfl rfl rfl hx
      (by have := mono p.startX (by linarith); linarith) he hpos
    have hset : c0.setSpline hp id p = some c1.evaluate := by
      unfold Slot.setSpline
      rw [if_neg (by rintro ⟨h1, h2⟩; exact hbl ⟨Option.isSome_iff_ne_none.mp h1, h2⟩)]
      unfold Slot.jumpTo
      rw [a1]; rfl
    obtain ⟨c2, X2, b1, b2, b3, b4⟩ := control_stride hs hn hh he (mono _ (by linarith)) evs hev p c1 X1 p.startX hpos hrate.le a2 a3 a4 hst
    exact ⟨c2.evaluate, X2, by rw [hrep, hset]; exact b1, b2.evaluate.x hh, b3, b4, fun h => absurd h.1 hbl, fun _ => at_shows hs hn b2⟩

/-- The bound is there for a reason: a spline that has not ended and makes a stride to a place more than 2^31 grains away meets undefined
behaviour, the conversion of a number to an `int` that cannot hold it. -/
theorem C96_long_stride_fails {hp : Heap} {s : Spline} (hs : s.WF) (hn : s.Indexable) {id : ℕ} (hh : hp id = some s) {p : Playback} {c : Slot}
    {X e dx : ℝ} (h : At s id p c X) (he : s.endX = some e) (hX : X + s.g / 2 < e) (hr : 2147483648 ≤ (X + dx * p.rate) / s.g + 1 / 2) :
    c.advance hp dx = none := by
  have hg := hs.g_pos
  obtain ⟨l, hl, rfl⟩ := endX_last he
  have hbig : l.X s.g + s.g / 2 < X + dx * p.rate := by
    have h1 : (l.x : ℝ) ≤ 65535 := by exact_mod_cast (hs.ok l (List.mem_of_getElem? hl)).1
    have h2 : (2147483647 : ℝ) ≤ (X + dx * p.rate) / s.g := by linarith
    rw [le_div_iff₀ hg] at h2
    simp only [Node.X]
    nlinarith
  obtain ⟨x0, L, ci, d1, d2, d3, d4, d5, d6⟩ := h.data
  have hx : c.cubicX + dx * c.rate = X + dx * p.rate - x0 := by rw [d4, h.rate]; ring
  set c1 : Slot := { c with cubicX := c.cubicX + dx * c.rate } with hc1
  have hk : c.xIndex ≠ kAfter := by
    intro hk
    rcases h.near with ⟨hj, -⟩ | ⟨-, b, hb, hx⟩ | ⟨a, b, -, hb, -⟩
    · rw [hj] at hk; exact absurd hk (by decide)
    · rw [hl] at hb; cases hb
      rcases hx with hx | ⟨-, hx⟩ <;> linarith
    · have hlt := (List.getElem?_eq_some_iff.mp hb).1
      have := hn.2
      simp only [hk, kAfter] at hlt
      omega
  have hpast : c1.cubicXEnd < ((c1.cubicX : ℝ) : WithTop ℝ) := by
    have hend : c1.cubicXEnd = L := d5
    have hcx : c1.cubicX = X + dx * p.rate - x0 := hx
    rw [hend, hcx]
    rcases h.near with ⟨hj, f, hf, hx⟩ | ⟨hj, -⟩ | ⟨a, b, ha, hb, -, -⟩
    · have hle : (f.x : ℝ) ≤ l.x := by exact_mod_cast hs.sorted.le (Nat.zero_le _) hf hl
      rw [hj] at d1 d2
      have e0 : x0 = 0 := by simpa [Spline.nodeX, kBefore, kAfter] using d1.symm
      have eL : L = ((f.X s.g : ℝ) : WithTop ℝ) := by
        have := d2
        simp only [Spline.rangeX, if_true, Spline.startX, List.head?_eq_getElem?, hf, Option.map_some,
          Option.some.injEq, Prod.mk.injEq] at this
        rw [← this.2, sub_zero]
      rw [eL, WithTop.coe_lt_coe, e0]
      simp only [Node.X] at hbig ⊢
      nlinarith
    · exact absurd hj hk
    · have hlt := (List.getElem?_eq_some_iff.mp hb).1
      have hle : (b.x : ℝ) ≤ l.x := by exact_mod_cast hs.sorted.le (by omega) hb hl
      have g1 : c.xIndex ≠ kBefore := by
        have := hn.2
        simp only [kBefore]; omega
      have e0 : x0 = a.X s.g := by simpa [Spline.nodeX, g1, hk, ha] using d1.symm
      have eL : L = ((b.X s.g - a.X s.g : ℝ) : WithTop ℝ) := by
        have := d2
        simp only [Spline.rangeX, if_neg g1, if_neg hk, ha, hb, Option.bind_some, Option.map_some,
          Option.some.injEq, Prod.mk.injEq] at this
        exact this.2.symm
      rw [eL, WithTop.coe_lt_coe, e0]
      simp only [Node.X] at hbig ⊢
      nlinarith
  have hX1 : c1.X hp = some (X + dx * p.rate) := by
    unfold Slot.X
    have h1 : c1.spline = some id := h.spline
    have h2 : c1.xIndex = c.xIndex := rfl
    have h3 : c1.cubicX = X + dx * p.rate - x0 := hx
    rw [h1]
    simp only [Option.bind_some, hh, h2, d1, Option.map_some, h3]
    congr 1; ring
  have hq : quantizeX (X + dx * p.rate) s.g = none := by
    unfold quantizeX toInt
    rw [if_neg hg.ne', trunc_of_nonneg (by linarith), if_neg]
    rintro ⟨-, h2⟩
    have h3 : (2147483648 : ℤ) ≤ ⌊(X + dx * p.rate) / s.g + 1 / 2⌋ := Int.le_floor.mpr (by exact_mod_cast hr)
    omega
  have hini : c1.initCubic hp (X + dx * p.rate) = none := by
    have h1 : c1.spline = some id := h.spline
    unfold Slot.initCubic
    simp only [h1, hh, Option.bind_some, Spline.indexForXRepeat, Spline.indexForX, hq, Option.bind_none]
  unfold Slot.advance
  simp only
  rw [if_pos hpast, hX1, Option.bind_some, hini, Option.map_none]

/-! ### In any program -/

theorem initCubic_range {h : Heap} {c c' : Slot} {x : ℝ} (e : c.initCubic h x = some c') : c'.modRange = c.modRange := by
  unfold Slot.initCubic at e
  split at e
  · cases e; rfl
  · simp only [Option.bind_eq_some_iff, Option.map_eq_some_iff] at e
    obtain ⟨s, -, p, -, r, -, i, -, rfl⟩ := e
    rfl

/-- The range of the values is set when a motivator is initialised, and does not change. -/
theorem event_range {hp : Heap} {c c' : Slot} (v : Cmd ⊕ ℝ) (h : event (machine hp) c v = some c') : c'.modRange = c.modRange := by
  match v with
  | .inl (.play id p) =>
    have h : c.setSpline hp id p = some c' := h
    simp only [Slot.setSpline, Option.map_eq_some_iff] at h
    obtain ⟨c1, e, rfl⟩ := h
    split_ifs at e
    · simp only [Slot.blendTo, Option.bind_eq_some_iff, Option.map_eq_some_iff] at e
      obtain ⟨s, -, i, -, st, -, x0, -, rfl⟩ := e
      rfl
    · have := initCubic_range e
      exact this
  | .inl (.time x) =>
    have h : c.setX hp x = some c' := h
    simp only [Slot.setX, Option.map_eq_some_iff] at h
    obtain ⟨c1, e, rfl⟩ := h
    have := initCubic_range e
    exact this
  | .inl (.rate r) => cases h; rfl
  | .inl (.repeating b) => cases h; rfl
  | .inr dt =>
    have h : c.advance hp dt = some c' := h
    simp only [Slot.advance, Option.map_eq_some_iff] at h
    obtain ⟨c1, e, rfl⟩ := h
    split_ifs at e
    · simp only [Option.bind_eq_some_iff] at e
      obtain ⟨x, -, e⟩ := e
      have := initCubic_range e
      exact this
    · cases e; rfl

theorem replay_range {hp : Heap} : ∀ (evs : List (Cmd ⊕ ℝ)) (c c' : Slot), replay (machine hp) c evs = some c' → c'.modRange = c.modRange := by
  intro evs
  induction evs with
  | nil => intro c c' h; cases h; rfl
  | cons v evs ih =>
    intro c c' h
    have h' : (event (machine hp) c v).bind (fun d => replay (machine hp) d evs) = some c' := h
    obtain ⟨c1, h1, h2⟩ := Option.bind_eq_some_iff.mp h'
    exact (ih _ _ h2).trans (event_range v h1)

/-- C96 for a motivator in any program, other motivators doing what they like. Before dimension `k` was told to play the spline its record was
`c0`, which showed a value and velocity of the old spline, if any. There is no bound on how long the program runs. -/
theorem C96_motivators_play {hp : Heap} {cs : List (Call Slot Cmd ℝ)} {w : World Slot} (h : run (machine hp) cs = some w)
    {m : MotId} {L : Life Slot Cmd ℝ} (hL : life cs.reverse m = some L) {es evs : List (List Cmd ⊕ ℝ)} {args : List Cmd}
    (hev : L.events = es ++ .inl args :: evs) {k : Nat} (hk : k < L.start.length) {id : ℕ} {p : Playback}
    (ha : args[k]? = some (.play id p)) {s : Spline} (hh : hp id = some s) (hs : s.WF) (hn : s.Indexable)
    (hmod : ∀ c ∈ L.start, c.modRange.valid → c.modRange.start = -c.modRange.stop ∧ 0 < c.modRange.stop)
    (hrate : 0 < p.rate) (hx : 0 ≤ p.startX) {e M : ℝ} (he : s.endX = some e) (hpos : p.rep = true → 0 < e) (hM0 : 0 ≤ M)
    (hM : (p.startX + e + max p.blendX 0 * p.rate + M) / s.g + 1 < 2147483648)
    (hctl : ∀ v ∈ eventsOf k evs, Control v) (hst : Strides M p.rate (eventsOf k evs)) :
    ∃ (c0 c : Slot) (b : Cubic ℝ) (X : ℝ), replay (machine hp) L.start[k] (eventsOf k es) = some c0 ∧ (Blends c0 p → Leads s p c0 b) ∧
      (∀ {β : Type} (g : Slot → β), ∃ l, gather g w m = some l ∧ l[k]? = some (g c)) ∧
      c.X hp = some X ∧
      (p.rep = false → X = ((eventsOf k evs).foldl clock (p.startX, p.rate)).1) ∧
      (∃ n : ℤ, X = ((eventsOf k evs).foldl clock (p.startX, p.rate)).1 + n * e) ∧
      (Blends c0 p ∧ InBlend p (eventsOf k evs) → c.y = b.eval (((eventsOf k evs).foldl clock (p.startX, p.rate)).1 - p.startX) ∧
        c.derivative = ((eventsOf k evs).foldl clock (p.startX, p.rate)).2 *
          b.deriv (((eventsOf k evs).foldl clock (p.startX, p.rate)).1 - p.startX)) ∧
      (¬ (Blends c0 p ∧ InBlend p (eventsOf k evs)) →
        Shows s { p with rate := ((eventsOf k evs).foldl clock (p.startX, p.rate)).2 } c X) := by
  have hlife : ∀ {β : Type} (g : Slot → β), ∃ l, gather g w m = some l ∧ l.length = L.start.length ∧
      ∀ k d, L.start[k]? = some d → ∃ d', replay (machine hp) d (eventsOf k L.events) = some d' ∧ l[k]? = some (g d') :=
    fun {β} g => ((C90_life (β := β) (machine hp) h m).2 L hL).2.2 g
  obtain ⟨_, _, _, hr⟩ := hlife (fun _ => ())
  obtain ⟨c, hc, -⟩ := hr k _ (List.getElem?_eq_getElem hk)
  have hread : ∀ {β : Type} (g : Slot → β), ∃ l, gather g w m = some l ∧ l[k]? = some (g c) := by
    intro β g
    obtain ⟨l, e1, -, e3⟩ := hlife g
    obtain ⟨d', f1, f2⟩ := e3 k _ (List.getElem?_eq_getElem hk)
    rw [hc] at f1
    cases f1
    exact ⟨l, e1, f2⟩
  have hsplit : eventsOf k (es ++ .inl args :: evs) = eventsOf k es ++ .inl (.play id p) :: eventsOf k evs := by
    simp [eventsOf, List.filterMap_append, ha]
  rw [hev, hsplit, replay_append] at hc
  cases hc0 : replay (machine hp) L.start[k] (eventsOf k es) with
  | none => rw [hc0] at hc; cases hc
  | some c0 =>
    rw [hc0, Option.bind_some] at hc
    have hrange := replay_range _ _ _ hc0
    obtain ⟨b, h1, h2⟩ := C96_plays hs hn hh he c0 p (fun _ => by rw [hrange]; exact hmod _ (List.getElem_mem hk)) hx hrate hpos hM0 hM
    obtain ⟨c', X, f1, f2, f3, f4, f5, f6⟩ := h2 (eventsOf k evs) hctl hst
    rw [hc] at f1
    cases f1
    exact ⟨c0, c, b, X, rfl, h1, hread, f2, f3, f4, f5, f6⟩

/-- The sample spline repeats for ever, after a blend of 3 from the value 3 of another spline, at double speed: any number of frames of 5. -/
example (N : ℕ) : ∃ c X, replay (machine fun _ => some Spline.sample) { spline := some 1, y := 3 }
      (.inl (.play 0 { startX := 1, rate := 2, blendX := 3, rep := true }) :: List.replicate N (.inr 5)) = some c ∧
    c.X (fun _ => some Spline.sample) = some X ∧ ∃ n : ℤ, X = 1 + N * 10 + n * 9 := by
  have hs := Spline.sample_wf
  obtain ⟨b, -, h⟩ := C96_plays hs.1 hs.2 (hp := fun _ => some Spline.sample) (id := 0) rfl endX_sample { spline := some 1, y := 3 }
    { startX := 1, rate := 2, blendX := 3, rep := true } (fun _ => by norm_num [Range.valid]) (by norm_num) (by norm_num) (by norm_num) (M := 10)
    (by norm_num) (by norm_num [Spline.sample])
  have hst : ∀ n, Strides 10 2 (List.replicate n (.inr 5)) := by
    intro n
    induction n with
    | zero => trivial
    | succ n ih => exact ⟨by norm_num, ih⟩
  have hcl : ∀ (n : ℕ) (x : ℝ), ((List.replicate n (Sum.inr (5 : ℝ) : Cmd ⊕ ℝ)).foldl clock (x, 2)).1 = x + n * 10 := by
    intro n
    induction n with
    | zero => intro x; simp
    | succ n ih =>
      intro x
      rw [List.replicate_succ, List.foldl_cons]
      show (List.foldl clock (x + 5 * 2, 2) _).1 = _
      rw [ih]
      push_cast
      ring
  obtain ⟨c, X, h1, h2, -, ⟨n, h3⟩, -⟩ := h (List.replicate N (.inr 5)) (by
    intro v hv
    rw [List.eq_of_mem_replicate hv]
    simp [Control]) (hst _)
  exact ⟨c, X, h1, h2, n, by rw [h3]; exact congrArg (· + (n : ℝ) * 9) (hcl N 1)⟩

/-- In a blend until 7 on the clock: after 2 at double speed, yes; after one more at double speed, no; after a jump, no. -/
example : InBlend { startX := 1, rate := 2, blendX := 3 } [.inr 2] ∧ ¬ InBlend { startX := 1, rate := 2, blendX := 3 } [.inr 2, .inr 2] ∧
    ¬ InBlend { startX := 1, rate := 2, blendX := 3 } [.inl (.time 1)] := by
  refine ⟨⟨by simp, by norm_num [clock]⟩, fun h => ?_, fun h => h.1 1 (by simp)⟩
  have := h.2
  norm_num [clock] at this

end Motive.SplineProc
