import Verif.SplineProc.Ahead

/-!
# C109: a paused spline motivator

`SetSplinePlaybackRate` with a rate of 0 (src/motive/processor/spline_processor.cpp:133-137). Frames then move x by nothing
(src/motive/math/bulk_spline_evaluator.cpp:281-296), but the first one can still change the segment, because a segment is also used up to half a grain after
its end.
-/

namespace Motive.SplineProc
open Motive.Proc Motive.Proc.Vector Motive.Splines Motive.Splines.Slot Motive.Math Motive.Curve

noncomputable section

/-- The x of a record is not past the end of what it plays, or less than half a grain past the end of a segment. -/
def Settled (s : Spline) (c : Slot) : Prop :=
  ¬ c.cubicXEnd < ((c.cubicX : ℝ) : WithTop ℝ) ∨
  ∃ (a b : Node) (x : ℝ), s.nodes[c.xIndex]? = some a ∧ s.nodes[c.xIndex + 1]? = some b ∧ c.cubicX = x - a.X s.g ∧
    c.cubicXEnd = ((b.X s.g - a.X s.g : ℝ) : WithTop ℝ) ∧ x < b.X s.g + s.g / 2

theorem quantized_lt {x g : ℝ} {q : ℤ} (hg : 0 < g) (hq : quantizeX x g = some q) : x < 0 ∨ x < q * g + g / 2 := by
  rcases lt_or_ge x 0 with h | h
  · exact .inl h
  · exact .inr (Spline.quantizeX_near hg (by linarith) hq).2.2

theorem nodeX_nonneg {s : Spline} (hs : s.WF) (a : Node) : 0 ≤ a.X s.g := by
  have := hs.g_pos
  unfold Node.X
  positivity

/-- The segment of an x. -/
theorem index_settled {s : Spline} (hs : s.WF) (hn : s.Indexable) {x : ℝ} {guess i : ℕ} (hi : s.indexForX x guess = some i) {r : ℝ × WithTop ℝ}
    (hr : s.rangeX i = some r) : ¬ r.2 < ((x - r.1 : ℝ) : WithTop ℝ) ∨
      ∃ (a b : Node), s.nodes[i]? = some a ∧ s.nodes[i + 1]? = some b ∧ r = (a.X s.g, ((b.X s.g - a.X s.g : ℝ) : WithTop ℝ)) ∧ x < b.X s.g + s.g / 2 := by
  have hg := hs.g_pos
  obtain ⟨q, hq⟩ : ∃ q, quantizeX x s.g = some q := by
    unfold Spline.indexForX at hi
    cases hq : quantizeX x s.g with
    | none => rw [hq] at hi; cases hi
    | some q => exact ⟨q, rfl⟩
  obtain ⟨i', f, b, e1, hf, hb, e2, e3, e4⟩ := Spline.C23_index_for_x hs hn hq guess
  rw [hi] at e1; cases e1
  have hlt := quantized_lt hg hq
  by_cases c1 : q < f.x
  · left
    have hk := e2.mpr c1
    subst hk
    have hh : s.nodes.head? = some f := by rw [List.head?_eq_getElem?]; exact hf
    simp only [Spline.rangeX, if_true, Spline.startX, hh, Option.map_some, Option.some.injEq] at hr
    subst hr
    simp only [sub_zero, not_lt, WithTop.coe_le_coe]
    have h0 := nodeX_nonneg hs f
    rcases hlt with h | h
    · linarith
    · have : (q : ℝ) + 1 ≤ f.x := by exact_mod_cast c1
      unfold Node.X
      nlinarith
  · have hk1 : i ≠ kBefore := fun h => c1 (e2.mp h)
    by_cases c2 : b.x < q ∨ (q = b.x ∧ s.nodes.length = 1)
    · left
      have hk := e3.mpr c2
      subst hk
      simp only [Spline.rangeX, if_neg hk1, if_true] at hr
      obtain ⟨y, -, rfl⟩ := Option.map_eq_some_iff.mp hr
      simp
    · right
      have hk2 : i ≠ kAfter := fun h => c2 (e3.mp h)
      have h2 : 2 ≤ s.nodes.length := by
        by_contra hlt
        have h1 : s.nodes.length = 1 := by have := hn.1; omega
        rw [h1] at hb; simp only [Nat.sub_self] at hb; rw [hf] at hb; cases hb
        omega
      obtain ⟨a, c, -, ha, hc, -, hqc, -⟩ := e4 (by omega) (by omega) h2
      simp only [Spline.rangeX, if_neg hk1, if_neg hk2, ha, hc, Option.bind_some, Option.map_some, Option.some.injEq] at hr
      refine ⟨a, c, ha, hc, hr.symm, ?_⟩
      have h0 := nodeX_nonneg hs c
      rcases hlt with h | h
      · linarith
      · have : (q : ℝ) ≤ c.x := by exact_mod_cast hqc
        unfold Node.X
        nlinarith

theorem initCubic_some {hp : Heap} {s : Spline} {id : ℕ} (hh : hp id = some s) {c c' : Slot} (hc : c.spline = some id) {x : ℝ}
    (h : c.initCubic hp x = some c') : ∃ p r i, s.indexForXRepeat x ((c.xIndex + 1) % 65536) c.rep = some p ∧ s.rangeX p.1 = some r ∧
      s.cubicInitAt p.1 = some i ∧ c' = { c with cubicX := p.2 - r.1, xIndex := p.1, cubicXEnd := r.2, cubic := ((Cubic.init i).scaleUp c.yScale).shiftUp c.yOffset } := by
  unfold Slot.initCubic at h
  rw [hc] at h
  simp only [hh, Option.bind_some, Option.bind_eq_some_iff, Option.map_eq_some_iff] at h
  obtain ⟨p, h1, r, h2, i, h3, h4⟩ := h
  exact ⟨p, r, i, h1, h2, h3, by rw [← h4, hc]⟩

theorem init_settled {hp : Heap} {s : Spline} (hs : s.WF) (hn : s.Indexable) {id : ℕ} (hh : hp id = some s) {c c' : Slot}
    (hc : c.spline = some id) {x : ℝ} (h : c.initCubic hp x = some c') : Settled s c' ∧ c'.spline = some id := by
  obtain ⟨p, r, i, h1, h2, -, rfl⟩ := initCubic_some hh hc h
  refine ⟨?_, hc⟩
  obtain ⟨g, hg⟩ : ∃ g, s.indexForX p.2 g = some p.1 := by
    unfold Spline.indexForXRepeat at h1
    obtain ⟨j, h3, h4⟩ := Option.bind_eq_some_iff.mp h1
    split_ifs at h4
    · cases h4; exact ⟨_, h3⟩
    · obtain ⟨e, -, h5⟩ := Option.bind_eq_some_iff.mp h4
      obtain ⟨y, -, h6⟩ := Option.bind_eq_some_iff.mp h5
      obtain ⟨k, h7, rfl⟩ := Option.map_eq_some_iff.mp h6
      exact ⟨0, h7⟩
  rcases index_settled hs hn hg h2 with h | ⟨a, b, ha, hb, hr, hx⟩
  · exact .inl h
  · subst hr
    exact .inr ⟨a, b, p.2, ha, hb, rfl, rfl, hx⟩

theorem evaluate_twice (c : Slot) : c.evaluate.evaluate = c.evaluate := rfl

/-- After a frame that moves x by nothing, such frames change nothing. -/
theorem settled_fixed {hp : Heap} {s : Spline} (hs : s.WF) (hn : s.Indexable) {id : ℕ} (hh : hp id = some s) {c c' : Slot}
    (hc : c.spline = some id) (hset : Settled s c) (hr : c.rate = 0) {d : ℝ} (h : c.advance hp d = some c') (d' : ℝ) :
    c'.advance hp d' = some c' := by
  have hg := hs.g_pos
  have hstep : ∀ (y : Slot) (e : ℝ), y.rate = 0 → y.advance hp e =
      (if y.cubicXEnd < ((y.cubicX : ℝ) : WithTop ℝ) then (y.X hp).bind fun x => y.initCubic hp x else some y).map evaluate := by
    intro y e hy
    cases y
    simp only at hy
    subst hy
    unfold Slot.advance
    simp only [mul_zero, add_zero]
  rw [hstep c d hr] at h
  by_cases hpast : c.cubicXEnd < ((c.cubicX : ℝ) : WithTop ℝ)
  swap
  · rw [if_neg hpast] at h
    cases h
    refine (hstep _ d' ?_).trans ?_
    · exact hr
    change Option.map evaluate (if c.cubicXEnd < ((c.cubicX : ℝ) : WithTop ℝ) then _ else _) = _
    rw [if_neg hpast]
    rfl
  rw [if_pos hpast] at h
  obtain ⟨c2, h2, rfl⟩ := Option.map_eq_some_iff.mp h
  obtain ⟨x, hX, hinit⟩ := Option.bind_eq_some_iff.mp h2
  obtain ⟨p, r, i, p1, p2, p3, rfl⟩ := initCubic_some hh hc hinit
  refine (hstep _ d' ?_).trans ?_
  · exact hr
  by_cases hagain : r.2 < ((p.2 - r.1 : ℝ) : WithTop ℝ)
  swap
  · change Option.map evaluate (if r.2 < ((p.2 - r.1 : ℝ) : WithTop ℝ) then _ else _) = _
    rw [if_neg hagain]
    rfl
  rcases hset with hset | ⟨a, b, x', ha, hb, hx', hend, hlt⟩
  · exact absurd hpast hset
  have hi1 := (List.getElem?_eq_some_iff.mp hb).1
  have hmax := hn.2
  have hk1 : c.xIndex ≠ kAfter := by unfold kAfter; omega
  have hk2 : c.xIndex ≠ kBefore := by unfold kBefore; omega
  have hxx : x = x' := by
    unfold Slot.X at hX
    simp only [hc, hh, Option.bind_some, Spline.nodeX, if_neg hk1, if_neg hk2, ha, Option.map_some, Option.some.injEq] at hX
    rw [← hX, hx']; ring
  subst hxx
  rw [hend, hx', WithTop.coe_lt_coe] at hpast
  have hbx : b.X s.g < x := by linarith
  have h0 := nodeX_nonneg hs b
  unfold Spline.indexForXRepeat at p1
  obtain ⟨j, j1, j2⟩ := Option.bind_eq_some_iff.mp p1
  obtain ⟨q, hq⟩ : ∃ q, quantizeX x s.g = some q := by
    unfold Spline.indexForX at j1
    cases hq : quantizeX x s.g with
    | none => rw [hq] at j1; cases j1
    | some q => exact ⟨q, rfl⟩
  obtain ⟨q0, q1, q2⟩ := Spline.quantizeX_near hg (by linarith) hq
  have hqb : q = b.x := by
    unfold Node.X at hbx hlt
    have u1 : (q : ℝ) < b.x + 1 := by
      by_contra hcon
      have := mul_le_mul_of_nonneg_right (not_lt.mp hcon) hg.le
      linarith
    have u2 : (b.x : ℝ) < q + 1 := by
      by_contra hcon
      have := mul_le_mul_of_nonneg_right (not_lt.mp hcon) hg.le
      linarith
    have v1 : q < (b.x : ℤ) + 1 := by exact_mod_cast u1
    have v2 : (b.x : ℤ) < q + 1 := by exact_mod_cast u2
    omega
  obtain ⟨f, hf0⟩ : ∃ f, s.nodes[0]? = some f := ⟨_, List.getElem?_eq_getElem hn.1⟩
  obtain ⟨l, hl0⟩ : ∃ l, s.nodes[s.nodes.length - 1]? = some l := ⟨_, List.getElem?_eq_getElem (by omega)⟩
  have hf : s.nodes.head? = some f := by rw [List.head?_eq_getElem?]; exact hf0
  have hl : s.nodes.getLast? = some l := by rw [List.getLast?_eq_getElem?]; exact hl0
  have hfq : f.x ≤ b.x := hs.sorted.le (by omega) hf0 hb
  have hlq : b.x ≤ l.x := hs.sorted.le (by omega) hb hl0
  have hidx : ∀ guess, s.indexForX x guess = if q = l.x then some (s.nodes.length - 2) else s.searchIndex q.toNat guess := by
    intro guess
    unfold Spline.indexForX
    rw [hq, hf, hl]
    simp only [Option.bind_some]
    rw [if_neg (by omega)]
    by_cases hql : q = l.x
    · rw [if_pos ⟨hql, by omega⟩, if_pos hql]
    · rw [if_neg (by tauto), if_neg (by omega), if_neg hql]
  rw [hidx] at j1
  by_cases hql : q = l.x
  · -- the last node: always the last segment
    rw [if_pos hql] at j1
    cases j1
    have hka : s.nodes.length - 2 ≠ kAfter := by unfold kAfter; omega
    have hkb : s.nodes.length - 2 ≠ kBefore := by unfold kBefore; omega
    rw [if_pos (.inr hka)] at j2
    cases j2
    obtain ⟨z, hz⟩ : ∃ z, s.nodes[s.nodes.length - 2]? = some z := ⟨_, List.getElem?_eq_getElem (by omega)⟩
    have hrng : r.1 = z.X s.g := by
      simp only [Spline.rangeX, if_neg hka, if_neg hkb, hz, Option.bind_some] at p2
      obtain ⟨w, -, rfl⟩ := Option.map_eq_some_iff.mp p2
      rfl
    change Option.map evaluate (if r.2 < ((x - r.1 : ℝ) : WithTop ℝ) then _ else _) = _
    rw [if_pos hagain]
    have hX2 : ∀ y : Slot, y.spline = some id → y.xIndex = s.nodes.length - 2 → y.cubicX = x - r.1 → y.X hp = some x := by
      intro y y1 y2 y3
      unfold Slot.X
      simp only [y1, hh, Option.bind_some, Spline.nodeX, y2, if_neg hka, if_neg hkb, hz, Option.map_some, y3, hrng]
      congr 1; ring
    have hrep : ∀ guess rep, s.indexForXRepeat x guess rep = some (s.nodes.length - 2, x) := by
      intro guess rep
      unfold Spline.indexForXRepeat
      rw [hidx, if_pos hql, Option.bind_some, if_pos (.inr hka)]
    rw [hX2 (Slot.evaluate { c with cubicX := x - r.1, xIndex := s.nodes.length - 2, cubicXEnd := r.2, cubic := ((Cubic.init i).scaleUp c.yScale).shiftUp c.yOffset })
      hc rfl rfl, Option.bind_some]
    unfold Slot.initCubic
    simp only [evaluate, hc, hh, Option.bind_some, hrep, p2, p3, Option.map_some]
  · -- another node: the guess is the segment after it
    exfalso
    rw [if_neg hql] at j1
    obtain ⟨k, a', c', k1, ka, kc, k2, k3, k4, k5⟩ := Spline.searchIndex_spec hs (q := q.toNat) (guess := (c.xIndex + 1) % 65536) hf hl (by omega) (by omega)
    rw [j1] at k1; cases k1
    have hjl := (List.getElem?_eq_some_iff.mp kc).1
    have hja : j ≠ kAfter := by unfold kAfter; omega
    have hjb : j ≠ kBefore := by unfold kBefore; omega
    rw [if_pos (.inr hja)] at j2
    cases j2
    simp only [Spline.rangeX, if_neg hja, if_neg hjb, ka, kc, Option.bind_some, Option.map_some, Option.some.injEq] at p2
    subst p2
    rw [WithTop.coe_lt_coe] at hagain
    have hcq : c'.x ≤ b.x := by
      unfold Node.X at hagain hlt
      have u1 : (c'.x : ℝ) < b.x + 1 := by
        by_contra hcon
        have := mul_le_mul_of_nonneg_right (not_lt.mp hcon) hg.le
        linarith
      have : c'.x < b.x + 1 := by exact_mod_cast u1
      omega
    rcases k5 with k5 | k5
    · rw [Nat.mod_eq_of_lt (by omega)] at k5
      subst k5
      rw [hb] at ka; cases ka
      omega
    · omega

/-! ### Programs -/

/-- The record is settled on its spline, if it has one. -/
def Calm (hp : Heap) (c : Slot) : Prop := ∀ id, c.spline = some id → ∃ s, hp id = some s ∧ s.WF ∧ s.Indexable ∧ Settled s c

theorem calm_fixed {hp : Heap} {c c' : Slot} (hc : Calm hp c) (hr : c.rate = 0) {d : ℝ} (h : c.advance hp d = some c') (d' : ℝ) :
    c'.advance hp d' = some c' := by
  cases hsp : c.spline with
  | some id =>
    obtain ⟨s, hh, hs, hn, hset⟩ := hc id hsp
    exact settled_fixed hs hn hh hsp hset hr h d'
  | none =>
    unfold Slot.advance at h
    simp only [hr, mul_zero, add_zero] at h
    split_ifs at h with hpast
    · simp [Slot.X, hsp] at h
    · cases h
      unfold Slot.advance
      simp only [evaluate, mul_zero, add_zero]
      rw [if_neg hpast]
      rfl

theorem advance_calm {hp : Heap} {c c' : Slot} (hc : Calm hp c) {d : ℝ} (h : c.advance hp d = some c') : Calm hp c' := by
  unfold Slot.advance at h
  obtain ⟨c1, h1, rfl⟩ := Option.map_eq_some_iff.mp h
  simp only at h1
  intro id hid
  change c1.spline = some id at hid
  split_ifs at h1 with hpast
  · obtain ⟨x, hX, hi⟩ := Option.bind_eq_some_iff.mp h1
    obtain ⟨id', hid', -⟩ := Option.bind_eq_some_iff.mp hX
    obtain ⟨s, hh, hs, hn, -⟩ := hc id' hid'
    obtain ⟨k1, k2⟩ := init_settled hs hn hh hid' hi
    rw [k2] at hid; cases hid
    exact ⟨s, hh, hs, hn, k1⟩
  · cases h1
    obtain ⟨s, hh, hs, hn, -⟩ := hc id hid
    exact ⟨s, hh, hs, hn, .inl hpast⟩

theorem setSpline_calm {hp : Heap} {s : Spline} (hs : s.WF) (hn : s.Indexable) {id : ℕ} (hh : hp id = some s) {c c' : Slot}
    {p : Motive.Splines.Playback} (hp' : 0 < p.blendX → 0 ≤ p.rate) (h : c.setSpline hp id p = some c') : Calm hp c' := by
  unfold Slot.setSpline at h
  obtain ⟨c1, h1, rfl⟩ := Option.map_eq_some_iff.mp h
  intro id' hid
  change c1.spline = some id' at hid
  split_ifs at h1 with hb
  · unfold Slot.blendTo at h1
    simp only [hh, Option.bind_some, Option.bind_eq_some_iff, Option.map_eq_some_iff] at h1
    obtain ⟨i, -, st, -, x0, -, rfl⟩ := h1
    cases hid
    refine ⟨s, hh, hs, hn, .inl ?_⟩
    simp only [evaluate, WithTop.coe_lt_coe, not_lt]
    have := mul_nonneg hb.2.le (hp' hb.2)
    linarith
  · unfold Slot.jumpTo at h1
    obtain ⟨k1, k2⟩ := init_settled hs hn hh rfl h1
    rw [k2] at hid; cases hid
    exact ⟨s, hh, hs, hn, k1⟩

/-- Blends are not played backwards. -/
def Forward : Cmd ⊕ ℝ → Prop
  | .inl (.play _ p) => 0 < p.blendX → 0 ≤ p.rate
  | _ => True

theorem replay_calm {hp : Heap} (hh : ∀ id s, hp id = some s → s.WF ∧ s.Indexable) : ∀ (es : List (Cmd ⊕ ℝ)) {c c' : Slot}, (∀ e ∈ es, Forward e) →
    Calm hp c → replay (machine hp) c es = some c' → Calm hp c' := by
  intro es
  induction es with
  | nil => intro c c' _ hc h; cases h; exact hc
  | cons e es ih =>
    intro c c' hf hc h
    simp only [replay, List.foldlM_cons, Option.bind_eq_bind, Option.bind_eq_some_iff] at h
    obtain ⟨c1, h1, h2⟩ := h
    refine ih (fun e he => hf e (by simp [he])) ?_ h2
    have hfe := hf e (by simp)
    match e, hfe, h1 with
    | .inr d, _, h1 => exact advance_calm hc h1
    | .inl (.play id p), hfe, h1 =>
      change c.setSpline hp id p = some c1 at h1
      have : ∃ s, hp id = some s := by
        cases e : hp id with
        | some s => exact ⟨s, rfl⟩
        | none =>
          unfold Slot.setSpline Slot.blendTo Slot.jumpTo Slot.initCubic at h1
          simp [e] at h1
      obtain ⟨s, hs⟩ := this
      exact setSpline_calm (hh _ _ hs).1 (hh _ _ hs).2 hs hfe h1
    | .inl (.time x), _, h1 =>
      change (c.initCubic hp x).map evaluate = some c1 at h1
      obtain ⟨c2, h3, rfl⟩ := Option.map_eq_some_iff.mp h1
      cases hsp : c.spline with
      | none =>
        unfold Slot.initCubic at h3
        rw [hsp] at h3
        cases h3
        intro id hid
        rw [show c.evaluate.spline = c.spline from rfl, hsp] at hid
        cases hid
      | some id =>
        obtain ⟨s, a1, a2, a3, -⟩ := hc id hsp
        obtain ⟨k1, k2⟩ := init_settled a2 a3 a1 hsp h3
        intro id' hid
        change c2.spline = some id' at hid
        rw [k2] at hid; cases hid
        exact ⟨s, a1, a2, a3, k1⟩
    | .inl (.rate r), _, h1 => cases h1; exact hc
    | .inl (.repeating b), _, h1 => cases h1; exact hc

/-- **C109.** A spline motivator is paused (`SetSplinePlaybackRate` with 0) after any history of splines played, times and rates set, and frames. After one
frame it does not change any more: whatever frames follow, its value, velocity and position stay as they are. -/
theorem C109_paused {hp : Heap} (hh : ∀ id s, hp id = some s → s.WF ∧ s.Indexable) {c₀ c c₁ : Slot} (h₀ : Blank c₀) {es : List (Cmd ⊕ ℝ)}
    (hf : ∀ e ∈ es, Forward e) (h : replay (machine hp) c₀ es = some c) {d : ℝ} (h₁ : replay (machine hp) c [.inl (.rate 0), .inr d] = some c₁)
    (ds : List ℝ) : replay (machine hp) c₁ (ds.map .inr) = some c₁ := by
  have hc : Calm hp c := replay_calm hh es hf (fun id hid => by rw [h₀] at hid; cases hid) h
  have h1 : Slot.advance hp d { c with rate := 0 } = some c₁ := by
    simp only [replay, List.foldlM_cons, List.foldlM_nil, Option.bind_eq_bind, Option.pure_def] at h₁
    obtain ⟨c2, h2, h3⟩ := Option.bind_eq_some_iff.mp h₁
    cases h2
    obtain ⟨c3, h4, h5⟩ := Option.bind_eq_some_iff.mp h3
    cases h5
    exact h4
  have hfix := calm_fixed (c := { c with rate := 0 }) hc rfl h1
  induction ds with
  | nil => rfl
  | cons d ds ih =>
    simp only [List.map_cons, replay, List.foldlM_cons, Option.bind_eq_bind]
    change ((c₁.advance hp d).bind _) = _
    rw [hfix d, Option.bind_some]
    exact ih

/-! ### The first frame -/

/-- Four nodes, a unit apart, with values 0, 0, 0 and 1 and slopes 0. -/
def steps : Spline := ⟨⟨0, 1⟩, 1, [⟨0, 0, 0⟩, ⟨1, 0, 0⟩, ⟨2, 0, 0⟩, ⟨3, 65535, 0⟩], 4⟩

theorem steps_wf : steps.WF ∧ steps.Indexable := by
  have hlt : ∀ {i : ℕ} {b : Node}, steps.nodes[i]? = some b → i < 4 := fun h => (List.getElem?_eq_some_iff.mp h).1
  refine ⟨⟨by norm_num [steps], ?_, ?_, by simp [steps], ?_⟩, by simp [Spline.Indexable, steps]⟩
  · intro i a b ha hb
    have := hlt hb
    have hi : i = 0 ∨ i = 1 ∨ i = 2 := by omega
    rcases hi with rfl | rfl | rfl <;> simp [steps] at ha hb <;> subst ha hb <;> norm_num
  · intro i a b ha hb
    have := hlt hb
    have hi : i = 0 ∨ i = 1 := by omega
    rcases hi with rfl | rfl <;> simp [steps] at ha hb <;> subst ha hb <;> norm_num
  · intro n hn
    simp only [steps, List.mem_cons, List.not_mem_nil, or_false] at hn
    rcases hn with rfl | rfl | rfl | rfl <;> norm_num [Node.Ok]

/-- That the first frame changes nothing is false: pausing a motivator at 9/4 moves its value from 0 to 5/32, because the frame before has used the segment
from 1 to 2 for an x that is a quarter of a grain after it, and the first paused frame takes the segment from 2 to 3. -/
theorem C109_pause_jumps : ∃ (hp : Heap) (c c₁ : Slot), (∀ id s, hp id = some s → s.WF ∧ s.Indexable) ∧
    replay (machine hp) {} [.inl (.play 0 { rate := 1 / 4 }), .inr 9] = some c ∧
    replay (machine hp) c [.inl (.rate 0), .inr 16] = some c₁ ∧ c.y = 0 ∧ c₁.y = 5 / 32 := by
  have q0 : quantizeX 0 1 = some 0 := by
    rw [quantizeX_eq (by norm_num) (by norm_num) (by norm_num)]; norm_num [Int.floor_eq_iff]
  have q1 : quantizeX (9 / 4) 1 = some 2 := by
    rw [quantizeX_eq (by norm_num) (by norm_num) (by norm_num)]; norm_num [Int.floor_eq_iff]
  have i0 : steps.indexForXRepeat 0 ((kInvalid + 1) % 65536) false = some (0, 0) := by
    simp [Spline.indexForXRepeat, Spline.indexForX, steps, q0, Spline.searchIndex, Spline.guessOk, Spline.containsX, Spline.widthX, kInvalid]
  have i1 : steps.indexForXRepeat (9 / 4) ((0 + 1) % 65536) false = some (1, 9 / 4) := by
    simp [Spline.indexForXRepeat, Spline.indexForX, steps, q1, Spline.searchIndex, Spline.guessOk, Spline.containsX, Spline.widthX]
  have i2 : steps.indexForXRepeat (9 / 4) ((1 + 1) % 65536) false = some (2, 9 / 4) := by
    simp [Spline.indexForXRepeat, Spline.indexForX, steps, q1, Spline.searchIndex, Spline.guessOk, Spline.containsX, Spline.widthX]
    norm_num
  have hX : ∀ (n y : ℕ), Node.X ⟨n, y, 0⟩ 1 = n := fun n y => by simp [Node.X]
  have hseg : ∀ (n y y' : ℕ), n < 3 → steps.nodes[n]? = some ⟨n, y, 0⟩ → steps.nodes[n + 1]? = some ⟨n + 1, y', 0⟩ →
      steps.rangeX n = some ((n : ℝ), ((1 : ℝ) : WithTop ℝ)) ∧
      steps.cubicInitAt n = some ⟨(y : ℝ) / 65535, 0, (y' : ℝ) / 65535, 0, 1⟩ ∧ steps.nodeX n = some (n : ℝ) := by
    intro n y y' h3 h h'
    have k1 : n ≠ kBefore := by unfold kBefore; omega
    have k2 : n ≠ kAfter := by unfold kAfter; omega
    have k3 : outside n = false := decide_eq_false (by unfold kAfter; omega)
    have hg : steps.g = 1 := rfl
    have hr : steps.yRange = ⟨0, 1⟩ := rfl
    refine ⟨?_, ?_, ?_⟩
    · unfold Spline.rangeX
      rw [if_neg k1, if_neg k2, h, h', hg, Option.bind_some, Option.map_some, hX, hX, show (((n + 1 : ℕ) : ℝ) - n) = 1 by push_cast; ring]
    · unfold Spline.cubicInitAt
      rw [k3, h, h']
      simp [Spline.cubicInit, Node.Y, Node.D, Spline.widthX, hg, hr, Range.lerp, div_eq_mul_inv]
    · unfold Spline.nodeX
      rw [if_neg k2, if_neg k1, h, hg, Option.map_some, hX]
  obtain ⟨r0, c0, n0⟩ := hseg 0 0 0 (by norm_num) rfl rfl
  obtain ⟨r1, c1, n1⟩ := hseg 1 0 0 (by norm_num) rfl rfl
  obtain ⟨r2, c2, n2⟩ := hseg 2 0 65535 (by norm_num) rfl rfl
  set hp : Heap := fun j => if j = 0 then some steps else none with hhp
  have h0 : hp 0 = some steps := rfl
  have key : ∀ (c : Slot) (x : ℝ) (n y y' : ℕ), c.spline = some 0 → c.rep = false → c.yScale = 1 → c.yOffset = 0 →
      steps.indexForXRepeat x ((c.xIndex + 1) % 65536) false = some (n, x) → steps.rangeX n = some ((n : ℝ), ((1 : ℝ) : WithTop ℝ)) →
      steps.cubicInitAt n = some ⟨(y : ℝ) / 65535, 0, (y' : ℝ) / 65535, 0, 1⟩ → ∃ c', c.initCubic hp x = some c' ∧ c'.spline = some 0 ∧ c'.rep = false ∧
        c'.yScale = 1 ∧ c'.yOffset = 0 ∧ c'.rate = c.rate ∧ c'.xIndex = n ∧ c'.cubicX = x - n ∧ c'.cubicXEnd = ((1 : ℝ) : WithTop ℝ) ∧
        ∀ z, c'.cubic.eval z = (y + (y' - y) * (3 * z ^ 2 - 2 * z ^ 3)) / 65535 := by
    intro c x n y y' e1 e2 e3 e4 e5 e6 e7
    refine ⟨{ c with cubicX := x - n, xIndex := n, cubicXEnd := ((1 : ℝ) : WithTop ℝ),
                     cubic := ((Cubic.init ⟨(y : ℝ) / 65535, 0, (y' : ℝ) / 65535, 0, 1⟩).scaleUp c.yScale).shiftUp c.yOffset }, ?_, e1, e2, e3, e4, rfl, rfl, rfl, rfl, ?_⟩
    · unfold Slot.initCubic
      simp only [e1, h0, e2, e5, e6, e7, Option.bind_some, Option.map_some]
    · intro z
      simp only [e3, e4, Cubic.init, Cubic.scaleUp, Cubic.shiftUp, Cubic.eval]
      norm_num
      ring
  have move : ∀ (c : Slot) (d : ℝ) (k n y y' : ℕ), c.spline = some 0 → c.rep = false → c.yScale = 1 → c.yOffset = 0 → c.xIndex = k →
      c.cubicXEnd = ((1 : ℝ) : WithTop ℝ) → c.cubicX + d * c.rate = 9 / 4 - k → (1 : ℝ) < 9 / 4 - k → steps.nodeX k = some (k : ℝ) →
      steps.indexForXRepeat (9 / 4) ((k + 1) % 65536) false = some (n, 9 / 4) → steps.rangeX n = some ((n : ℝ), ((1 : ℝ) : WithTop ℝ)) →
      steps.cubicInitAt n = some ⟨(y : ℝ) / 65535, 0, (y' : ℝ) / 65535, 0, 1⟩ → ∃ c', c.advance hp d = some c' ∧ c'.spline = some 0 ∧ c'.rep = false ∧
        c'.yScale = 1 ∧ c'.yOffset = 0 ∧ c'.rate = c.rate ∧ c'.xIndex = n ∧ c'.cubicX = 9 / 4 - n ∧ c'.cubicXEnd = ((1 : ℝ) : WithTop ℝ) ∧
        c'.y = (y + (y' - y) * (3 * (9 / 4 - n) ^ 2 - 2 * (9 / 4 - n) ^ 3)) / 65535 := by
    intro c d k n y y' e1 e2 e3 e4 e5 e6 e7 e8 e9 e10 e11 e12
    obtain ⟨c', f1, f2, f3, f4, f5, f6, f7, f8, f9, f10⟩ := key { c with cubicX := 9 / 4 - (k : ℝ) } (9 / 4) n y y' e1 e2 e3 e4 (by simp only [e5]; exact e10) e11 e12
    refine ⟨c'.evaluate, ?_, f2, f3, f4, f5, f6, f7, f8, f9, ?_⟩
    · unfold Slot.advance
      simp only [e7, e6]
      rw [if_pos (by rw [WithTop.coe_lt_coe]; exact e8)]
      have : Slot.X hp { c with cubicX := 9 / 4 - (k : ℝ) } = some (9 / 4) := by
        unfold Slot.X
        simp only [e1, h0, Option.bind_some, e5, e9, Option.map_some]
        congr 1; ring
      simp only [e6] at this f1
      rw [this, Option.bind_some, f1]
      rfl
    · show c'.cubic.eval c'.cubicX = _
      rw [f10, f8]
  obtain ⟨a, a1, a2, a3, a4, a5, a6, a7, a8, a9, -⟩ := key { rate := 1 / 4, spline := some 0 } 0 0 0 0 rfl rfl rfl rfl i0 r0 c0
  obtain ⟨b, b1, b2, b3, b4, b5, b6, b7, b8, b9, b10⟩ := move a.evaluate 9 0 1 0 0 a2 a3 a4 a5 a7 a9
    (by change a.cubicX + 9 * a.rate = _; rw [a8, a6]; norm_num) (by norm_num) n0 i1 r1 c1
  obtain ⟨e, e1, -, -, -, -, -, -, -, -, e10⟩ := move { b with rate := 0 } 16 1 2 0 65535 b2 b3 b4 b5 b7 b9
    (by change b.cubicX + 16 * 0 = _; rw [b8]; norm_num) (by norm_num) n1 i2 r2 c2
  refine ⟨hp, b, e, ?_, ?_, ?_, ?_, ?_⟩
  · intro id s h
    simp only [hhp] at h
    split_ifs at h
    cases h
    exact steps_wf
  · simp only [replay, List.foldlM_cons, List.foldlM_nil, Option.bind_eq_bind, Option.pure_def]
    change (Slot.setSpline hp {} 0 { rate := 1 / 4 }).bind _ = _
    have : Slot.setSpline hp {} 0 { rate := 1 / 4 } = some a.evaluate := by
      unfold Slot.setSpline Slot.jumpTo
      rw [if_neg (by simp), a1]
      rfl
    rw [this, Option.bind_some]
    change (a.evaluate.advance hp 9).bind some = _
    rw [b1]; rfl
  · simp only [replay, List.foldlM_cons, List.foldlM_nil, Option.bind_eq_bind, Option.pure_def]
    change (Slot.advance hp 16 { b with rate := 0 }).bind some = _
    rw [e1]; rfl
  · rw [b10]; norm_num
  · rw [e10]; norm_num

/-- The hypotheses of `C109_paused` are met. -/
example : ∃ (hp : Heap) (c₀ c c₁ : Slot) (es : List (Cmd ⊕ ℝ)) (d : ℝ), (∀ id s, hp id = some s → s.WF ∧ s.Indexable) ∧ Blank c₀ ∧ es ≠ [] ∧
    (∀ e ∈ es, Forward e) ∧ replay (machine hp) c₀ es = some c ∧ replay (machine hp) c [.inl (.rate 0), .inr d] = some c₁ ∧ c₁ ≠ c := by
  obtain ⟨hp, c, c₁, h1, h2, h3, h4, h5⟩ := C109_pause_jumps
  refine ⟨hp, {}, c, c₁, _, 16, h1, rfl, by simp, ?_, h2, h3, ?_⟩
  · intro e he
    simp only [List.mem_cons, List.not_mem_nil, or_false] at he
    rcases he with rfl | rfl <;> norm_num [Forward]
  · rintro rfl
    rw [h4] at h5
    norm_num at h5

end
end Motive.SplineProc
