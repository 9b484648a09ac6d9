import Verif.SplineProc.Forever

/-!
# C107: what a spline motivator says about its target

`TargetValue`, `TargetVelocity`, `Difference`, `TargetTime` and `SplineTime` of a spline motivator
(src/motive/processor/spline_processor.cpp:55-80, include/motive/math/bulk_spline_evaluator.h:196-252).
-/

namespace Motive.SplineProc

open Motive.Proc Motive.Proc.Vector Motive.Splines Motive.Splines.Slot Motive.Math Motive.Curve

noncomputable section

/-! ### Model -/

/-- `EndY` and `TargetValues` (bulk_spline_evaluator.h:196-205, spline_processor.cpp:55-58): a null pointer is followed if there is no spline. -/
def targetValue (h : Heap) (c : Slot) : Option ℝ := c.spline.bind fun id => (h id).bind fun s => s.endY

/-- `EndDerivative` and `TargetVelocities` (bulk_spline_evaluator.h:207-218, spline_processor.cpp:59-62). -/
def targetVelocity (h : Heap) (c : Slot) : Option ℝ := c.spline.bind fun id => (h id).bind fun s => s.endD.map (c.rate * ·)

/-- `YDifferenceToEnd` and `Differences` (bulk_spline_evaluator.h:230-246, spline_processor.cpp:63-66). -/
def difference (h : Heap) (c : Slot) : Option ℝ := (targetValue h c).bind fun y => c.normalizeY (y - c.y)

/-- The time of one dimension in `TargetTime` (spline_processor.cpp:71-74, bulk_spline_evaluator.h:193). The cast to `MotiveTime`, an `int`,
is undefined for numbers that do not fit. -/
def targetTime (h : Heap) (c : Slot) : Option ℤ :=
  (c.spline.bind fun id => (h id).bind fun s => s.endX).bind fun e => (c.X h).bind fun x => toInt (e - x)

/-- `TargetTime` (spline_processor.cpp:67-77), of the records of all the dimensions. -/
def targetTimes (h : Heap) (cs : List Slot) : Option ℤ :=
  cs.foldlM (fun greatest c => (targetTime h c).map (max greatest)) (-2147483648)

/-- `SplineTime` (spline_processor.cpp:78-80); an assertion fails if there is no spline (bulk_spline_evaluator.h:296). -/
def splineTime (h : Heap) (c : Slot) : Option ℤ := (c.X h).bind toInt

/-! ### What does not change while a spline is played -/

theorem initCubic_source {h : Heap} {c c' : Slot} {x : ℝ} (e : c.initCubic h x = some c') : c'.spline = c.spline ∧ c'.rate = c.rate := by
  unfold Slot.initCubic at e
  split at e
  · cases e; exact ⟨rfl, rfl⟩
  · simp only [Option.bind_eq_some_iff, Option.map_eq_some_iff] at e
    obtain ⟨s, -, p, -, r, -, i, -, rfl⟩ := e
    exact ⟨rfl, rfl⟩

theorem event_source {hp : Heap} {c c' : Slot} {v : Cmd ⊕ ℝ} (hv : Control v) (x : ℝ) (h : event (machine hp) c v = some c') :
    c'.spline = c.spline ∧ c'.rate = (clock (x, c.rate) v).2 := by
  match v with
  | .inl (.play ..) => exact absurd hv (by simp [Control])
  | .inl (.repeating _) => exact absurd hv (by simp [Control])
  | .inl (.time t) =>
    have h : c.setX hp t = some c' := h
    simp only [Slot.setX, Option.map_eq_some_iff] at h
    obtain ⟨c1, e, rfl⟩ := h
    have := initCubic_source e
    exact this
  | .inl (.rate r) => cases h; exact ⟨rfl, rfl⟩
  | .inr dt =>
    have h : c.advance hp dt = some c' := h
    simp only [Slot.advance, Option.map_eq_some_iff] at h
    obtain ⟨c1, e, rfl⟩ := h
    split_ifs at e
    · simp only [Option.bind_eq_some_iff] at e
      obtain ⟨x, -, e⟩ := e
      have := initCubic_source e
      exact this
    · cases e; exact ⟨rfl, rfl⟩

theorem replay_source {hp : Heap} : ∀ (evs : List (Cmd ⊕ ℝ)), (∀ v ∈ evs, Control v) → ∀ (c c' : Slot) (x : ℝ), replay (machine hp) c evs = some c' →
    c'.spline = c.spline ∧ c'.rate = (evs.foldl clock (x, c.rate)).2 := by
  intro evs
  induction evs with
  | nil => intro _ c c' x h; cases h; exact ⟨rfl, rfl⟩
  | cons v evs ih =>
    intro hev c c' x h
    have h' : (event (machine hp) c v).bind (fun d => replay (machine hp) d evs) = some c' := h
    obtain ⟨c1, h1, h2⟩ := Option.bind_eq_some_iff.mp h'
    obtain ⟨e1, e2⟩ := event_source (hev v (by simp)) x h1
    obtain ⟨f1, f2⟩ := ih (fun w hw => hev w (by simp [hw])) c1 c' (clock (x, c.rate) v).1 h2
    refine ⟨f1.trans e1, ?_⟩
    rw [f2, e2]
    rfl

theorem play_source {hp : Heap} {c0 c : Slot} {id : ℕ} {p : Playback} {evs : List (Cmd ⊕ ℝ)} (hev : ∀ v ∈ evs, Control v)
    (h : replay (machine hp) c0 (.inl (.play id p) :: evs) = some c) :
    c.spline = some id ∧ c.rate = (evs.foldl clock (p.startX, p.rate)).2 ∧ c.modRange = c0.modRange := by
  have h' : (c0.setSpline hp id p).bind (fun d => replay (machine hp) d evs) = some c := h
  obtain ⟨c1, h1, h2⟩ := Option.bind_eq_some_iff.mp h'
  have hc1 : c1.spline = some id ∧ c1.rate = p.rate := by
    simp only [Slot.setSpline, Option.map_eq_some_iff] at h1
    obtain ⟨c2, e, rfl⟩ := h1
    split_ifs at e
    · simp only [Slot.blendTo, Option.bind_eq_some_iff, Option.map_eq_some_iff] at e
      obtain ⟨s, -, i, -, st, -, x0, -, rfl⟩ := e
      exact ⟨rfl, rfl⟩
    · exact initCubic_source e
  obtain ⟨e1, e2⟩ := replay_source evs hev c1 c p.startX h2
  rw [hc1.2] at e2
  exact ⟨e1.trans hc1.1, e2, replay_range _ _ _ h⟩

/-- Positions are not negative. -/
theorem control_nonneg : ∀ (evs : List (Cmd ⊕ ℝ)), (∀ v ∈ evs, Control v) → ∀ x r : ℝ, 0 ≤ x → 0 ≤ r → 0 ≤ (evs.foldl clock (x, r)).1 := by
  intro evs
  induction evs with
  | nil => intro _ x r hx _; exact hx
  | cons v evs ih =>
    intro hev x r hx hr
    have hrest : ∀ w ∈ evs, Control w := fun w hw => hev w (by simp [hw])
    have hv := hev v (by simp)
    match v with
    | .inr dt => exact ih hrest (x + dt * r) r (add_nonneg hx (mul_nonneg hv hr)) hr
    | .inl (.time t) => exact ih hrest t r hv hr
    | .inl (.rate r') => exact ih hrest x r' hx hv
    | .inl (.play ..) => exact absurd hv (by simp [Control])
    | .inl (.repeating _) => exact absurd hv (by simp [Control])

theorem toInt_near {x : ℝ} (h1 : -2147483648 < x) (h2 : x < 2147483648) : ∃ T : ℤ, toInt x = some T ∧ |x - T| < 1 ∧ 0 ≤ x * T := by
  obtain ⟨-, b2, b3⟩ := trunc_bounds x
  refine ⟨trunc x, if_pos ?_, b2, b3⟩
  by_cases h : 0 ≤ x
  · rw [trunc_of_nonneg h]
    have := Int.floor_nonneg.mpr h
    have h3 : ⌊x⌋ < 2147483648 := Int.floor_lt.mpr (by exact_mod_cast h2)
    omega
  · push Not at h
    rw [trunc_of_neg h]
    have h3 : ⌈x⌉ ≤ 0 := Int.ceil_le.mpr (by simpa using h.le)
    have h4 : -2147483648 < ⌈x⌉ := Int.lt_ceil.mpr (by exact_mod_cast h1)
    omega

theorem clock_append (a b : List (Cmd ⊕ ℝ)) (s : ℝ × ℝ) : (a ++ b).foldl clock s = b.foldl clock (a.foldl clock s) := List.foldl_append ..

theorem clock_frames (dts : List ℝ) (x r : ℝ) : (dts.map Sum.inr).foldl clock (x, r) = (x + dts.sum * r, r) := by
  induction dts generalizing x with
  | nil => simp
  | cons d dts ih =>
    rw [List.map_cons, List.foldl_cons]
    show List.foldl clock (x + d * r, r) _ = _
    rw [ih, List.sum_cons]
    congr 1
    ring

theorem strides_append {M : ℝ} : ∀ (a b : List (Cmd ⊕ ℝ)) (x r : ℝ), Strides M r (a ++ b) → Strides M r a ∧ Strides M (a.foldl clock (x, r)).2 b
  | [], _, _, _, h => ⟨trivial, h⟩
  | .inr dt :: a, b, x, r, h => by
    obtain ⟨h1, h2⟩ := strides_append a b (x + dt * r) r h.2
    exact ⟨⟨h.1, h1⟩, h2⟩
  | .inl (.time t) :: a, b, x, r, h => by
    obtain ⟨h1, h2⟩ := strides_append a b t r h.2
    exact ⟨⟨h.1, h1⟩, h2⟩
  | .inl (.rate r') :: a, b, x, r, h => strides_append a b x r' h
  | .inl (.play ..) :: a, b, x, r, h => strides_append a b x r h
  | .inl (.repeating _) :: a, b, x, r, h => strides_append a b x r h

/-! ### Theorems -/

/-- C107: what a motivator reports while it plays a spline, however it was started and whatever has been done to its clock, which shows `x` at the
rate `r`. The target is the last node of the spline; the target time is what is left of the spline, rounded towards zero, whatever the rate;
the spline time is the position on the spline, rounded down. -/
theorem C107_reads {hp : Heap} {s : Spline} (hs : s.WF) (hn : s.Indexable) {id : ℕ} (hh : hp id = some s) {e M : ℝ} (he : s.endX = some e)
    (c0 : Slot) (p : Playback) (hmod : c0.modRange.valid → c0.modRange.start = -c0.modRange.stop ∧ 0 < c0.modRange.stop)
    (hx : 0 ≤ p.startX) (hrate : 0 < p.rate) (hpos : p.rep = true → 0 < e) (hM0 : 0 ≤ M)
    (hM : (p.startX + e + max p.blendX 0 * p.rate + M) / s.g + 1 < 2147483648)
    {evs : List (Cmd ⊕ ℝ)} (hev : ∀ v ∈ evs, Control v) (hst : Strides M p.rate evs)
    {x r : ℝ} (hclock : evs.foldl clock (p.startX, p.rate) = (x, r)) :
    ∃ c last, replay (machine hp) c0 (.inl (.play id p) :: evs) = some c ∧ s.nodes.getLast? = some last ∧
      targetValue hp c = some (last.Y s.yRange) ∧ targetVelocity hp c = some (r * last.D) ∧
      (¬ c0.modRange.valid → difference hp c = some (last.Y s.yRange - c.y)) ∧
      (c0.modRange.valid → ∃ d, difference hp c = some d ∧ -c0.modRange.stop < d ∧ d ≤ c0.modRange.stop ∧
        ∃ k : ℤ, d = last.Y s.yRange - c.y + k * (2 * c0.modRange.stop)) ∧
      (p.rep = false → |e - x| < 2147483648 → ∃ T : ℤ, targetTime hp c = some T ∧ |(e - x) - T| < 1) ∧
      (p.rep = false → x < 2147483648 → splineTime hp c = some ⌊x⌋) := by
  obtain ⟨b, -, h⟩ := C96_plays hs hn hh he c0 p (fun _ => hmod) hx hrate hpos hM0 hM
  obtain ⟨c, X, h1, h2, h3, -, h5, h6⟩ := h evs hev hst
  obtain ⟨e1, e2, e3⟩ := play_source hev h1
  obtain ⟨last, hl⟩ : ∃ last, s.nodes.getLast? = some last := by
    cases hb : s.nodes.getLast? with
    | none => unfold Spline.endX at he; rw [hb] at he; simp at he
    | some b => exact ⟨b, rfl⟩
  rw [hclock] at e2 h3
  have hX0 : p.rep = false → 0 ≤ x := by
    intro hrep
    have := control_nonneg evs hev p.startX p.rate hx hrate.le
    rw [hclock] at this
    exact this
  have htv : targetValue hp c = some (last.Y s.yRange) := by simp [targetValue, e1, hh, Spline.endY, hl]
  refine ⟨c, last, h1, hl, htv, by simp [targetVelocity, e1, hh, Spline.endD, hl, e2], ?_, ?_, ?_, ?_⟩
  · intro hv
    unfold difference
    rw [htv, Option.bind_some, normalizeY, e3, if_neg hv]
  · intro hv
    obtain ⟨g1, g2⟩ := hmod hv
    obtain ⟨d, f1, f2, f3, k, f4⟩ := Range.normalizeClose_rep (r := c0.modRange) (by linarith) (last.Y s.yRange - c.y)
    refine ⟨d, ?_, by linarith, f3, k, ?_⟩
    · unfold difference
      rw [htv, Option.bind_some, normalizeY, e3, if_pos hv]
      exact f1
    · rw [f4, g1]; ring
  · intro hrep hlt
    obtain ⟨T, t1, t2, -⟩ := toInt_near (abs_lt.mp hlt).1 (abs_lt.mp hlt).2
    refine ⟨T, ?_, t2⟩
    unfold targetTime
    rw [e1, Option.bind_some, hh, Option.bind_some, he, Option.bind_some, h2, Option.bind_some, h3 hrep, t1]
  · intro hrep hlt
    unfold splineTime
    have h0 := hX0 hrep
    rw [h2, Option.bind_some, h3 hrep, toInt, trunc_of_nonneg h0, if_pos]
    have f1 := Int.floor_nonneg.mpr h0
    have f2 : ⌊x⌋ < 2147483648 := Int.floor_lt.mpr (by exact_mod_cast hlt)
    omega

/-- C107 for a motivator in any program, other motivators doing what they like: what it reports in dimension `k`, which was told to play
the spline and then was controlled as `evs` says. -/
theorem C107_motivators_read {hp : Heap} {cs : List (Call Slot Cmd ℝ)} {w : World Slot} (h : run (machine hp) cs = some w)
    {m : MotId} {L : Life Slot Cmd ℝ} (hL : life cs.reverse m = some L) {es evs : List (List Cmd ⊕ ℝ)} {args : List Cmd}
    (hev : L.events = es ++ .inl args :: evs) {k : Nat} (hk : k < L.start.length) {id : ℕ} {p : Playback}
    (ha : args[k]? = some (.play id p)) {s : Spline} (hh : hp id = some s) (hs : s.WF) (hn : s.Indexable)
    (hmod : ∀ c ∈ L.start, c.modRange.valid → c.modRange.start = -c.modRange.stop ∧ 0 < c.modRange.stop)
    (hrate : 0 < p.rate) (hx : 0 ≤ p.startX) {e M : ℝ} (he : s.endX = some e) (hpos : p.rep = true → 0 < e) (hM0 : 0 ≤ M)
    (hM : (p.startX + e + max p.blendX 0 * p.rate + M) / s.g + 1 < 2147483648)
    (hctl : ∀ v ∈ eventsOf k evs, Control v) (hst : Strides M p.rate (eventsOf k evs))
    {x r : ℝ} (hclock : (eventsOf k evs).foldl clock (p.startX, p.rate) = (x, r)) :
    ∃ last, s.nodes.getLast? = some last ∧
      (∃ l, gather (targetValue hp) w m = some l ∧ l[k]? = some (some (last.Y s.yRange))) ∧
      (∃ l, gather (targetVelocity hp) w m = some l ∧ l[k]? = some (some (r * last.D))) ∧
      (¬ L.start[k].modRange.valid → ∃ ys y l, gather (fun c => c.y) w m = some ys ∧ ys[k]? = some y ∧ gather (difference hp) w m = some l ∧
        l[k]? = some (some (last.Y s.yRange - y))) ∧
      (p.rep = false → |e - x| < 2147483648 → ∃ (l : List (Option ℤ)) (T : ℤ), gather (targetTime hp) w m = some l ∧ l[k]? = some (some T) ∧
        |(e - x) - T| < 1) ∧
      (p.rep = false → x < 2147483648 → ∃ l, gather (splineTime hp) w m = some l ∧ l[k]? = some (some ⌊x⌋)) := by
  have hlife : ∀ {β : Type} (g : Slot → β), ∃ l, gather g w m = some l ∧ l.length = L.start.length ∧
      ∀ k d, L.start[k]? = some d → ∃ d', replay (machine hp) d (eventsOf k L.events) = some d' ∧ l[k]? = some (g d') :=
    fun {β} g => ((C90_life (β := β) (machine hp) h m).2 L hL).2.2 g
  obtain ⟨_, _, _, hr⟩ := hlife (fun _ => ())
  obtain ⟨c, hc, -⟩ := hr k _ (List.getElem?_eq_getElem hk)
  have hread : ∀ {β : Type} (g : Slot → β), ∃ l, gather g w m = some l ∧ l[k]? = some (g c) := by
    intro β g
    obtain ⟨l, e1, -, e3⟩ := hlife g
    obtain ⟨d', f1, f2⟩ := e3 k _ (List.getElem?_eq_getElem hk)
    rw [hc] at f1
    cases f1
    exact ⟨l, e1, f2⟩
  have hsplit : eventsOf k (es ++ .inl args :: evs) = eventsOf k es ++ .inl (.play id p) :: eventsOf k evs := by
    simp [eventsOf, List.filterMap_append, ha]
  rw [hev, hsplit, replay_append] at hc
  cases hc0 : replay (machine hp) L.start[k] (eventsOf k es) with
  | none => rw [hc0] at hc; cases hc
  | some c0 =>
    rw [hc0, Option.bind_some] at hc
    have hrange := replay_range _ _ _ hc0
    obtain ⟨c', last, f1, f2, f3, f4, f5, -, f7, f8⟩ := C107_reads hs hn hh he c0 p
      (by rw [hrange]; exact hmod _ (List.getElem_mem hk)) hx hrate hpos hM0 hM hctl hst hclock
    rw [hc] at f1
    cases f1
    refine ⟨last, f2, ?_, ?_, ?_, ?_, ?_⟩
    · obtain ⟨l, g1, g2⟩ := hread (targetValue hp)
      exact ⟨l, g1, by rw [g2, f3]⟩
    · obtain ⟨l, g1, g2⟩ := hread (targetVelocity hp)
      exact ⟨l, g1, by rw [g2, f4]⟩
    · intro hv
      obtain ⟨ys, y1, y2⟩ := hread (fun c => c.y)
      obtain ⟨l, g1, g2⟩ := hread (difference hp)
      exact ⟨ys, _, l, y1, y2, g1, by rw [g2, f5 (by rw [hrange]; exact hv)]⟩
    · intro h1 h2
      obtain ⟨T, t1, t2⟩ := f7 h1 h2
      obtain ⟨l, g1, g2⟩ := hread (targetTime hp)
      exact ⟨l, T, g1, by rw [g2, t1], t2⟩
    · intro h1 h2
      obtain ⟨l, g1, g2⟩ := hread (splineTime hp)
      exact ⟨l, g1, by rw [g2, f8 h1 h2]⟩

/-- C107: `TargetTime` of several dimensions is the greatest of the times of the dimensions. -/
theorem C107_greatest {hp : Heap} {cs : List Slot} (hne : cs ≠ []) {T : ℤ} (h : targetTimes hp cs = some T) :
    (∀ c ∈ cs, ∃ t, targetTime hp c = some t ∧ t ≤ T) ∧ ∃ c ∈ cs, targetTime hp c = some T := by
  have key : ∀ (cs : List Slot) (g T : ℤ), cs.foldlM (fun greatest c => (targetTime hp c).map (max greatest)) g = some T →
      g ≤ T ∧ (∀ c ∈ cs, ∃ t, targetTime hp c = some t ∧ t ≤ T) ∧ (T = g ∨ ∃ c ∈ cs, targetTime hp c = some T) := by
    intro cs
    induction cs with
    | nil => intro g T h; cases h; exact ⟨le_rfl, by simp, .inl rfl⟩
    | cons c cs ih =>
      intro g T h
      rw [List.foldlM_cons] at h
      obtain ⟨m, h1, h2⟩ := Option.bind_eq_some_iff.mp h
      obtain ⟨t, h3, rfl⟩ := Option.map_eq_some_iff.mp h1
      obtain ⟨a1, a2, a3⟩ := ih _ _ h2
      refine ⟨le_trans (le_max_left _ _) a1, fun d hd => ?_, ?_⟩
      · rcases List.mem_cons.mp hd with rfl | hd
        · exact ⟨t, h3, le_trans (le_max_right _ _) a1⟩
        · exact a2 d hd
      · rcases a3 with rfl | ⟨d, hd, e⟩
        · rcases max_choice g t with e | e
          · exact .inl e
          · exact .inr ⟨c, by simp, by rw [e]; exact h3⟩
        · exact .inr ⟨d, by simp [hd], e⟩
  obtain ⟨-, h2, h3⟩ := key cs _ T h
  refine ⟨h2, ?_⟩
  rcases h3 with rfl | h3
  · obtain ⟨c, cs', rfl⟩ := List.exists_cons_of_ne_nil hne
    obtain ⟨t, e, ht⟩ := h2 c (by simp)
    have hlo : -2147483648 ≤ t := by
      unfold targetTime at e
      simp only [Option.bind_eq_some_iff] at e
      obtain ⟨a, -, b, -, e⟩ := e
      unfold toInt at e
      split_ifs at e with hb
      cases e
      exact hb.1
    exact ⟨c, by simp, by rw [e]; congr 1; omega⟩
  · exact h3

/-- C107: the target time counts down, at the playback rate, and when it is over the motivator is at rest at its target, scaled and shifted.
A motivator plays a spline that does not repeat, at a rate of `r`, and then says that the target time is `T`. Now frames pass, `S` in all. The
target time is then `T - S * r`, rounded twice; before `T / r` has passed the end of the spline is not reached; once a unit and
half a grain more than that have passed, and the blend is over, the target is reached. The claim would be that the time that
is left is `T`; that is so for a rate of 1. For other rates see `C107_target_time_ignores_the_rate`. -/
theorem C107_target_time_partial {hp : Heap} {s : Spline} (hs : s.WF) (hn : s.Indexable) {id : ℕ} (hh : hp id = some s) {e M : ℝ}
    (he : s.endX = some e) (c0 : Slot) (p : Playback) (hmod : c0.modRange.valid → c0.modRange.start = -c0.modRange.stop ∧ 0 < c0.modRange.stop)
    (hx : 0 ≤ p.startX) (hrate : 0 < p.rate) (hrep : p.rep = false) (hM0 : 0 ≤ M)
    (hM : (p.startX + e + max p.blendX 0 * p.rate + M) / s.g + 1 < 2147483648)
    {evs : List (Cmd ⊕ ℝ)} (hev : ∀ v ∈ evs, Control v) {dts : List ℝ} (hdt : ∀ d ∈ dts, 0 ≤ d)
    (hst : Strides M p.rate (evs ++ dts.map Sum.inr)) {r : ℝ} (hr : (evs.foldl clock (p.startX, p.rate)).2 = r)
    {c : Slot} (hc : replay (machine hp) c0 (.inl (.play id p) :: evs) = some c) {T : ℤ} (hT : targetTime hp c = some T) :
    ∃ c' E, replay (machine hp) c (dts.map Sum.inr) = some c' ∧ targetValue hp c = some E ∧ targetValue hp c' = some E ∧
      (|T - dts.sum * r| < 2147483646 → ∃ T' : ℤ, targetTime hp c' = some T' ∧ |(T - dts.sum * r) - T'| < 2) ∧
      (dts.sum * r + 1 ≤ T → ∃ x, c'.X hp = some x ∧ x < e) ∧
      (T + 1 + s.g / 2 ≤ dts.sum * r → ¬ (Blends c0 p ∧ InBlend p (evs ++ dts.map Sum.inr)) →
        c'.y = p.yScale * E + p.yOffset ∧ c'.derivative = 0) := by
  obtain ⟨b, -, hplay⟩ := C96_plays hs hn hh he c0 p (fun _ => hmod) hx hrate (by rw [hrep]; simp) hM0 hM
  have hall : ∀ v ∈ evs ++ dts.map Sum.inr, Control v := by
    intro v hv
    rcases List.mem_append.mp hv with h | h
    · exact hev v h
    · obtain ⟨d, hd, rfl⟩ := List.mem_map.mp h
      exact hdt d hd
  obtain ⟨ca, Xa, a1, a2, a3, -, -, -⟩ := hplay evs hev (strides_append evs _ p.startX p.rate hst).1
  obtain ⟨cb, Xb, b1, b2, b3, -, -, b6⟩ := hplay _ hall hst
  rw [hc] at a1; cases a1
  have hstep : replay (machine hp) c (dts.map Sum.inr) = some cb := by
    have : replay (machine hp) c0 ((.inl (.play id p) :: evs) ++ dts.map Sum.inr) = some cb := b1
    rw [replay_append, hc, Option.bind_some] at this
    exact this
  have hclock : (evs ++ dts.map Sum.inr).foldl clock (p.startX, p.rate) = (Xa + dts.sum * r, r) := by
    rw [clock_append, show evs.foldl clock (p.startX, p.rate) = (Xa, r) from Prod.ext (a3 hrep).symm hr, clock_frames]
  have hXb : Xb = Xa + dts.sum * r := by rw [b3 hrep, hclock]
  obtain ⟨s1, -, -⟩ := play_source hev hc
  obtain ⟨t1, -, -⟩ := play_source hall b1
  obtain ⟨last, hl⟩ : ∃ last, s.nodes.getLast? = some last := by
    cases hb : s.nodes.getLast? with
    | none => unfold Spline.endX at he; rw [hb] at he; simp at he
    | some b => exact ⟨b, rfl⟩
  have hend : s.endY = some (last.Y s.yRange) := by simp [Spline.endY, hl]
  have htime : toInt (e - Xa) = some T := by
    unfold targetTime at hT
    rw [s1, Option.bind_some, hh, Option.bind_some, he, Option.bind_some, a2, Option.bind_some] at hT
    exact hT
  have hnear : |(e - Xa) - T| < 1 := by
    unfold toInt at htime
    split_ifs at htime
    cases htime
    exact (trunc_bounds _).2.1
  obtain ⟨n1, n2⟩ := abs_lt.mp hnear
  refine ⟨cb, last.Y s.yRange, hstep, by simp [targetValue, s1, hh, hend], by simp [targetValue, t1, hh, hend], ?_, ?_, ?_⟩
  · intro hlt
    obtain ⟨l1, l2⟩ := abs_lt.mp hlt
    obtain ⟨T', f1, f2, -⟩ := toInt_near (x := e - Xb) (by rw [hXb]; linarith) (by rw [hXb]; linarith)
    refine ⟨T', ?_, ?_⟩
    · unfold targetTime
      rw [t1, Option.bind_some, hh, Option.bind_some, he, Option.bind_some, b2, Option.bind_some, f1]
    · obtain ⟨g1, g2⟩ := abs_lt.mp f2
      rw [hXb] at g1 g2
      rw [abs_lt]
      constructor <;> linarith
  · intro h
    exact ⟨Xb, b2, by rw [hXb]; linarith⟩
  · intro h hbl
    exact (b6 hbl).rests e _ he hend (by rw [hXb]; linarith)

/-- C107: a motivator at the end of its spline. The value is the scaled and shifted target, the velocity is zero, whatever `TargetVelocity` says;
the difference is zero if the spline was not scaled and not shifted. The claim would be that the value is the target and the difference zero,
whatever the scale and the offset; that is false, see `C107_targets_ignore_the_offset`. -/
theorem C107_arrives_partial {hp : Heap} {s : Spline} (hs : s.WF) (hn : s.Indexable) {id : ℕ} (hh : hp id = some s) {e M : ℝ}
    (he : s.endX = some e) (c0 : Slot) (p : Playback) (hmod : c0.modRange.valid → c0.modRange.start = -c0.modRange.stop ∧ 0 < c0.modRange.stop)
    (hx : 0 ≤ p.startX) (hrate : 0 < p.rate) (hrep : p.rep = false) (hM0 : 0 ≤ M)
    (hM : (p.startX + e + max p.blendX 0 * p.rate + M) / s.g + 1 < 2147483648)
    {evs : List (Cmd ⊕ ℝ)} (hev : ∀ v ∈ evs, Control v) (hst : Strides M p.rate evs)
    (hpast : e + s.g / 2 < (evs.foldl clock (p.startX, p.rate)).1) (hbl : ¬ (Blends c0 p ∧ InBlend p evs)) :
    ∃ c E, replay (machine hp) c0 (.inl (.play id p) :: evs) = some c ∧ targetValue hp c = some E ∧
      c.y = p.yScale * E + p.yOffset ∧ c.derivative = 0 ∧
      (p.yScale = 1 → p.yOffset = 0 → c.y = E ∧ difference hp c = some 0) := by
  obtain ⟨b, -, hplay⟩ := C96_plays hs hn hh he c0 p (fun _ => hmod) hx hrate (by rw [hrep]; simp) hM0 hM
  obtain ⟨c, X, a1, a2, a3, -, -, a6⟩ := hplay evs hev hst
  obtain ⟨s1, -, s3⟩ := play_source hev a1
  obtain ⟨last, hl⟩ : ∃ last, s.nodes.getLast? = some last := by
    cases hb : s.nodes.getLast? with
    | none => unfold Spline.endX at he; rw [hb] at he; simp at he
    | some b => exact ⟨b, rfl⟩
  have hend : s.endY = some (last.Y s.yRange) := by simp [Spline.endY, hl]
  have htv : targetValue hp c = some (last.Y s.yRange) := by simp [targetValue, s1, hh, hend]
  obtain ⟨r1, r2⟩ := (a6 hbl).rests e _ he hend (by rw [a3 hrep]; exact hpast)
  have r1 : c.y = p.yScale * last.Y s.yRange + p.yOffset := r1
  refine ⟨c, _, a1, htv, r1, r2, fun h1 h2 => ?_⟩
  have hy : c.y = last.Y s.yRange := by rw [r1, h1, h2]; ring
  refine ⟨hy, ?_⟩
  unfold difference
  rw [htv, Option.bind_some, hy, sub_self, normalizeY, s3]
  split_ifs with hv
  · obtain ⟨m1, m2⟩ := hmod hv
    unfold Range.normalizeClose
    rw [if_pos ⟨by rw [m1]; simpa using m2, by simpa using m2.le⟩]
  · rfl

/-- C107: a motivator that plays no spline cannot be asked: a null pointer is followed or an assertion fails, although the documentation of
`SplineTime` says that it returns 0 (include/motive/vector_motivator.h:121-122). -/
theorem C107_no_spline_fails {hp : Heap} {c : Slot} (h : c.spline = none) :
    targetValue hp c = none ∧ targetVelocity hp c = none ∧ difference hp c = none ∧ targetTime hp c = none ∧ splineTime hp c = none := by
  simp [targetValue, targetVelocity, difference, targetTime, splineTime, Slot.X, h]

/-- C107: after `SetSplineTime(t)`, on any motivator that plays a spline that does not repeat, `SplineTime` is `t`. -/
theorem C107_set_time {hp : Heap} {s : Spline} (hs : s.WF) (hn : s.Indexable) {id : ℕ} (hh : hp id = some s) {e M : ℝ} (he : s.endX = some e)
    (c0 : Slot) (p : Playback) (hmod : c0.modRange.valid → c0.modRange.start = -c0.modRange.stop ∧ 0 < c0.modRange.stop)
    (hx : 0 ≤ p.startX) (hrate : 0 < p.rate) (hrep : p.rep = false) (hM0 : 0 ≤ M)
    (hM : (p.startX + e + max p.blendX 0 * p.rate + M) / s.g + 1 < 2147483648)
    {evs : List (Cmd ⊕ ℝ)} (hev : ∀ v ∈ evs, Control v) {t : ℕ} (ht : t < 2147483648)
    (hst : Strides M p.rate (evs ++ [.inl (.time t)])) :
    ∃ c, replay (machine hp) c0 (.inl (.play id p) :: (evs ++ [.inl (.time t)])) = some c ∧ splineTime hp c = some (t : ℤ) := by
  obtain ⟨c, last, h1, -, -, -, -, -, -, h2⟩ := C107_reads hs hn hh he c0 p hmod hx hrate (by rw [hrep]; simp) hM0 hM
    (evs := evs ++ [.inl (.time t)]) (by
      intro v hv
      rcases List.mem_append.mp hv with h | h
      · exact hev v h
      · simp only [List.mem_singleton] at h
        subst h
        exact Nat.cast_nonneg t) hst
    (x := t) (r := (evs.foldl clock (p.startX, p.rate)).2) (by rw [clock_append]; rfl)
  refine ⟨c, h1, ?_⟩
  rw [h2 hrep (by exact_mod_cast ht), Int.floor_natCast]

/-! ### What is wrong -/

theorem sample_play (p : Playback) (hx : p.startX = 0) (hrate : 0 < p.rate ∧ p.rate ≤ 4) (hrep : p.rep = false) (hbl : p.blendX = 0) (n : ℕ) :
    ∃ c, replay (machine fun _ => some Spline.sample) {} (.inl (.play 0 p) :: (List.replicate n (1 : ℝ)).map Sum.inr) = some c ∧
      targetValue (fun _ => some Spline.sample) c = some 0 ∧ difference (fun _ => some Spline.sample) c = some (0 - c.y) ∧
      (∀ k : ℤ, k * 1 = 9 - n * p.rate → 0 ≤ k → targetTime (fun _ => some Spline.sample) c = some k) ∧
      (9 + 1 / 2 < n * p.rate → c.y = p.yOffset ∧ c.derivative = 0) := by
  have hs := Spline.sample_wf
  have hmod : ({} : Slot).modRange.valid → ({} : Slot).modRange.start = -({} : Slot).modRange.stop ∧ 0 < ({} : Slot).modRange.stop := by
    intro h; norm_num [Range.valid] at h
  have hM : (p.startX + 9 + max p.blendX 0 * p.rate + 4) / Spline.sample.g + 1 < 2147483648 := by
    rw [hx, hbl]; norm_num [Spline.sample]
  have hev : ∀ v ∈ (List.replicate n (1 : ℝ)).map (Sum.inr : ℝ → Cmd ⊕ ℝ), Control v := by
    intro v hv
    obtain ⟨d, hd, rfl⟩ := List.mem_map.mp hv
    rw [List.eq_of_mem_replicate hd]
    simp [Control]
  have hst : ∀ n : ℕ, Strides 4 p.rate ((List.replicate n (1 : ℝ)).map Sum.inr) := by
    intro n
    induction n with
    | zero => trivial
    | succ n ih => exact ⟨by linarith [hrate.2], ih⟩
  have hclock : ((List.replicate n (1 : ℝ)).map Sum.inr).foldl clock (p.startX, p.rate) = (n * p.rate, p.rate) := by
    rw [clock_frames, hx]; simp
  obtain ⟨c, last, h1, hl, h2, -, h3, -, h4, -⟩ := C107_reads hs.1 hs.2 (hp := fun _ => some Spline.sample) (id := 0) rfl endX_sample {} p hmod
    (by rw [hx]) hrate.1 (by rw [hrep]; simp) (M := 4) (by norm_num) hM hev (hst n) hclock
  have hlast : last.Y Spline.sample.yRange = 0 := by
    simp [Spline.sample] at hl
    subst hl
    norm_num [Node.Y, Spline.sample, Range.lerp]
  rw [hlast] at h2 h3
  have hinv : ¬ ({} : Slot).modRange.valid := by norm_num [Range.valid]
  refine ⟨c, h1, h2, h3 hinv, ?_, ?_⟩
  · intro k hk hk0
    have hX : c.X (fun _ => some Spline.sample) = some (n * p.rate) := by
      obtain ⟨b, -, hplay⟩ := C96_plays hs.1 hs.2 (hp := fun _ => some Spline.sample) (id := 0) rfl endX_sample {} p (fun _ => hmod)
        (by rw [hx]) hrate.1 (by rw [hrep]; simp) (M := 4) (by norm_num) hM
      obtain ⟨c', X, a1, a2, a3, -⟩ := hplay _ hev (hst n)
      rw [h1] at a1; cases a1
      rw [a2, a3 hrep, hclock]
    obtain ⟨s1, -, -⟩ := play_source hev h1
    have hk9 : (k : ℝ) = 9 - n * p.rate := by rw [← hk]; ring
    have hk10 : k ≤ 9 := by
      have : (k : ℝ) ≤ 9 := by rw [hk9]; have := mul_nonneg (Nat.cast_nonneg (α := ℝ) n) hrate.1.le; linarith
      exact_mod_cast this
    unfold targetTime
    rw [s1, Option.bind_some, Option.bind_some, endX_sample, Option.bind_some, hX, Option.bind_some, ← hk9, toInt,
      trunc_of_nonneg (by exact_mod_cast hk0), Int.floor_intCast, if_pos (by omega)]
  · intro hp
    obtain ⟨c', E, a1, a2, a3, a4, -⟩ := C107_arrives_partial hs.1 hs.2 (hp := fun _ => some Spline.sample) (id := 0) rfl endX_sample {} p hmod
      (by rw [hx]) hrate.1 hrep (M := 4) (by norm_num) hM hev (hst n) (by rw [hclock]; simpa [Spline.sample] using hp)
      (by rintro ⟨⟨h, -⟩, -⟩; exact h rfl)
    rw [h1] at a1; cases a1
    rw [h2] at a2; cases a2
    exact ⟨by rw [a3]; ring, a4⟩

/-- C107 fails: `TargetTime` is "time remaining until target is reached" (include/motive/vector_motivator.h:110), but it ignores the rate. Here it says that 9 units are
left, but the rate is 2, and after 5 units the motivator is at rest at its target. -/
theorem C107_target_time_ignores_the_rate :
    ∃ c c', replay (machine fun _ => some Spline.sample) {} [.inl (.play 0 { rate := 2 })] = some c ∧
      targetTime (fun _ => some Spline.sample) c = some 9 ∧
      replay (machine fun _ => some Spline.sample) c [.inr 1, .inr 1, .inr 1, .inr 1, .inr 1] = some c' ∧
      targetValue (fun _ => some Spline.sample) c' = some c'.y ∧ difference (fun _ => some Spline.sample) c' = some 0 ∧ c'.derivative = 0 := by
  obtain ⟨c, h1, -, -, h4, -⟩ := sample_play { rate := 2 } rfl (by norm_num) rfl rfl 0
  obtain ⟨c', g1, g2, g3, -, g5⟩ := sample_play { rate := 2 } rfl (by norm_num) rfl rfl 5
  obtain ⟨f1, f2⟩ := g5 (by norm_num)
  have f1 : c'.y = 0 := f1
  refine ⟨c, c', h1, h4 9 (by norm_num) (by norm_num), ?_, by rw [g2, f1], by rw [g3, f1, sub_zero], f2⟩
  have : replay (machine fun _ => some Spline.sample) {} ([.inl (.play 0 { rate := 2 })] ++ [.inr 1, .inr 1, .inr 1, .inr 1, .inr 1]) = some c' := g1
  rw [replay_append, show replay (machine fun _ => some Spline.sample) {} [.inl (.play 0 { rate := 2 })] = some c from h1, Option.bind_some] at this
  exact this

/-- C107 fails: `TargetValue` is "the value this Motivator is driving towards" (include/motive/vector_motivator.h:319), but it ignores the scale and the offset of the
playback. Here the motivator is at rest at 2 for ever, but it says that the target is 0 and the difference -2. -/
theorem C107_targets_ignore_the_offset (n : ℕ) (hn : 10 ≤ n) :
    ∃ c, replay (machine fun _ => some Spline.sample) {} (.inl (.play 0 { yOffset := 2 }) :: (List.replicate n (1 : ℝ)).map Sum.inr) = some c ∧
      c.y = 2 ∧ c.derivative = 0 ∧ targetValue (fun _ => some Spline.sample) c = some 0 ∧
      difference (fun _ => some Spline.sample) c = some (-2) := by
  obtain ⟨c, h1, h2, h3, -, h5⟩ := sample_play { yOffset := 2 } rfl (by norm_num) rfl rfl n
  have hn' : (10 : ℝ) ≤ n := by exact_mod_cast hn
  obtain ⟨f1, f2⟩ := h5 (by show (9 : ℝ) + 1 / 2 < n * 1; linarith)
  have f1 : c.y = 2 := f1
  exact ⟨c, h1, f1, f2, h2, by rw [h3, f1]; norm_num⟩

/-- C107 fails: `TargetTime` ignores the blend. A motivator that shows 3 blends for 100 units to a spline that lasts 9. After 50 units `TargetTime`
says that the target was reached 41 units ago, but the value is half way between. -/
theorem C107_target_time_ignores_the_blend :
    ∃ c, replay (machine fun _ => some Spline.sample) { spline := some 1, y := 3 } [.inl (.play 0 { blendX := 100 }), .inr 50] = some c ∧
      targetTime (fun _ => some Spline.sample) c = some (-41) ∧ targetValue (fun _ => some Spline.sample) c = some 0 ∧ c.y = 3 / 2 ∧
      c.derivative < 0 := by
  have hs := Spline.sample_wf
  have hinv : ¬ ({ spline := some 1, y := 3 } : Slot).modRange.valid := by norm_num [Range.valid]
  obtain ⟨b, hb, hplay⟩ := C96_plays hs.1 hs.2 (hp := fun _ => some Spline.sample) (id := 0) rfl endX_sample { spline := some 1, y := 3 }
    { blendX := 100 } (fun _ h => absurd h hinv) (by norm_num) (by norm_num) (by norm_num) (M := 50) (by norm_num) (by norm_num [Spline.sample])
  have hbl : Blends { spline := some 1, y := 3 } { blendX := 100 } := ⟨by simp, by norm_num⟩
  have hev : ∀ v ∈ [(Sum.inr 50 : Cmd ⊕ ℝ)], Control v := by simp [Control]
  obtain ⟨c, X, h1, h2, h3, -, h5, -⟩ := hplay [.inr 50] hev (by norm_num [Strides])
  have hclock : [(Sum.inr 50 : Cmd ⊕ ℝ)].foldl clock ((0 : ℝ), (1 : ℝ)) = (50, 1) := by norm_num [clock]
  have hX : X = 50 := by
    have := h3 rfl
    rw [this]; exact congrArg Prod.fst hclock
  have hin : InBlend { blendX := 100 } [.inr 50] := ⟨by simp, by norm_num [clock]⟩
  obtain ⟨y1, y2⟩ := h5 ⟨hbl, hin⟩
  have y1 : c.y = b.eval (([(Sum.inr 50 : Cmd ⊕ ℝ)].foldl clock ((0 : ℝ), (1 : ℝ))).1 - 0) := y1
  have y2 : c.derivative = ([(Sum.inr 50 : Cmd ⊕ ℝ)].foldl clock ((0 : ℝ), (1 : ℝ))).2 *
    b.deriv (([(Sum.inr 50 : Cmd ⊕ ℝ)].foldl clock ((0 : ℝ), (1 : ℝ))).1 - 0) := y2
  rw [hclock] at y1 y2
  obtain ⟨Y, v, d, j, k, l1, l2, -, l4, l5, l6, l7, l8⟩ := hb hbl
  obtain ⟨rfl, rfl⟩ := l1 hinv
  have hY : Y = 100 := by rw [l2 rfl]; norm_num
  subst hY
  have hend : Spline.sample.endY = some 0 := by norm_num [Spline.sample, Spline.endY, Node.Y, Range.lerp]
  have hout := (Spline.C25_outside hs.1 hs.2 (x := 100) (x0 := 2) (by norm_num [Spline.sample, Spline.startX, Node.X]) endX_sample
    (by norm_num [Spline.sample])).2 (by norm_num [Spline.sample])
  obtain ⟨v1, v2⟩ := l4 (by
    intro n hn
    simp only [Spline.sample, List.mem_cons, List.not_mem_nil, or_false] at hn
    rcases hn with rfl | rfl | rfl | rfl <;> norm_num [Spline.sample, Node.X, abs_of_pos])
  rw [hout.1, hend] at v1
  cases v1
  rw [hout.2 .derivative (by simp)] at v2
  cases v2
  have m5 : b.eval 0 = 3 := by rw [l5]; norm_num
  have m6 : b.deriv 0 = 0 := by rw [l6]; norm_num [derivative, Cubic.deriv]
  have m7 : b.eval 100 = 0 := by
    have := l7
    norm_num at this
    exact this
  have m8 : b.deriv 100 = 0 := by
    have := l8
    norm_num at this
    exact this
  obtain ⟨s1, -, -⟩ := play_source hev h1
  refine ⟨c, h1, ?_, by simp [targetValue, s1, hend], ?_, ?_⟩
  · unfold targetTime
    rw [s1, Option.bind_some, Option.bind_some, endX_sample, Option.bind_some, h2, Option.bind_some, hX, toInt,
      trunc_of_neg (by norm_num), show ((9 : ℝ) - 50) = ((-41 : ℤ) : ℝ) by norm_num, Int.ceil_intCast, if_pos (by omega)]
  · rw [y1]
    simp only [Cubic.eval, Cubic.deriv] at m5 m6 m7 m8 ⊢
    norm_num at m5 m6 m7 m8 ⊢
    linarith
  · rw [y2]
    simp only [Cubic.eval, Cubic.deriv] at m5 m6 m7 m8 ⊢
    norm_num at m5 m6 m7 m8 ⊢
    linarith

/-- The countdown on the sample spline, at a rate of 1: 9 units are left, 6 pass and some 3 are left; 5 more pass, and it is over. -/
example : ∃ c c' c'' : Slot, replay (machine fun _ => some Spline.sample) {} [.inl (.play 0 {})] = some c ∧
    targetTime (fun _ => some Spline.sample) c = some 9 ∧
    replay (machine fun _ => some Spline.sample) c [.inr 2, .inr 4] = some c' ∧
    (∃ T' : ℤ, targetTime (fun _ => some Spline.sample) c' = some T' ∧ |(9 - 6) - (T' : ℝ)| < 2) ∧
    replay (machine fun _ => some Spline.sample) c [.inr 2, .inr 4, .inr 5] = some c'' ∧ c''.y = 0 ∧ c''.derivative = 0 := by
  have hs := Spline.sample_wf
  obtain ⟨c, h1, h2, -, h4, -⟩ := sample_play {} rfl (by norm_num) rfl rfl 0
  have hT := h4 9 (by norm_num) (by norm_num)
  have hmod : ({} : Slot).modRange.valid → ({} : Slot).modRange.start = -({} : Slot).modRange.stop ∧ 0 < ({} : Slot).modRange.stop := by
    intro h; norm_num [Range.valid] at h
  obtain ⟨c', E, a1, -, -, a4, -⟩ := C107_target_time_partial hs.1 hs.2 (hp := fun _ => some Spline.sample) (id := 0) rfl endX_sample {} {} hmod
    (by norm_num) (by norm_num) rfl (M := 5) (by norm_num) (by norm_num [Spline.sample]) (evs := []) (by simp) (dts := [2, 4]) (by simp)
    (by norm_num [Strides]) rfl h1 hT
  obtain ⟨c'', E', b1, b2, -, -, -, b6⟩ := C107_target_time_partial hs.1 hs.2 (hp := fun _ => some Spline.sample) (id := 0) rfl endX_sample {} {} hmod
    (by norm_num) (by norm_num) rfl (M := 5) (by norm_num) (by norm_num [Spline.sample]) (evs := []) (by simp) (dts := [2, 4, 5]) (by simp)
    (by norm_num [Strides]) rfl h1 hT
  rw [h2] at b2; cases b2
  obtain ⟨y1, y2⟩ := b6 (by norm_num [Spline.sample]) (by rintro ⟨⟨h, -⟩, -⟩; exact h rfl)
  refine ⟨c, c', c'', h1, hT, a1, ?_, b1, by rw [y1]; norm_num, y2⟩
  obtain ⟨T', e1, e2⟩ := a4 (by norm_num [abs_lt])
  refine ⟨T', e1, ?_⟩
  have : ((9 : ℤ) : ℝ) - [(2 : ℝ), 4].sum * (1 : ℝ) = 9 - 6 := by norm_num
  rw [← this]
  exact e2

end
end Motive.SplineProc
