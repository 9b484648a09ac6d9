import Verif.Matrix.Clip
import Verif.SplineProc.Ahead

/-!
# C108: what `TimeRemaining` of a matrix motivator promises

`TimeRemaining` (src/motive/processor/matrix_data.h:119-126, matrix_op.h:374-376) is the greatest target time of the operations' motivators
(C66), or 0. Here: it counts down frame by frame, and when it is over the matrix does not change any more.
-/

namespace Motive.Matrix4
open Motive.Targets Motive.Splines Motive.Math Motive.Curve

noncomputable section

/-! ### Specification -/

/-- The grains of time of the spline, or of the one that the target makes, are not longer than a unit. -/
def FineGrained (n : OpInit splineDriver) : Prop :=
  match n.union with
  | .empty => True
  | .initial _ => True
  | .target t => ∀ e, t.endTime = some e → e ≤ 65535
  | .spline s => s.g ≤ 1

/-! ### Motivators -/

/-- What can be said of a motivator that has started to play something: the time `e` from the start until the end, the rate, the value at the end,
and the time that a blend takes. -/
def Timed (p : Player) (e r E bl : ℝ) : Prop :=
  e ≤ 65535 ∧ ∀ dts, Paced dts → ∃ p'', dts.foldl splineDriver.advance (some p : Option Player) = some p'' ∧
    p''.targetTime = some (toTime (e - dts.sum * r)) ∧
    (e + 1 / 2 < dts.sum * r → bl = 0 ∨ bl < dts.sum → p''.slot.y = E ∧ p''.slot.derivative = 0)

/-- A record that has just been told to play a spline that does not repeat. -/
theorem starts_timed {hp : Heap} {s : Spline} (hs : s.WF) (hn : s.Indexable) {id : ℕ} (hh : hp id = some s) {e : ℝ} (he : s.endX = some e)
    {c0 c : Slot} {q : Motive.Splines.Playback} (hmod : c0.modRange.valid → c0.modRange.start = -c0.modRange.stop ∧ 0 < c0.modRange.stop)
    (hx : 0 ≤ q.startX) (hrate : 0 < q.rate) (hb : 0 ≤ q.blendX) (hrep : q.rep = false)
    (hM : (q.startX + e + q.blendX * q.rate + 32000 * q.rate) / s.g + 1 < 2147483648) (hg : s.g ≤ 1)
    (hc : c0.setSpline hp id q = some c) : ∃ E, Timed ⟨hp, c⟩ (e - q.startX) q.rate E q.blendX := by
  obtain ⟨last, hl⟩ : ∃ last, s.nodes.getLast? = some last := by
    cases hb : s.nodes.getLast? with
    | none => unfold Spline.endX at he; rw [hb] at he; simp at he
    | some b => exact ⟨b, rfl⟩
  have hend : s.endY = some (last.Y s.yRange) := by simp [Spline.endY, hl]
  have he' : e ≤ 65535 := by
    have h1 : e = last.X s.g := by simpa [Spline.endX, hl] using he.symm
    have h2 : (last.x : ℝ) ≤ 65535 := by exact_mod_cast (hs.ok last (List.mem_of_getLast? hl)).1
    have h3 : (last.x : ℝ) * s.g ≤ last.x * 1 := mul_le_mul_of_nonneg_left hg (Nat.cast_nonneg _)
    rw [h1]
    simp only [Node.X]
    linarith
  refine ⟨q.yScale * last.Y s.yRange + q.yOffset, by linarith, fun dts hd => ?_⟩
  obtain ⟨b, -, hplay⟩ := SplineProc.C96_plays (M := 32000 * q.rate) hs hn hh he c0 q (fun _ => hmod) hx hrate (by rw [hrep]; simp)
    (by positivity) (by rw [max_eq_left hb]; exact hM)
  have hctl : ∀ v ∈ (dts.map fun d : ℤ => (d : ℝ)).map (Sum.inr (α := SplineProc.Cmd)), SplineProc.Control v := by
    intro v hv
    obtain ⟨d, hd', rfl⟩ := List.mem_map.mp hv
    obtain ⟨z, hz, rfl⟩ := List.mem_map.mp hd'
    show (0 : ℝ) ≤ z
    exact_mod_cast (hd z hz).1.le
  obtain ⟨c', X, a1, a2, a3, -, -, a6⟩ := hplay ((dts.map fun d : ℤ => (d : ℝ)).map .inr) hctl
    (strides_frames _ fun d hd' => by
      obtain ⟨z, hz, rfl⟩ := List.mem_map.mp hd'
      have : (z : ℝ) ≤ 32000 := by exact_mod_cast (hd z hz).2
      exact mul_le_mul_of_nonneg_right this hrate.le)
  have hsrc := (SplineProc.play_source hctl a1).1
  have a1' : (c0.setSpline hp id q).bind (fun d => Proc.Vector.replay (SplineProc.machine hp) d ((dts.map fun d : ℤ => (d : ℝ)).map .inr)) = some c' := a1
  rw [hc, Option.bind_some, replay_frames] at a1'
  have a3 := a3 hrep
  rw [clock_frames, cast_sum] at a3
  rw [clock_frames] at a6
  refine ⟨⟨hp, c'⟩, by rw [foldl_advance, a1']; rfl, ?_, ?_⟩
  · simp only [Player.targetTime, hsrc, hh, he, a2, Option.bind_some, Option.map_some]
    rw [a3]
    congr 2
    ring
  · intro hpast hbl
    have hin : ¬ (SplineProc.Blends c0 q ∧ SplineProc.InBlend q ((dts.map fun d : ℤ => (d : ℝ)).map .inr)) := by
      rintro ⟨h1, h2⟩
      have h2 := h2.2
      rw [clock_frames, cast_sum] at h2
      have h3 : (dts.sum : ℝ) * q.rate ≤ q.blendX * q.rate := by simpa using h2
      have h4 := le_of_mul_le_mul_right h3 hrate
      have h5 := h1.2
      rcases hbl with h | h <;> linarith
    exact (a6 hin).rests e _ he hend (by rw [a3]; linarith)

/-- Any target that `SetTarget` accepts makes a well-formed spline. -/
theorem nodeLoop_wf (c : Slot) : ∀ (ns : List (MNode ℝ)) (s s' : Spline) (prev : ℝ), s.WF → s.nodes ≠ [] → nodeLoop c s prev ns = some s' →
    s'.WF ∧ s'.g = s.g ∧ s'.nodes ≠ [] ∧ s'.nodes.length ≤ s.nodes.length + ns.length := by
  intro ns
  induction ns with
  | nil => intro s s' prev hs hne h; cases h; exact ⟨hs, rfl, hne, by simp⟩
  | cons n ns ih =>
    intro s s' prev hs hne h
    simp only [nodeLoop, Option.bind_eq_some_iff] at h
    obtain ⟨v, -, y, -, s1, h1, h2⟩ := h
    obtain ⟨w, f, -, l, ⟨m, -, hlast⟩, -⟩ := Spline.addNode_spec hs h1
    obtain ⟨g1, g2, g3, g4⟩ := ih s1 s' y w (by intro h0; rw [h0] at hlast; simp at hlast) h2
    refine ⟨g1, by rw [g2, f.1], g3, ?_⟩
    have := l rfl
    rw [List.length_cons]
    omega

theorem recommendG_pos (e : ℤ) : 0 < Spline.recommendG (e : ℝ) := by
  unfold Spline.recommendG
  split_ifs with h
  · norm_num
  · have := not_le.mp h; positivity

theorem recommendG_le {e : ℤ} (h : e ≤ 65535) : Spline.recommendG (e : ℝ) ≤ 1 := by
  have : (e : ℝ) ≤ 65535 := by exact_mod_cast h
  unfold Spline.recommendG
  split_ifs
  · exact le_rfl
  · rw [div_le_one (by norm_num)]; exact this

/-- A motivator that has just been given a target. -/
theorem target_timed {p p' : Player} {ty : OpType} (hr : p.slot.modRange = rangeOfOp ty) {t : Target ℝ} (ht : t.WF)
    {e : ℤ} (he : t.endTime = some e) (hfine : e ≤ 65535) (h : p.setTarget t = some p') : ∃ e E, Timed p' e 1 E 0 := by
  simp only [Player.setTarget, Option.map_eq_some_iff] at h
  obtain ⟨⟨h', c'⟩, h, rfl⟩ := h
  simp only [Targets.setTarget, Option.bind_eq_some_iff, Option.map_eq_some_iff, Prod.mk.injEq] at h
  obtain ⟨loc, -, s, hs, c1, hc1, rfl, rfl⟩ := h
  simp only [targetSpline, Option.bind_eq_some_iff] at hs
  obtain ⟨n0, hn0, y0, -, e', he', r, -, s1, h1, h2⟩ := hs
  rw [he] at he'; cases he'
  have hgp := recommendG_pos e
  obtain ⟨w, f, l, -, ⟨m, -, hlast⟩, -⟩ := Spline.addNode_spec (Spline.wf_init loc r hgp) h1
  obtain ⟨g1, g2, g3, g4⟩ := nodeLoop_wf p.slot _ s1 s y0 w (by intro h0; rw [h0] at hlast; simp at hlast) h2
  have hg : s.g = Spline.recommendG (e : ℝ) := by rw [g2, f.1]; rfl
  have hlen : (rest p.slot t n0).length ≤ 3 := by
    have := ht.2.1
    unfold rest
    split_ifs
    · rw [List.length_drop]; omega
    · omega
  have hidx : s.Indexable := by
    refine ⟨List.length_pos_iff.mpr g3, ?_⟩
    have : s1.nodes.length ≤ 2 := by simpa [Spline.init] using l
    omega
  obtain ⟨last, hl⟩ : ∃ last, s.nodes.getLast? = some last := by
    cases hb : s.nodes.getLast? with
    | none => rw [List.getLast?_eq_none_iff] at hb; exact absurd hb g3
    | some b => exact ⟨b, rfl⟩
  have hend : s.endX = some (last.X s.g) := by simp [Spline.endX, hl]
  have hlx : (last.x : ℝ) ≤ 65535 := by exact_mod_cast (g1.ok last (List.mem_of_getLast? hl)).1
  have hb : (0 + last.X s.g + 0 * 1 + 32000 * 1) / s.g + 1 < 2147483648 := by
    have hgp' : 0 < s.g := g1.g_pos
    have h3 : (0 + last.X s.g + 0 * 1 + 32000 * 1) / s.g = last.x + 32000 / s.g := by
      simp only [Node.X]
      field_simp
      ring
    have h4 : 32000 / s.g ≤ 32000 * 65535 := by
      rw [div_le_iff₀ hgp', hg]
      unfold Spline.recommendG
      split_ifs with h0
      · norm_num
      · have : (1 : ℝ) ≤ e := by
          have : 0 < e := by exact_mod_cast not_le.mp h0
          exact_mod_cast this
        linarith
    rw [h3]
    linarith
  have hmod : p.slot.modRange.valid → p.slot.modRange.start = -p.slot.modRange.stop ∧ 0 < p.slot.modRange.stop := by
    rw [hr]; exact rangeOfOp_symmetric ty
  obtain ⟨E, hE⟩ := starts_timed (q := {}) g1 hidx (by simp) hend hmod le_rfl one_pos le_rfl rfl hb (by rw [hg]; exact recommendG_le hfine) hc1
  exact ⟨_, E, hE⟩

/-- A motivator that has just been told to play a spline that does not repeat. -/
theorem spline_timed {p p' : Player} {ty : OpType} (hr : p.slot.modRange = rangeOfOp ty) {pb : Playback} (hb : 0 ≤ pb.blendX)
    (hx : 0 ≤ pb.startX) (hrate : 0 < pb.rate) (hrep : pb.repeating = false) {s : Spline} (hs : Fits pb s) (hfine : s.g ≤ 1)
    (h : p.setSpline s pb = some p') : ∃ e E, Timed p' e pb.rate E pb.blendX := by
  obtain ⟨e, he, -, hM⟩ := hs.ends
  simp only [Player.setSpline, Option.map_eq_some_iff] at h
  obtain ⟨c, hc, rfl⟩ := h
  obtain ⟨E, hE⟩ := starts_timed hs.wf hs.indexable (by simp) he (by rw [hr]; exact rangeOfOp_symmetric ty) hx hrate hb hrep hM hfine hc
  exact ⟨_, E, hE⟩

/-! ### Operations -/

/-- An operation that has just been given what a stage asks for: a constant, or a motivator with an end. -/
def Bound (pb : Playback) (o : Op splineDriver) : Prop :=
  o.motivator = none ∨ ∃ p e r E bl, o.motivator = some (some p) ∧ (r = 1 ∨ r = pb.rate) ∧ (bl = 0 ∨ bl = pb.blendX) ∧ Timed p e r E bl

theorem driven_bound {pb : Playback} (hb : 0 ≤ pb.blendX) (hx : 0 ≤ pb.startX) (hrate : 0 < pb.rate) (hrep : pb.repeating = false)
    (hbf : pb.blendX ≤ 65535) {o o' : Op splineDriver} {n : OpInit splineDriver} (ho : Ready o) (hty : n.type = o.type)
    (hk : ∀ k, n.init = some k → k = rangeOfOp n.type) (ha : Asks pb n) (hf : FineGrained n) (h : Driven pb o n o') : Bound pb o' := by
  obtain ⟨-, h2, h3⟩ := h
  unfold Asks at ha
  unfold FineGrained at hf
  cases hu : n.union with
  | empty => rw [hu] at ha; exact absurd ha (by simp)
  | initial v =>
    rw [hu] at h3
    rcases h3 with ⟨h4, -⟩ | ⟨m, h4, h5⟩
    · exact .inl h4
    · obtain ⟨p, rfl, p1, p2, p3⟩ := ho m h4
      have hfl : (0 : ℤ) ≤ ⌊pb.blendX⌋ := Int.floor_nonneg.mpr hb
      have hrea := reach_one o.type v hfl
      obtain ⟨p', e1, -⟩ := target_steady p2 p3 hrea (e := ⌊pb.blendX⌋) (y := ⟨v, 0, ⌊pb.blendX⌋, .closest⟩) rfl rfl
      obtain ⟨e, E, hT⟩ := target_timed p2 hrea.1 (e := ⌊pb.blendX⌋) rfl
        (by have := Int.floor_mono hbf; simpa using this) e1
      exact .inr ⟨p', e, 1, E, 0, by rw [h5]; exact congrArg some e1, .inl rfl, .inl rfl, hT⟩
  | target t =>
    rw [hu] at h3 ha hf
    obtain ⟨m, h4, h5⟩ := h3
    obtain ⟨p, rfl, ⟨q, hq, p1, p2, p3⟩, -⟩ := source_playing ho hty hk h4
    cases hq
    have ha' : Reach o.type t := by rw [← hty]; exact ha
    obtain ⟨e, y, he, hy⟩ : ∃ (e : ℤ) (y : MNode ℝ), t.endTime = some e ∧ t.nodes.getLast? = some y := by
      have := ha'.1.1
      cases hl : t.nodes.getLast? with
      | none => rw [List.getLast?_eq_none_iff] at hl; rw [hl] at this; simp at this
      | some y => exact ⟨y.time, y, by simp [Target.endTime, hl], rfl⟩
    obtain ⟨p', e1, -⟩ := target_steady p2 p3 ha' he hy
    obtain ⟨e', E, hT⟩ := target_timed p2 ha'.1 he (hf e he) e1
    exact .inr ⟨p', e', 1, E, 0, by rw [h5]; exact congrArg some e1, .inl rfl, .inl rfl, hT⟩
  | spline s =>
    rw [hu] at h3 ha hf
    obtain ⟨m, h4, h5⟩ := h3
    obtain ⟨p, rfl, ⟨q, hq, p1, p2, p3⟩, -⟩ := source_playing ho hty hk h4
    cases hq
    obtain ⟨p', b, e1, -⟩ := spline_steady p1 p2 hb hx hrate ha
    obtain ⟨e, E, hT⟩ := spline_timed p2 hb hx hrate hrep ha hf e1
    exact .inr ⟨p', e, pb.rate, E, pb.blendX, by rw [h5]; exact congrArg some e1, .inr rfl, .inr rfl, hT⟩

theorem relaxed_bound {pb : Playback} (hb : 0 ≤ pb.blendX) (hbf : pb.blendX ≤ 65535) {o o' : Op splineDriver} (ho : Ready o)
    (h : Relaxed pb o o') : Bound pb o' := by
  obtain ⟨-, h2, h3⟩ := h
  rcases h3 with ⟨-, h4, -⟩ | ⟨m, h4, h5⟩
  · exact .inl h4
  · obtain ⟨p, rfl, p1, p2, p3⟩ := ho m h4
    have hfl : (0 : ℤ) ≤ ⌊pb.blendX⌋ := Int.floor_nonneg.mpr hb
    have hrea := reach_one o.type o.type.default hfl
    obtain ⟨p', e1, -⟩ := target_steady p2 p3 hrea (e := ⌊pb.blendX⌋) (y := ⟨o.type.default, 0, ⌊pb.blendX⌋, .closest⟩) rfl rfl
    obtain ⟨e, E, hT⟩ := target_timed p2 hrea.1 (e := ⌊pb.blendX⌋) rfl (by have := Int.floor_mono hbf; simpa using this) e1
    exact .inr ⟨p', e, 1, E, 0, by rw [h5]; exact congrArg some e1, .inl rfl, .inl rfl, hT⟩

/-- All the operations after `BlendToOps`. -/
theorem merge_bound {S : OpType → Prop} {kind : ℕ → OpType} {ops : List (Op splineDriver)} (ho : Works S kind ops)
    {new : List (OpInit splineDriver)} {pb : Playback} {dts : List ℤ} (h : Clip S kind new pb dts) (hrep : pb.repeating = false)
    (hbf : pb.blendX ≤ 65535) (hf : ∀ n ∈ new, FineGrained n) {bad : OpType → Bool} (hbad : ∀ n ∈ new, bad n.type = false)
    {l : List (Op splineDriver)} (hl : blendToOps bad new pb ops = some l) : ∀ o ∈ l, Bound pb o := by
  obtain ⟨l', h1, -, -, h4⟩ := C43_merge bad ops new pb h.blend ho.ascending h.ascending h.made hbad
  rw [hl] at h1; cases h1
  intro o hm
  rcases h4 o hm with ⟨a, ha, b, hb, e, hd⟩ | ⟨a, ha, hb, hd⟩ | ⟨b, hb, ha, a, e, hd⟩
  · exact driven_bound h.blend h.start h.rate hrep hbf (ho.ready a ha) (by rw [h.typed b hb, ho.typed a ha, e]) (h.range b hb)
      (h.asks b hb) (hf b hb) hd
  · exact relaxed_bound h.blend hbf (ho.ready a ha) hd
  · obtain ⟨r1, -⟩ := newborn_ready e (h.range b hb)
    exact driven_bound h.blend h.start h.rate hrep hbf r1 e.2.1.symm (h.range b hb) (h.asks b hb) (hf b hb) hd

/-- The operations of an SQT motivator after `BlendToOps`. -/
theorem sqt_bound {kind : ℕ → OpType} {ops : List (Op splineDriver)} (ho : Works SqtSupported kind ops) {new : List (OpInit splineDriver)}
    {pb : Playback} {dts : List ℤ} (h : Clip SqtSupported kind new pb dts) (hrep : pb.repeating = false) (hbf : pb.blendX ≤ 65535)
    (hf : ∀ n ∈ new, FineGrained n) {rotation : Quat} {starts : List (OpType × ℝ)} {q : Quat} (hs : StartsAt new starts) (hq : Describes starts q)
    (h0 : q ≠ ⟨0, 0, 0, 0⟩) {l : List (Op splineDriver)} (hl : blendToOpsSqt rotation new pb ops = some l) : ∀ o ∈ l, Bound pb o := by
  have hbad : ∀ n ∈ new, OpType.isRotate n.type = false := by
    intro n hn
    have := h.supported n hn
    revert this
    cases n.type <;> simp [SqtSupported, OpType.isQuat, OpType.isRotate, OpType.isTranslate, OpType.isScale]
  have hal := align_spline (ops := ops) (rotation := rotation) hs hq h0
  have hw : Works SqtSupported kind (if rotation.dot q < 0 then ops.map Op.negate else ops) := by
    split_ifs
    · refine ⟨?_, ?_, ?_, ?_⟩
      · have : (ops.map Op.negate).map (·.id) = ops.map (·.id) := by
          rw [List.map_map]; exact List.map_congr_left fun o _ => negate_id o
        rw [this]; exact ho.ascending
      all_goals
        intro o hm
        obtain ⟨o1, h1, rfl⟩ := List.mem_map.mp hm
      · rw [negate_type]; exact ho.supported o1 h1
      · rw [negate_type, negate_id]; exact ho.typed o1 h1
      · exact negate_ready (ho.ready o1 h1)
    · exact ho
  rw [blendToOpsSqt, hal, Option.bind_some] at hl
  exact merge_bound hw h hrep hbf hf hbad hl

theorem toTime_lt {x : ℝ} {T : ℤ} (h : toTime x ≤ T) (h0 : 0 ≤ T) : x < T + 1 := by
  unfold toTime at h
  split_ifs at h with hx
  · have : x < ⌊x⌋ + 1 := Int.lt_floor_add_one x
    have : (⌊x⌋ : ℝ) ≤ T := by exact_mod_cast h
    linarith
  · have : (0 : ℝ) ≤ T := by exact_mod_cast h0
    linarith

/-- Once the time remaining is over, the values of the operations do not change. -/
theorem bound_rests {pb : Playback} {l : List (Op splineDriver)} (hl : ∀ o ∈ l, Bound pb o) {dts : List ℤ} (hd : Paced dts) :
    ∃ vs, ∀ ds, Paced ds → timeRemaining (advanceAll l dts) + 2 ≤ ds.sum → (timeRemaining (advanceAll l dts) : ℝ) + 2 ≤ ds.sum * pb.rate →
      pb.blendX = 0 ∨ pb.blendX < dts.sum + ds.sum →
      readOps (advanceAll (advanceAll l dts) ds) = vs ∧ ∀ o ∈ advanceAll (advanceAll l dts) ds, o.velocity = 0 := by
  set T := timeRemaining (advanceAll l dts) with hT
  obtain ⟨hT0, hTmax, -⟩ := C66_matrix_time_remaining (advanceAll l dts)
  rw [← hT] at hT0 hTmax
  have key : ∀ o : Op splineDriver, ∃ v : ℝ, o ∈ l → ∀ ds, Paced ds → T + 2 ≤ ds.sum → (T : ℝ) + 2 ≤ ds.sum * pb.rate → pb.blendX = 0 ∨ pb.blendX < dts.sum + ds.sum →
      ((dts ++ ds).foldl Op.advance o).value = v ∧ ((dts ++ ds).foldl Op.advance o).velocity = 0 := by
    intro o
    by_cases hm : o ∈ l
    swap
    · exact ⟨0, fun h => absurd h hm⟩
    rcases hl o hm with h | ⟨p, e, r, E, bl, h1, h2, h3, h4⟩
    · refine ⟨o.value, fun _ ds _ _ _ _ => ?_⟩
      have : (dts ++ ds).foldl Op.advance o = o := by rw [foldl_op, h]; cases o; simp_all
      rw [this]
      exact ⟨rfl, by simp [Op.velocity, h]⟩
    · refine ⟨E, fun _ ds hds hsum hsumr hbl => ?_⟩
      obtain ⟨p1, a1, a2, -⟩ := h4.2 dts hd
      have hall : Paced (dts ++ ds) := by
        intro d hdd
        rcases List.mem_append.mp hdd with h | h
        · exact hd d h
        · exact hds d h
      obtain ⟨p2, b1, -, b3⟩ := h4.2 (dts ++ ds) hall
      have hle : toTime (e - dts.sum * r) ≤ T := by
        have := hTmax (dts.foldl Op.advance o) (List.mem_map_of_mem hm) (some p1) (by rw [foldl_some h1 a1])
        simpa [a2] using this
      have hlt := toTime_lt hle hT0
      have hsum' : (T : ℝ) + 2 ≤ ds.sum := by exact_mod_cast hsum
      have hmul : (T : ℝ) + 2 ≤ ds.sum * r := by rcases h2 with rfl | rfl <;> [(rw [mul_one]; exact hsum'); exact hsumr]
      have hT0' : (0 : ℝ) ≤ T := by exact_mod_cast hT0
      have hcast : (((dts ++ ds).sum : ℤ) : ℝ) = dts.sum + ds.sum := by rw [List.sum_append]; push_cast; rfl
      rw [hcast] at b3
      obtain ⟨c1, c2⟩ := b3 (by nlinarith) (by rcases h3 with rfl | rfl <;> [exact .inl rfl; exact hbl])
      rw [foldl_some h1 b1]
      simp only [Op.value, Op.velocity, Option.map_some, Option.getD_some]
      exact ⟨c1, c2⟩
  choose v hv using key
  refine ⟨l.map fun o => (o.type, v o), fun ds hds hsum hsumr hbl => ⟨?_, ?_⟩⟩
  · simp only [readOps, advanceAll, List.map_map]
    apply List.map_congr_left
    intro o hm
    have := (hv o hm ds hds hsum hsumr hbl).1
    rw [List.foldl_append] at this
    simp only [Function.comp_apply, foldl_type, this]
  · intro o hm
    simp only [advanceAll, List.map_map] at hm
    obtain ⟨o1, hm1, rfl⟩ := List.mem_map.mp hm
    have := (hv o1 hm1 ds hds hsum hsumr hbl).2
    rw [List.foldl_append] at this
    exact this

/-- The time remaining fits in the times of a spline. -/
theorem bound_le {pb : Playback} (hrate : 0 ≤ pb.rate) {l : List (Op splineDriver)} (hl : ∀ o ∈ l, Bound pb o) {dts : List ℤ} (hd : Paced dts) :
    timeRemaining (advanceAll l dts) ≤ 65535 := by
  obtain ⟨-, -, h⟩ := C66_matrix_time_remaining (advanceAll l dts)
  rcases h with h | ⟨o, hm, m, h1, h2⟩
  · omega
  · obtain ⟨o1, hm1, rfl⟩ := List.mem_map.mp hm
    rcases hl o1 hm1 with h | ⟨p, e, r, E, bl, g1, g2, g3, g4, g5⟩
    · rw [foldl_op, h] at h1; cases h1
    · obtain ⟨p1, a1, a2, -⟩ := g5 dts hd
      rw [foldl_some g1 a1] at h1
      cases h1
      have h3 : timeRemaining (advanceAll l dts) = toTime (e - dts.sum * r) := by simpa [a2] using h2
      have hS : (0 : ℝ) ≤ dts.sum := by exact_mod_cast (List.sum_nonneg fun x hx => (hd x hx).1.le : 0 ≤ dts.sum)
      have hr : 0 ≤ r := by rcases g2 with rfl | rfl <;> [exact zero_le_one; exact hrate]
      have h4 : e - dts.sum * r ≤ 65535 := by linarith [mul_nonneg hS hr]
      rw [h3]
      unfold toTime
      split_ifs
      · have h5 : ⌊e - dts.sum * r⌋ ≤ ⌊(65535 : ℝ)⌋ := Int.floor_mono h4
        have h6 : ⌊(65535 : ℝ)⌋ = 65535 := by norm_num
        omega
      · exact Int.ceil_le.mpr (by rw [Int.cast_ofNat]; exact h4)

/-- The time remaining counts down. -/
theorem bound_counts {pb : Playback} (hrate : pb.rate = 1) {l : List (Op splineDriver)} (hl : ∀ o ∈ l, Bound pb o) {dts ds : List ℤ}
    (hd : Paced dts) (hds : Paced ds) :
    timeRemaining (advanceAll (advanceAll l dts) ds) = max 0 (timeRemaining (advanceAll l dts) - ds.sum) := by
  have hS : 0 ≤ ds.sum := List.sum_nonneg fun x hx => (hds x hx).1.le
  have hall : Paced (dts ++ ds) := by
    intro d hdd
    rcases List.mem_append.mp hdd with h | h
    · exact hd d h
    · exact hds d h
  have key : ∀ o ∈ l, o.motivator = none ∨ ∃ (x : ℝ) (p1 p2 : Player), (dts.foldl Op.advance o).motivator = some (some p1) ∧
      (ds.foldl Op.advance (dts.foldl Op.advance o)).motivator = some (some p2) ∧
      p1.targetTime = some (toTime x) ∧ p2.targetTime = some (toTime (x - ds.sum)) := by
    intro o hm
    rcases hl o hm with h | ⟨p, e, r, E, bl, h1, h2, h3, h4⟩
    · exact .inl h
    · have hr : r = 1 := by rcases h2 with rfl | rfl <;> [rfl; exact hrate]
      subst hr
      obtain ⟨p1, a1, a2, -⟩ := h4.2 dts hd
      obtain ⟨p2, b1, b2, -⟩ := h4.2 (dts ++ ds) hall
      refine .inr ⟨e - dts.sum * 1, p1, p2, by rw [foldl_some h1 a1], ?_, a2, ?_⟩
      · rw [← List.foldl_append, foldl_some h1 b1]
      · rw [b2]
        congr 2
        rw [List.sum_append]; push_cast; ring
  obtain ⟨a0, a1, a2⟩ := C66_matrix_time_remaining (advanceAll l dts)
  obtain ⟨b0, b1, b2⟩ := C66_matrix_time_remaining (advanceAll (advanceAll l dts) ds)
  set T := timeRemaining (advanceAll l dts) with hT
  set T' := timeRemaining (advanceAll (advanceAll l dts) ds) with hT'
  have hmem : ∀ o ∈ l, dts.foldl Op.advance o ∈ advanceAll l dts := fun o hm => List.mem_map_of_mem hm
  have hmem' : ∀ o ∈ l, ds.foldl Op.advance (dts.foldl Op.advance o) ∈ advanceAll (advanceAll l dts) ds := fun o hm =>
    List.mem_map_of_mem (hmem o hm)
  have hnone : ∀ o : Op splineDriver, o.motivator = none → ∀ xs : List ℤ, (xs.foldl Op.advance o).motivator = none := by
    intro o h xs; rw [foldl_op, h]; rfl
  apply le_antisymm
  · rcases b2 with h | ⟨o, hm, m, h1, h2⟩
    · rw [h]; exact le_max_left _ _
    · obtain ⟨o1, hm1, rfl⟩ := List.mem_map.mp hm
      obtain ⟨o2, hm2, rfl⟩ := List.mem_map.mp hm1
      rcases key o2 hm2 with h | ⟨x, p1, p2, c1, c2, c3, c4⟩
      · rw [hnone _ (hnone _ h dts) ds] at h1; cases h1
      · rw [c2] at h1; cases h1
        have hle : toTime x ≤ T := by
          have := a1 _ (hmem o2 hm2) (some p1) c1
          simpa [c3] using this
        have h2 : T' = toTime (x - ds.sum) := by simpa [c4] using h2
        have hlt := toTime_lt hle a0
        rw [h2]
        unfold toTime
        split_ifs with hx
        · refine le_trans ?_ (le_max_right _ _)
          rw [Int.floor_sub_intCast]
          have : ⌊x⌋ < T + 1 := Int.floor_lt.mpr (by push_cast; exact hlt)
          omega
        · refine le_trans ?_ (le_max_left _ _)
          exact Int.ceil_le.mpr (by rw [Int.cast_zero]; exact (not_le.mp hx).le)
  · rw [max_le_iff]
    refine ⟨b0, ?_⟩
    rcases a2 with h | ⟨o, hm, m, h1, h2⟩
    · omega
    · obtain ⟨o2, hm2, rfl⟩ := List.mem_map.mp hm
      rcases key o2 hm2 with h | ⟨x, p1, p2, c1, c2, c3, c4⟩
      · rw [hnone _ h dts] at h1; cases h1
      · rw [c1] at h1; cases h1
        have h2 : T = toTime x := by simpa [c3] using h2
        by_cases hneg : T - ds.sum ≤ 0
        · omega
        · have hx : 0 ≤ x := by
            by_contra hx
            unfold toTime at h2
            rw [if_neg hx] at h2
            have : ⌈x⌉ ≤ 0 := Int.ceil_le.mpr (by push_cast; linarith)
            omega
          unfold toTime at h2
          rw [if_pos hx] at h2
          have hle : toTime (x - ds.sum) ≤ T' := by
            have := b1 _ (hmem' o2 hm2) (some p2) c2
            simpa [c4] using this
          unfold toTime at hle
          have h5 : ⌊x - (ds.sum : ℝ)⌋ = T - ds.sum := by rw [Int.floor_sub_intCast, h2]
          have h6 : 0 ≤ x - (ds.sum : ℝ) := Int.floor_nonneg.mp (by rw [h5]; omega)
          rw [if_pos h6, h5] at hle
          exact hle

/-! ### Theorems -/

/-- C108: a matrix motivator plays a clip that does not repeat, at a rate of 1. `TimeRemaining` counts down: if it is `T`, and frames pass, `S` in
all, then it is `T - S`, and 0 after that. -/
theorem C108_counts_down {kind : ℕ → OpType} {ops : List (Op splineDriver)} (ho : Works Supported kind ops)
    {new : List (OpInit splineDriver)} {pb : Playback} {dts : List ℤ} (h : Clip Supported kind new pb dts) (hrep : pb.repeating = false)
    (hrate : pb.rate = 1) (hb : pb.blendX ≤ 65535) (hf : ∀ n ∈ new, FineGrained n) {l : List (Op splineDriver)}
    (hl : stage ops (new, pb, dts) = some l) {ds : List ℤ} (hds : Paced ds) :
    timeRemaining (advanceAll l ds) = max 0 (timeRemaining l - ds.sum) := by
  obtain ⟨l0, h0, rfl⟩ := Option.map_eq_some_iff.mp hl
  exact bound_counts hrate (merge_bound ho h hrep hb hf (supported_not_quat h.supported) h0) h.frames hds

/-- C108: a matrix motivator plays a clip that does not repeat. When it says that the time remaining is `T`, which does not take the playback rate
into account, then from two units after `T` on, both of time and of the clip, and when the blend is over, the matrix is always the same, and no
operation moves. -/
theorem C108_rest {kind : ℕ → OpType} {ops : List (Op splineDriver)} (ho : Works Supported kind ops)
    {new : List (OpInit splineDriver)} {pb : Playback} {dts : List ℤ} (h : Clip Supported kind new pb dts) (hrep : pb.repeating = false)
    (hb : pb.blendX ≤ 65535) (hf : ∀ n ∈ new, FineGrained n) {l : List (Op splineDriver)} (hl : stage ops (new, pb, dts) = some l) :
    ∃ m, ∀ ds, Paced ds → timeRemaining l + 2 ≤ ds.sum → timeRemaining l + 2 ≤ ds.sum * pb.rate → pb.blendX = 0 ∨ pb.blendX < dts.sum + ds.sum →
      calculate (readOps (advanceAll l ds)) = some m ∧ ∀ o ∈ advanceAll l ds, o.velocity = 0 := by
  obtain ⟨l0, h0, rfl⟩ := Option.map_eq_some_iff.mp hl
  obtain ⟨vs, hvs⟩ := bound_rests (merge_bound ho h hrep hb hf (supported_not_quat h.supported) h0) h.frames
  obtain ⟨l1, e1, -, e3, e4⟩ := C43_merge OpType.isQuat ops new pb h.blend ho.ascending h.ascending h.made (supported_not_quat h.supported)
  -- the operations are supported, so the matrix exists
  obtain ⟨l2, f1, f2, -, -⟩ := merge_shows ho h OpType.isQuat (supported_not_quat h.supported)
  rw [show (blendToOps OpType.isQuat new pb ops).map (fun l => advanceAll l dts) = some (advanceAll l0 dts) from hl] at f1
  cases f1
  refine ⟨((vs.map elementary).prod, (vs.map scaling).prod), fun ds hds hsum hsumr hbl => ?_⟩
  obtain ⟨g1, g2⟩ := hvs ds hds hsum hsumr hbl
  refine ⟨?_, g2⟩
  rw [C42_result_is_product _ (by
    intro op hop
    obtain ⟨o, ho', rfl⟩ := List.mem_map.mp hop
    obtain ⟨o1, h1, rfl⟩ := List.mem_map.mp ho'
    rw [foldl_type]
    exact f2.supported o1 h1), g1]

/-! ### Cases -/

/-- A rotation that a spline drives, a constant scale and a target, blended to from a translation that moves: the hypotheses of the theorems hold. -/
example : ∃ (kind : ℕ → OpType) (ops l : List (Op splineDriver)) (new : List (OpInit splineDriver)) (pb : Playback) (dts : List ℤ),
    Works Supported kind ops ∧ (∃ o ∈ ops, o.motivator.isSome ∧ o.velocity = 3) ∧ Clip Supported kind new pb dts ∧ pb.repeating = false ∧ pb.rate = 1 ∧
    pb.blendX = 100 ∧ (∃ n ∈ new, ∃ s, n.union = .spline s) ∧ (∃ n ∈ new, ∃ t, n.union = .target t) ∧ (∀ n ∈ new, FineGrained n) ∧
    stage ops (new, pb, dts) = some l ∧ ∃ ds, Paced ds ∧ timeRemaining l + 2 ≤ ds.sum := by
  have hw : Works Supported (fun i => if i = 1 then .translateX else if i = 5 then .rotateZ else if i = 8 then .scaleX else .translateY)
      [⟨1, .translateX, some (some ⟨fun _ => none, { spline := some 1, y := 7, cubic := ⟨0, 0, 3, 7⟩ }⟩), 0⟩, ⟨8, .scaleX, none, 4⟩] := by
    refine ⟨by simp [Ascending], by simp [Supported, OpType.isTranslate, OpType.isScale], by simp, ?_⟩
    intro o ho
    simp only [List.mem_cons, List.not_mem_nil, or_false] at ho
    rcases ho with rfl | rfl
    · intro m hm
      simp only [Option.some.injEq] at hm
      subst hm
      exact ⟨_, rfl, rfl, rfl, by simp⟩
    · simp [Ready]
  have hf : ∀ n ∈ ([⟨some ⟨-Real.pi, Real.pi⟩, 5, .rotateZ, .spline Spline.sample⟩, ⟨none, 8, .scaleX, .initial 2⟩,
      ⟨some ⟨1, 0⟩, 9, .translateY, .target ⟨[⟨1, 0, 10, .closest⟩, ⟨7, 0, 40, .closest⟩]⟩⟩] : List (OpInit splineDriver)), FineGrained n := by
    intro n hn
    simp only [List.mem_cons, List.not_mem_nil, or_false] at hn
    rcases hn with rfl | rfl | rfl
    · show Spline.sample.g ≤ 1
      norm_num [Spline.sample]
    · trivial
    · intro e he
      simp only [Target.endTime, List.getLast?_cons_cons, List.getLast?_singleton, Option.map_some, Option.some.injEq] at he
      omega
  have hc : Clip Supported (fun i => if i = 1 then .translateX else if i = 5 then .rotateZ else if i = 8 then .scaleX else .translateY)
      [⟨some ⟨-Real.pi, Real.pi⟩, 5, .rotateZ, .spline Spline.sample⟩, ⟨none, 8, .scaleX, .initial 2⟩,
      ⟨some ⟨1, 0⟩, 9, .translateY, .target ⟨[⟨1, 0, 10, .closest⟩, ⟨7, 0, 40, .closest⟩]⟩⟩] { startX := 1, blendX := 100 } [16, 17] := by
    refine ⟨by norm_num, by norm_num, by norm_num, ?_, by simp [Ascending],
      by simp [Supported, OpType.isRotate, OpType.isScale, OpType.isTranslate], by simp, ?_, by simp [rangeOfOp, OpType.isRotate], ?_⟩
    · intro n hn
      simp only [List.mem_cons, List.not_mem_nil, or_false] at hn
      rcases hn with rfl | rfl | rfl
      · exact .spline _ _ _ _ (by norm_num)
      · exact .const _ _ _ (by norm_num)
      · exact .target _ _ _ _ (by norm_num)
    · intro n hn
      simp only [List.mem_cons, List.not_mem_nil, or_false] at hn
      rcases hn with rfl | rfl | rfl
      · exact ⟨Spline.sample_wf.1, Spline.sample_wf.2, 9, SplineProc.endX_sample, by norm_num, by norm_num [Spline.sample]⟩
      · trivial
      · refine ⟨by simp [Target.WF], ?_, by simp [OpType.isRotate]⟩
        intro e he
        simp only [Target.endTime, List.getLast?_cons_cons, List.getLast?_singleton, Option.map_some, Option.some.injEq] at he
        subst he
        simp
    · intro d hd
      simp only [List.mem_cons, List.not_mem_nil, or_false] at hd
      omega
  obtain ⟨l, h1, -⟩ := merge_shows hw hc OpType.isQuat (supported_not_quat hc.supported)
  obtain ⟨l0, h0, h2⟩ := Option.map_eq_some_iff.mp h1
  have hle := bound_le (by norm_num) (merge_bound hw hc rfl (by norm_num) hf (supported_not_quat hc.supported) h0) hc.frames
  rw [h2] at hle
  refine ⟨_, _, l, _, _, _, hw, ⟨_, List.mem_cons_self .., rfl, by simp [Op.velocity, Slot.derivative, Cubic.deriv]⟩, hc, rfl, rfl, rfl,
    ⟨_, by simp; left; rfl, _, rfl⟩, ⟨_, by simp; right; right; rfl, _, rfl⟩, hf, h1, [32000, 32000, 32000], by simp [Paced], by norm_num; omega⟩

end

end Motive.Matrix4
