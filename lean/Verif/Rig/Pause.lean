import Verif.Rig.Pace
import Verif.SplineProc.Pause

/-!
# C109: a paused rig

`SetPlaybackRate` with a rate of 0 (src/motive/processor/rig_data.h:167-173): after one frame the pose does not change any more.
-/

namespace Motive.Matrix4
open Motive.Targets Motive.Splines Motive.Math Motive.Curve

noncomputable section

/-- The motivator of the operation, if it has one that works, is settled on its spline. -/
def CalmOp (o : Op splineDriver) : Prop := ∀ p : Player, o.motivator = some (some p) → SplineProc.Calm p.heap p.slot

/-- The motivator of the operation, if it has one that works, plays at a rate of 1. -/
def UnitOp (o : Op splineDriver) : Prop := ∀ p : Player, o.motivator = some (some p) → p.slot.rate = 1

theorem initCubic_keeps_rate {hp : Heap} {c c' : Slot} {x : ℝ} (h : c.initCubic hp x = some c') : c'.rate = c.rate := by
  unfold Slot.initCubic at h
  split at h
  · cases h; rfl
  · simp only [Option.bind_eq_some_iff, Option.map_eq_some_iff] at h
    obtain ⟨_, -, _, -, _, -, _, -, rfl⟩ := h
    rfl

theorem setSpline_rate {hp : Heap} {c c' : Slot} {id : ℕ} {p : Motive.Splines.Playback} (h : c.setSpline hp id p = some c') : c'.rate = p.rate := by
  unfold Slot.setSpline at h
  obtain ⟨c1, h1, rfl⟩ := Option.map_eq_some_iff.mp h
  change c1.rate = _
  split_ifs at h1
  · simp only [Slot.blendTo, Option.bind_eq_some_iff, Option.map_eq_some_iff] at h1
    obtain ⟨_, -, _, -, _, -, _, -, rfl⟩ := h1
    rfl
  · exact initCubic_keeps_rate h1

theorem target_unit {p p' : Player} {t : Target ℝ} (h : p.setTarget t = some p') : p'.slot.rate = 1 := by
  simp only [Player.setTarget, Option.map_eq_some_iff] at h
  obtain ⟨⟨h', c'⟩, h, rfl⟩ := h
  simp only [Targets.setTarget, Option.bind_eq_some_iff, Option.map_eq_some_iff, Prod.mk.injEq] at h
  obtain ⟨loc, -, s, hs, c1, hc1, rfl, rfl⟩ := h
  exact setSpline_rate hc1

theorem target_unitOp {o : Op splineDriver} {m : Option Player} {t : Target ℝ} (h : o.motivator = some (splineDriver.setTarget m t)) : UnitOp o := by
  intro p hp
  rw [h] at hp
  have hp := Option.some.inj hp
  obtain ⟨p0, -, h2⟩ := Option.bind_eq_some_iff.mp hp
  exact target_unit h2

theorem driven_unit {pb : Playback} (hrate : pb.rate = 1) {o o' : Op splineDriver} {n : OpInit splineDriver} (ha : Asks pb n) (h : Driven pb o n o') :
    UnitOp o' := by
  obtain ⟨-, -, h3⟩ := h
  unfold Asks at ha
  cases hu : n.union with
  | empty => rw [hu] at ha; exact absurd ha (by simp)
  | initial v =>
    rw [hu] at h3
    rcases h3 with ⟨h4, -⟩ | ⟨m, -, h5⟩
    · intro p hp; rw [h4] at hp; cases hp
    · exact target_unitOp h5
  | target t =>
    rw [hu] at h3
    obtain ⟨m, -, h5⟩ := h3
    exact target_unitOp h5
  | spline s =>
    rw [hu] at h3
    obtain ⟨m, -, h5⟩ := h3
    intro p hp
    rw [h5] at hp
    have hp := Option.some.inj hp
    obtain ⟨p0, -, h2⟩ := Option.bind_eq_some_iff.mp hp
    simp only [Player.setSpline, Option.map_eq_some_iff] at h2
    obtain ⟨c, hc, rfl⟩ := h2
    exact (setSpline_rate hc).trans hrate

theorem relaxed_unit {pb : Playback} {o o' : Op splineDriver} (h : Relaxed pb o o') : UnitOp o' := by
  obtain ⟨-, -, h3⟩ := h
  rcases h3 with ⟨-, h4, -⟩ | ⟨m, -, h5⟩
  · intro p hp; rw [h4] at hp; cases hp
  · exact target_unitOp h5

theorem advance_unit {o : Op splineDriver} (h : UnitOp o) (d : ℤ) : UnitOp (o.advance d) := by
  intro p hp
  obtain ⟨m, h1, h2⟩ := Option.map_eq_some_iff.mp hp
  obtain ⟨q, h3, h4⟩ := Option.bind_eq_some_iff.mp h2
  obtain ⟨c, h5, rfl⟩ := Option.map_eq_some_iff.mp h4
  subst h3
  change c.rate = 1
  rw [← h q h1]
  unfold Slot.advance at h5
  obtain ⟨c1, h6, rfl⟩ := Option.map_eq_some_iff.mp h5
  simp only at h6
  split_ifs at h6
  · obtain ⟨x, -, h7⟩ := Option.bind_eq_some_iff.mp h6
    have := initCubic_keeps_rate h7
    exact this
  · cases h6; rfl

theorem foldl_unit (dts : List ℤ) : ∀ {o : Op splineDriver}, UnitOp o → UnitOp (dts.foldl Op.advance o) := by
  induction dts with
  | nil => intro o h; exact h
  | cons d dts ih => intro o h; exact ih (advance_unit h d)

theorem rate_unit {o : Op splineDriver} (h : UnitOp o) : rateOp 1 o = o := by
  obtain ⟨i, t, m, c⟩ := o
  unfold rateOp
  congr 1
  cases m with
  | none => rfl
  | some m =>
    cases m with
    | none => rfl
    | some p =>
      have := h p rfl
      obtain ⟨hp, c⟩ := p
      simp only at this
      simp only [Option.map_some]
      rw [← this]

theorem target_calm {p p' : Player} {t : Target ℝ} (ht : t.WF) (h : p.setTarget t = some p') : SplineProc.Calm p'.heap p'.slot := by
  simp only [Player.setTarget, Option.map_eq_some_iff] at h
  obtain ⟨⟨h', c'⟩, h, rfl⟩ := h
  simp only [Targets.setTarget, Option.bind_eq_some_iff, Option.map_eq_some_iff, Prod.mk.injEq] at h
  obtain ⟨loc, -, s, hs, c1, hc1, rfl, rfl⟩ := h
  simp only [targetSpline, Option.bind_eq_some_iff] at hs
  obtain ⟨n0, hn0, y0, -, e, he, r, -, s1, h1, h2⟩ := hs
  have hgp := recommendG_pos e
  obtain ⟨w, f, l, -, ⟨m, -, hlast⟩, -⟩ := Spline.addNode_spec (Spline.wf_init loc r hgp) h1
  obtain ⟨g1, g2, g3, g4⟩ := nodeLoop_wf p.slot _ s1 s y0 w (by intro h0; rw [h0] at hlast; simp at hlast) h2
  have hlen : (rest p.slot t n0).length ≤ 3 := by
    have := ht.2.1
    unfold rest
    split_ifs
    · rw [List.length_drop]; omega
    · omega
  have hidx : s.Indexable := by
    refine ⟨List.length_pos_iff.mpr g3, ?_⟩
    have : s1.nodes.length ≤ 2 := by simpa [Spline.init] using l
    omega
  exact SplineProc.setSpline_calm g1 hidx (by simp) (by norm_num) hc1

theorem spline_calm {p p' : Player} {pb : Playback} (hrate : 0 < pb.rate) {s : Spline} (hs : Fits pb s) (h : p.setSpline s pb = some p') :
    SplineProc.Calm p'.heap p'.slot := by
  simp only [Player.setSpline, Option.map_eq_some_iff] at h
  obtain ⟨c, hc, rfl⟩ := h
  exact SplineProc.setSpline_calm hs.wf hs.indexable (by simp) (fun _ => hrate.le) hc

theorem target_calmOp {o : Op splineDriver} {m : Option Player} {t : Target ℝ} (ht : t.WF) (h : o.motivator = some (splineDriver.setTarget m t)) : CalmOp o := by
  intro p hp
  rw [h] at hp
  have hp := Option.some.inj hp
  obtain ⟨p0, -, h2⟩ := Option.bind_eq_some_iff.mp hp
  exact target_calm ht h2

theorem driven_calm {pb : Playback} (hb : 0 ≤ pb.blendX) (hrate : 0 < pb.rate) {o o' : Op splineDriver} {n : OpInit splineDriver}
    (ha : Asks pb n) (h : Driven pb o n o') : CalmOp o' := by
  obtain ⟨-, -, h3⟩ := h
  unfold Asks at ha
  cases hu : n.union with
  | empty => rw [hu] at ha; exact absurd ha (by simp)
  | initial v =>
    rw [hu] at h3
    rcases h3 with ⟨h4, -⟩ | ⟨m, -, h5⟩
    · intro p hp; rw [h4] at hp; cases hp
    · exact target_calmOp (reach_one o.type v (Int.floor_nonneg.mpr hb)).1 h5
  | target t =>
    rw [hu] at h3 ha
    obtain ⟨m, -, h5⟩ := h3
    exact target_calmOp ha.1 h5
  | spline s =>
    rw [hu] at h3 ha
    obtain ⟨m, -, h5⟩ := h3
    intro p hp
    rw [h5] at hp
    have hp := Option.some.inj hp
    obtain ⟨p0, -, h2⟩ := Option.bind_eq_some_iff.mp hp
    exact spline_calm hrate ha h2

theorem relaxed_calm {pb : Playback} (hb : 0 ≤ pb.blendX) {o o' : Op splineDriver} (h : Relaxed pb o o') : CalmOp o' := by
  obtain ⟨-, -, h3⟩ := h
  rcases h3 with ⟨-, h4, -⟩ | ⟨m, -, h5⟩
  · intro p hp; rw [h4] at hp; cases hp
  · exact target_calmOp (reach_one o.type o.type.default (Int.floor_nonneg.mpr hb)).1 h5

/-- All the operations after `BlendToOps`. -/
theorem merge_calm {S : OpType → Prop} {kind : ℕ → OpType} {ops : List (Op splineDriver)} (ho : Ascending (ops.map (·.id)))
    {new : List (OpInit splineDriver)} {pb : Playback} {dts : List ℤ} (h : Clip S kind new pb dts)
    {bad : OpType → Bool} (hbad : ∀ n ∈ new, bad n.type = false)
    {l : List (Op splineDriver)} (hl : blendToOps bad new pb ops = some l) : ∀ o ∈ l, CalmOp o ∧ (pb.rate = 1 → UnitOp o) := by
  obtain ⟨l', h1, -, -, h4⟩ := C43_merge bad ops new pb h.blend ho h.ascending h.made hbad
  rw [hl] at h1; cases h1
  intro o hm
  rcases h4 o hm with ⟨a, ha, b, hb, e, hd⟩ | ⟨a, ha, hb, hd⟩ | ⟨b, hb, ha, a, e, hd⟩
  · exact ⟨driven_calm h.blend h.rate (h.asks b hb) hd, fun h1 => driven_unit h1 (h.asks b hb) hd⟩
  · exact ⟨relaxed_calm h.blend hd, fun _ => relaxed_unit hd⟩
  · exact ⟨driven_calm h.blend h.rate (h.asks b hb) hd, fun h1 => driven_unit h1 (h.asks b hb) hd⟩

/-- The operations of an SQT motivator after `BlendToOps`. -/
theorem sqt_calm {kind : ℕ → OpType} {ops : List (Op splineDriver)} (ho : Ascending (ops.map (·.id))) {new : List (OpInit splineDriver)}
    {pb : Playback} {dts : List ℤ} (h : Clip SqtSupported kind new pb dts)
    {rotation : Quat} {starts : List (OpType × ℝ)} {q : Quat} (hs : StartsAt new starts) (hq : Describes starts q)
    (h0 : q ≠ ⟨0, 0, 0, 0⟩) {l : List (Op splineDriver)} (hl : blendToOpsSqt rotation new pb ops = some l) : ∀ o ∈ l, CalmOp o ∧ (pb.rate = 1 → UnitOp o) := by
  have hbad : ∀ n ∈ new, OpType.isRotate n.type = false := by
    intro n hn
    have := h.supported n hn
    revert this
    cases n.type <;> simp [SqtSupported, OpType.isQuat, OpType.isRotate, OpType.isTranslate, OpType.isScale]
  have hal := align_spline (ops := ops) (rotation := rotation) hs hq h0
  have hw : Ascending ((if rotation.dot q < 0 then ops.map Op.negate else ops).map (·.id)) := by
    split_ifs
    · have : (ops.map Op.negate).map (·.id) = ops.map (·.id) := by
        rw [List.map_map]; exact List.map_congr_left fun o _ => negate_id o
      rw [this]; exact ho
    · exact ho
  rw [blendToOpsSqt, hal, Option.bind_some] at hl
  exact merge_calm hw h hbad hl

theorem advance_calmOp {o : Op splineDriver} (h : CalmOp o) (d : ℤ) : CalmOp (o.advance d) := by
  intro p hp
  obtain ⟨m, h1, h2⟩ := Option.map_eq_some_iff.mp hp
  obtain ⟨q, h3, h4⟩ := Option.bind_eq_some_iff.mp h2
  obtain ⟨c, h5, rfl⟩ := Option.map_eq_some_iff.mp h4
  subst h3
  exact SplineProc.advance_calm (h q h1) h5

theorem foldl_calmOp (dts : List ℤ) : ∀ {o : Op splineDriver}, CalmOp o → CalmOp (dts.foldl Op.advance o) := by
  induction dts with
  | nil => intro o h; exact h
  | cons d dts ih => intro o h; exact ih (advance_calmOp h d)

theorem rate_calmOp {o : Op splineDriver} (h : CalmOp o) (c : ℝ) : CalmOp (rateOp c o) := by
  intro p hp
  obtain ⟨m, h1, h2⟩ := Option.map_eq_some_iff.mp hp
  obtain ⟨q, h3, rfl⟩ := Option.map_eq_some_iff.mp h2
  subst h3
  exact h q h1

/-- A paused operation, after a frame. -/
theorem paused_op {o : Op splineDriver} (h : CalmOp o) (d d' : ℤ) : ((rateOp 0 o).advance d).advance d' = (rateOp 0 o).advance d := by
  unfold rateOp Op.advance
  simp only [Option.map_map]
  congr 1
  cases hm : o.motivator with
  | none => rfl
  | some m =>
    cases m with
    | none => rfl
    | some p =>
      simp only [Option.map_some, Function.comp_apply, Option.bind_some, Player.advance]
      cases e : Slot.advance p.heap (d : ℝ) { p.slot with rate := 0 } with
      | none => rfl
      | some c =>
        have := SplineProc.calm_fixed (c := { p.slot with rate := 0 }) (h p hm) rfl e (d' : ℝ)
        simp only [Option.map_some, Option.bind_some, this]

end
end Motive.Matrix4

namespace Motive.Rig
open Motive.Matrix4

noncomputable section

variable {F : Matrix (Fin 3) (Fin 3) ℝ → Quat}

def CalmRig (r : RigData (boneJoint F)) : Prop := ∀ m : Bone, some m ∈ r.motivators → ∀ o ∈ m.ops, CalmOp o

theorem bone_calm {sq : Bool} {kd : ℕ → OpType} {m m' : Bone} (hs : m.sqt = sq) (hw : Ascending (m.ops.map (·.id)))
    {new : List (OpInit splineDriver)} {pb : Playback} (hc : Clip (Kinds sq) kd new pb [])
    (hq : sq = true → ∃ starts q, StartsAt new starts ∧ Describes starts q ∧ q ≠ ⟨0, 0, 0, 0⟩) (h : m.blend new pb = some m') :
    ∀ o ∈ m'.ops, CalmOp o ∧ (pb.rate = 1 → UnitOp o) := by
  unfold Bone.blend at h
  obtain ⟨l, h1, rfl⟩ := Option.map_eq_some_iff.mp h
  cases sq with
  | true =>
    rw [if_pos hs] at h1
    obtain ⟨starts, q, q1, q2, q3⟩ := hq rfl
    exact sqt_calm hw hc q1 q2 q3 h1
  | false =>
    rw [if_neg (by simp [hs])] at h1
    exact merge_calm hw hc (supported_not_quat hc.supported) h1

theorem rig_calm {sqt : ℕ → Bool} {kind : ℕ → ℕ → OpType} {a : Anim (boneJoint F)} {root : ℕ} {t₀ : ℤ} {r₀ : RigData (boneJoint F)}
    (hp : a.parents.length = a.bones.length) (ho : InOrder a.parents) (h0 : RigData.new a root t₀ = some r₀)
    {pre tail : List (Call F)} {order : Call F} (hs : order.starts ≠ []) (ht : ∀ c ∈ tail, c.starts = [])
    (ha : Allowed sqt kind 0 (pre ++ order :: tail)) {r : RigData (boneJoint F)} {t : ℤ}
    (h : run (r₀, t₀) (pre ++ order :: tail) = some (r, t)) : r.defining = a ∧ r.rootBone = root ∧ CalmRig r ∧
      ((∀ x ∈ order.starts, x.2.rate = 1) → r.setRate 1 = r) := by
  have hd0 : r₀.defining = a ∧ r₀.rootBone = root := by
    obtain ⟨-, -, e, e', -⟩ := update_fields h0
    exact ⟨e, e'⟩
  obtain ⟨⟨old, told⟩, p1, p2⟩ := run_append.mp h
  obtain ⟨⟨r1, t1⟩, p3, p4⟩ := run_cons.mp p2
  obtain ⟨n, i1, a1, d1, b1⟩ := run_inv pre (new_inv hp ho h0 sqt kind) ha p1
  obtain ⟨a2, a3⟩ := allowed_starts hs a1
  obtain ⟨i2, d2, b2, s2⟩ := start_inv i1 hs a2 p3
  obtain ⟨i3, -, d3, b3, pc, s3⟩ := tail_inv tail (rest := []) ht i2 (by rw [List.append_nil]; exact a3) p4
  have hdo : old.defining = a := d1.trans hd0.1
  have hdr : r.defining = a := d3.trans (d2.trans hdo)
  have hno : old.numBones = a.bones.length := by unfold RigData.numBones; rw [hdo]
  have hlen : r.motivators.length = a.bones.length * order.starts.length := by
    rw [i3.reach.shaped.count, i3.count, Nat.max_eq_right (List.length_pos_iff.mpr hs)]
    unfold RigData.numBones; rw [hdr]
  have key : ∀ m : Bone, some m ∈ r.motivators → ∀ o ∈ m.ops, CalmOp o ∧ ((∀ x ∈ order.starts, x.2.rate = 1) → UnitOp o) := by
    intro m hm
    obtain ⟨x, hx, hxm⟩ := List.getElem_of_mem hm
    have hx' := hx
    rw [hlen] at hx
    have hn0 : 0 < a.bones.length := Nat.pos_of_ne_zero fun h => by rw [h, Nat.zero_mul] at hx; omega
    have hi : x / a.bones.length < order.starts.length := Nat.div_lt_of_lt_mul hx
    have hk : x % a.bones.length < a.bones.length := Nat.mod_lt _ hn0
    obtain ⟨b, m0, m1, f1, f2, f3, f4, f5⟩ := s2 _ hi _ (by rw [hno]; exact hk)
    rw [hno, show x / a.bones.length * a.bones.length + x % a.bones.length = x by rw [Nat.mul_comm]; exact Nat.div_add_mod _ _] at f5
    obtain ⟨m2, g1, g2, g3⟩ := s3 _ _ f5
    rw [List.getElem?_eq_getElem hx', hxm] at g1
    cases g1
    obtain ⟨-, hS1, hS2⟩ := a2 _ (List.getElem_mem hi) _ b f1
    have hcalm := bone_calm f3.1 f3.works.ascending hS1 hS2 f4
    intro o ho'
    rw [g3] at ho'
    obtain ⟨o1, h1, rfl⟩ := List.mem_map.mp ho'
    exact ⟨foldl_calmOp _ (hcalm o1 h1).1, fun hu => foldl_unit _ ((hcalm o1 h1).2 (hu _ (List.getElem_mem hi)))⟩
  refine ⟨hdr, b3.trans (b2.trans (b1.trans hd0.2)), fun m hm o ho => (key m hm o ho).1, fun hu => ?_⟩
  have : r.motivators.map (Option.map (rateBone 1)) = r.motivators := by
    conv_rhs => rw [← List.map_id r.motivators]
    apply List.map_congr_left
    intro m hm
    cases m with
    | none => rfl
    | some b =>
      have : b.ops.map (rateOp 1) = b.ops := by
        conv_rhs => rw [← List.map_id b.ops]
        apply List.map_congr_left
        intro o ho
        exact rate_unit ((key b hm o ho).2 hu)
      simp only [Option.map_some, rateBone, this, id]
  unfold RigData.setRate
  exact congrArg (fun ms => { r with motivators := ms }) this

theorem setRate_calm {r : RigData (boneJoint F)} (h : CalmRig r) (c : ℝ) : CalmRig (r.setRate c) := by
  intro m hm o ho
  obtain ⟨m0, h1, h2⟩ := List.mem_map.mp hm
  cases m0 with
  | none => cases h2
  | some b =>
    cases h2
    obtain ⟨o1, h3, rfl⟩ := List.mem_map.mp ho
    exact rate_calmOp (h b h1 o1 h3) c

theorem frame_calm {r r' : RigData (boneJoint F)} (h : CalmRig r) {d : ℤ} (hf : r.frame d = some r') : CalmRig r' := by
  obtain ⟨ms, h1, -, h3, -⟩ := frame_fields hf
  intro m hm o ho
  rw [h3] at hm
  obtain ⟨x, hx, hxm⟩ := List.getElem_of_mem hm
  obtain ⟨l1, l2⟩ := mapM_get _ _ _ h1
  have hx' : x < r.motivators.length := by omega
  obtain ⟨y, y1, y2⟩ := l2 x _ (List.getElem?_eq_getElem hx')
  rw [List.getElem?_eq_getElem hx, hxm] at y1
  cases y1
  cases hb : r.motivators[x] with
  | none => rw [hb] at y2; cases y2
  | some b =>
    rw [hb] at y2
    obtain ⟨b', z1, z2⟩ := Option.map_eq_some_iff.mp y2
    cases z2
    rw [(advance_fields z1).2] at ho
    obtain ⟨o1, h5, rfl⟩ := List.mem_map.mp ho
    exact foldl_calmOp [d] (h b (by rw [← hb]; exact List.getElem_mem hx') o1 h5)

theorem paces_calm : ∀ (l : List (ℝ × ℤ)) {r r' : RigData (boneJoint F)}, CalmRig r → paces r l = some r' →
    CalmRig r' ∧ r'.defining = r.defining ∧ r'.rootBone = r.rootBone := by
  intro l
  induction l with
  | nil => intro r r' h e; cases e; exact ⟨h, rfl, rfl⟩
  | cons x l ih =>
    intro r r' h e
    obtain ⟨c, d⟩ := x
    obtain ⟨r1, h1, h2⟩ := Option.bind_eq_some_iff.mp e
    obtain ⟨ms, -, -, -, -, e1, e2, -⟩ := frame_fields h1
    obtain ⟨a1, a2, a3⟩ := ih (frame_calm (setRate_calm h c) h1) h2
    exact ⟨a1, a2.trans e1, a3.trans e2⟩

theorem run_some (root : ℕ) : ∀ (bones : List (ℕ × Mat4)) (s s' g : Globals), s.out = s'.out → Globals.run root s bones = some g →
    ∃ g', Globals.run root s' bones = some g' := by
  intro bones
  induction bones with
  | nil => intro s s' g _ _; exact ⟨s', rfl⟩
  | cons b bones ih =>
    intro s s' g e h
    simp only [Globals.run, Option.bind_eq_some_iff] at h ⊢
    obtain ⟨s1, h1, h2⟩ := h
    obtain ⟨o, m⟩ := s
    obtain ⟨o', m'⟩ := s'
    simp only at e
    subst e
    have : ∃ s1', Globals.step root ⟨o, m'⟩ b.1 b.2 = some s1' := by
      unfold Globals.step at h1 ⊢
      simp only at h1 ⊢
      split_ifs at h1 ⊢ <;> exact ⟨_, rfl⟩
    obtain ⟨s1', h1'⟩ := this
    obtain ⟨g', hg⟩ := ih s1 s1' g (step_out h1 h1').1 h2
    exact ⟨g', s1', h1', hg⟩

/-- Updating a rig again changes nothing. -/
theorem update_again {r r1 : RigData (boneJoint F)} (hp : r.defining.parents.length = r.numBones) (hroot : r.rootBone < r.numBones)
    (h : RigData.update r = some r1) : RigData.update r1 = some r1 := by
  unfold RigData.update at h
  split at h
  · cases h
  rename_i L hL
  obtain ⟨g, g1, g2⟩ := Option.map_eq_some_iff.mp h
  have hlen : L.length = r.numBones := by
    split_ifs at hL
    · cases hL; simp [RigData.singleLocals]
    · rw [(mapM_get _ _ _ hL).1, List.length_range]
  obtain ⟨g', k1⟩ := run_some r.rootBone _ ⟨[], r.rootMotion⟩ ⟨[], g.rootMotion⟩ g rfl g1
  obtain ⟨k2, k3⟩ := run_out r.rootBone _ ⟨[], r.rootMotion⟩ ⟨[], g.rootMotion⟩ g g' rfl g1 k1
  have k4 := k3 (.inr ⟨by simp, by rw [List.length_zip, hlen, hp]; simpa using hroot⟩)
  have hg : g' = g := by
    cases g; cases g'
    simp only at k2 k4
    rw [k2, k4]
  subst g2
  unfold RigData.update
  change (match (if r.weights.length ≤ 1 then some r.singleLocals else r.blendedLocals) with
    | none => none
    | some locals => _) = _
  rw [hL]
  simp only
  rw [show globals _ _ _ = some g' from k1, hg]
  rfl

theorem bone_again {b b1 : Bone} (h : b.update = some b1) : b1.update = some b1 := by
  obtain ⟨sq, ops, m, ro, sc⟩ := b
  unfold Bone.update at h
  cases sq with
  | true =>
    rw [if_pos rfl] at h
    obtain ⟨x, h1, rfl⟩ := Option.map_eq_some_iff.mp h
    unfold Bone.update
    rw [if_pos rfl]
    change Option.map _ (updateSqt (readOps ops)) = _
    rw [h1]; rfl
  | false =>
    rw [if_neg (by simp)] at h
    obtain ⟨x, h1, rfl⟩ := Option.map_eq_some_iff.mp h
    unfold Bone.update
    rw [if_neg (by simp)]
    change Option.map _ (calculate (readOps ops)) = _
    rw [h1]; rfl

theorem paused_bone {b b1 : Bone} (hb : ∀ o ∈ b.ops, CalmOp o) {d : ℤ} (h : (rateBone 0 b).advance d = some b1) (d' : ℤ) : b1.advance d' = some b1 := by
  obtain ⟨e1, e2⟩ := advance_fields h
  have hops : b1.ops.map (fun o => o.advance d') = b1.ops := by
    rw [e2]
    simp only [advanceAll, List.map_map, rateBone]
    apply List.map_congr_left
    intro o ho
    simp only [Function.comp_apply, List.foldl_cons, List.foldl_nil]
    exact paused_op (hb o ho) d d'
  unfold Bone.advance at h ⊢
  rw [hops]
  change b1.update = some b1
  exact bone_again h

theorem mapM_fixed {α : Type} (f : α → Option α) : ∀ (l : List α), (∀ x ∈ l, f x = some x) → l.mapM f = some l := by
  intro l
  induction l with
  | nil => intro _; rfl
  | cons a l ih =>
    intro h
    rw [List.mapM_cons, h a (by simp), ih fun x hx => h x (by simp [hx])]
    rfl

theorem paused_rig {r r1 : RigData (boneJoint F)} (hr : CalmRig r) (hp : r.defining.parents.length = r.defining.bones.length)
    (hroot : r.rootBone < r.defining.bones.length) {d : ℤ} (h : (r.setRate 0).frame d = some r1) (d' : ℤ) : r1.frame d' = some r1 := by
  obtain ⟨ms, h1, h2, h3, -⟩ := frame_fields h
  have hms : r1.motivators.mapM (fun m => advanceBone m d') = some r1.motivators := by
    apply mapM_fixed
    intro m hm
    rw [h3] at hm
    obtain ⟨x, hx, hxm⟩ := List.getElem_of_mem hm
    obtain ⟨l1, l2⟩ := mapM_get _ _ _ h1
    have hl : (r.setRate 0).motivators.length = r.motivators.length := by unfold RigData.setRate; simp
    have hx' : x < r.motivators.length := by omega
    obtain ⟨y, y1, y2⟩ := l2 x _ (List.getElem?_eq_getElem (by omega))
    rw [List.getElem?_eq_getElem hx, hxm] at y1
    cases y1
    have hget : (r.setRate 0).motivators[x] = (r.motivators[x]).map (rateBone 0) := by
      unfold RigData.setRate
      simp only [List.getElem_map]
      cases r.motivators[x] <;> rfl
    rw [hget] at y2
    cases hb : r.motivators[x] with
    | none => rw [hb] at y2; cases y2; rfl
    | some b =>
      rw [hb] at y2
      obtain ⟨b', z1, z2⟩ := Option.map_eq_some_iff.mp y2
      subst z2
      have := paused_bone (hr b (by rw [← hb]; exact List.getElem_mem hx')) z1 d'
      simp only [advanceBone, this, Option.map_some]
  unfold RigData.frame
  rw [hms, Option.bind_some]
  exact update_again (r := { r.setRate 0 with motivators := ms }) hp hroot h2

/-- **C109.** A rig is paused (`SetPlaybackRate` with 0) after any program that has started animations, and then any frames at any rates. After one frame
nothing changes any more: the rig stays as it is in all frames that follow, whatever their lengths, so that its pose and its root motion do not move. -/
theorem C109_paused_rig {sqt : ℕ → Bool} {kind : ℕ → ℕ → OpType} {a : Anim (boneJoint F)} {root : ℕ} {t₀ : ℤ} {r₀ : RigData (boneJoint F)}
    (hp : a.parents.length = a.bones.length) (ho : InOrder a.parents) (hroot : root < a.bones.length) (h0 : RigData.new a root t₀ = some r₀)
    {pre tail : List (Call F)} {order : Call F} (hs : order.starts ≠ []) (ht : ∀ c ∈ tail, c.starts = [])
    (ha : Allowed sqt kind 0 (pre ++ order :: tail)) {r r' r1 : RigData (boneJoint F)} {t : ℤ}
    (h : run (r₀, t₀) (pre ++ order :: tail) = some (r, t)) {l : List (ℝ × ℤ)} (hl : paces r l = some r') {d : ℤ} (h1 : paces r' [(0, d)] = some r1)
    (d' : ℤ) : r1.frame d' = some r1 := by
  obtain ⟨e1, e2, e3, -⟩ := rig_calm hp ho h0 hs ht ha h
  obtain ⟨f1, f2, f3⟩ := paces_calm l e3 hl
  obtain ⟨r2, g1, g2⟩ := Option.bind_eq_some_iff.mp h1
  cases g2
  exact paused_rig f1 (by rw [f2, e1]; exact hp) (by rw [f2, f3, e1, e2]; exact hroot) g1 d'

/-! ### Cases -/

/-- A frame of a rig of matrix motivators that plays one animation succeeds at any rate. -/
theorem rate_frame_exists {kind : ℕ → ℕ → OpType} {r : RigData (boneJoint F)} (hi : Inv (fun _ => false) kind 1 r) (c : ℝ) (dt : ℤ) :
    ∃ r', (r.setRate c).frame dt = some r' := by
  have hsh := hi.reach.shaped
  have hheal : ∀ m : Bone, some m ∈ r.motivators → ∃ k, Healthy false (kind k) m := by
    intro m hx
    obtain ⟨j, hj, e⟩ := List.getElem_of_mem hx
    have hlen : j < r.numBones * max 1 r.weights.length := by rw [← hsh.count]; exact hj
    have hpos : 0 < r.numBones := by
      rcases Nat.eq_zero_or_pos r.numBones with h0 | h0
      · rw [h0, Nat.zero_mul] at hlen; omega
      · exact h0
    have hm : r.motivators[j / r.numBones * r.numBones + j % r.numBones]? = some (some m) := by
      rw [Nat.mul_comm, Nat.div_add_mod, List.getElem?_eq_getElem hj, e]
    exact ⟨_, hi.healthy _ _ m (Nat.mod_lt _ hpos) hm⟩
  have hm : ∀ x ∈ r.motivators, ∃ y, advanceBone (x.map (rateBone c)) dt = some y ∧ ∀ b, y = some b → IsAffine b.matrix := by
    intro x hx
    cases x with
    | none => exact ⟨none, rfl, by simp⟩
    | some m =>
      obtain ⟨k, hh⟩ := hheal m hx
      have hs : m.sqt = false := hh.1
      have : ∃ b, (rateBone c m).advance dt = some b := by
        unfold Bone.advance Bone.update rateBone
        rw [if_neg (by simp [hs])]
        rw [C42_result_is_product _ (by
          intro x hx
          obtain ⟨o, ho, rfl⟩ := List.mem_map.mp hx
          obtain ⟨o1, ho1, rfl⟩ := List.mem_map.mp ho
          obtain ⟨o2, ho2, rfl⟩ := List.mem_map.mp ho1
          exact hh.works.supported o2 ho2)]
        exact ⟨_, rfl⟩
      obtain ⟨b, hb⟩ := this
      exact ⟨some b, by simp only [Option.map_some, advanceBone, hb], fun b' e => by cases e; exact update_affine hb⟩
  obtain ⟨ms, hms⟩ := mapM_exists (fun m => advanceBone m dt) (r.setRate c).motivators (by
    intro x hx
    obtain ⟨x0, h0, h1⟩ := List.mem_map.mp hx
    obtain ⟨y, y1, -⟩ := hm x0 h0
    have : x = x0.map (rateBone c) := by rw [← h1]; cases x0 <;> rfl
    rw [this, y1]; rfl)
  obtain ⟨l1, l2⟩ := mapM_get _ _ _ hms
  have haff : ∀ x ∈ RigData.singleLocals { r.setRate c with motivators := ms }, IsAffine x := by
    intro x hx
    unfold RigData.singleLocals at hx
    obtain ⟨k, -, rfl⟩ := List.mem_map.mp hx
    split
    · rename_i m hk
      rw [List.getD_eq_getElem?_getD] at hk
      cases hk' : ms[k]? with
      | none => rw [hk'] at hk; cases hk
      | some y =>
        rw [hk'] at hk
        have hy : y = some m := hk
        subst hy
        have hlt : k < (r.setRate c).motivators.length := by rw [← l1]; exact (List.getElem?_eq_some_iff.mp hk').1
        obtain ⟨y, y1, y2⟩ := l2 k _ (List.getElem?_eq_getElem hlt)
        rw [hk'] at y1
        cases y1
        have hmem := List.getElem_mem hlt
        obtain ⟨x0, h0, h1⟩ := List.mem_map.mp hmem
        obtain ⟨y, z1, z2⟩ := hm x0 h0
        have : (r.setRate c).motivators[k] = x0.map (rateBone c) := by rw [← h1]; cases x0 <;> rfl
        rw [this, z1] at y2
        exact z2 m (Option.some.inj y2)
    · exact isAffine_one
  obtain ⟨g, g1, -⟩ := C45_globals r.defining.parents (RigData.singleLocals { r.setRate c with motivators := ms }) r.rootBone r.rootMotion
    (by rw [hsh.parents]; simp [RigData.singleLocals, RigData.numBones, RigData.setRate]) hsh.order haff
  refine ⟨{ r.setRate c with motivators := ms, transforms := g.out, rootMotion := g.rootMotion }, ?_⟩
  unfold RigData.frame
  rw [hms, Option.bind_some]
  unfold RigData.update
  have hw : (r.setRate c).weights.length ≤ 1 := by show r.weights.length ≤ 1; rw [hi.count]
  simp only [hw, if_true]
  change (globals r.rootBone r.rootMotion (r.defining.parents.zip _)).map _ = _
  rw [g1]
  rfl

/-- The hypotheses of the theorems are met: an animation is played for a while; a frame of 16 at a rate of 1 is the same as one of 8 at a rate of 2, and then
the rig is paused. -/
example : ∃ (F : Matrix (Fin 3) (Fin 3) ℝ → Quat) (a : Anim (boneJoint F)) (r₀ r r1 r2 : RigData (boneJoint F)) (t : ℤ) (pre tail : List (Call F))
    (order : Call F) (kind : ℕ → ℕ → OpType), a.parents.length = a.bones.length ∧ InOrder a.parents ∧ 0 < a.bones.length ∧
    RigData.new a 0 7 = some r₀ ∧ order.starts ≠ [] ∧ pre ≠ [] ∧ tail ≠ [] ∧ (∀ c ∈ tail, c.starts = []) ∧
    Allowed (fun _ => false) kind 0 (pre ++ order :: tail) ∧ run (r₀, 7) (pre ++ order :: tail) = some (r, t) ∧
    paces r [(1, 16)] = some r1 ∧ SameProducts [(1, 16)] [(2, 8)] ∧ paces r1 [(0, 16)] = some r2 := by
  have hm : (samplePlay (F := fun _ => .one)).matches samplePlay := ⟨rfl, rfl⟩
  have hal' : Allowed (F := fun _ => .one) (fun _ => false) sampleKind 0 ([.play samplePlay samplePlayback, .frame 16] ++
      .play samplePlay oncePlayback :: [.frame 17]) :=
    ⟨sample_suits, by norm_num, once_suits, by norm_num, trivial⟩
  have hal : Allowed (F := fun _ => .one) (fun _ => false) sampleKind 0 (([.play samplePlay samplePlayback, .frame 16] ++
      .play samplePlay oncePlayback :: [.frame 17]) ++ [.frame 16]) :=
    ⟨sample_suits, by norm_num, once_suits, by norm_num, by norm_num, trivial⟩
  have ho : InOrder (samplePlay (F := fun _ => .one)).parents := by
    unfold InOrder samplePlay kInvalidBoneIdx; decide
  obtain ⟨r₀, r1, t1, h0, h⟩ := C98_runs (by intro _; simp [Quat.one]) 0 7 rfl ho hal (by
    refine ⟨hm, ⟨by norm_num [samplePlay], by norm_num [samplePlay]⟩, by norm_num, hm, ⟨by norm_num [samplePlay], by norm_num [samplePlay]⟩, by norm_num,
      by norm_num, trivial⟩)
  obtain ⟨⟨r, t⟩, h1, h2⟩ := run_append.mp h
  obtain ⟨⟨r3, t3⟩, h3, h4⟩ := run_cons.mp h2
  cases h4
  obtain ⟨r4, h5, h6⟩ := Option.bind_eq_some_iff.mp h3
  obtain ⟨t5, -, h7⟩ := Option.map_eq_some_iff.mp h6
  cases h7
  obtain ⟨-, -, -, hu⟩ := rig_calm rfl ho h0 (by simp [Call.starts]) (by simp [Call.starts]) hal' h1
  have hu := hu (by intro x hx; simp [Call.starts] at hx; subst hx; rfl)
  obtain ⟨⟨r6, t6⟩, j1, j2⟩ := run_append.mp h1
  obtain ⟨⟨r7, t7⟩, j3, j4⟩ := run_cons.mp j2
  obtain ⟨n, i1, i2, -⟩ := run_inv _ (new_inv rfl ho h0 (fun _ => false) sampleKind) hal' j1
  obtain ⟨i3, -⟩ := start_inv i1 (by simp [Call.starts]) (fun x hx => by simp [Call.starts] at hx; subst hx; exact once_suits) j3
  obtain ⟨i4, -⟩ := tail_inv (rest := []) [.frame 17] (by simp [Call.starts]) i3 ⟨by norm_num, trivial⟩ j4
  obtain ⟨r2, h8⟩ := rate_frame_exists (frame_inv i4 (by norm_num) h5) 0 16
  refine ⟨fun _ => .one, samplePlay, r₀, r, r1, r2, t, _, [.frame 17], .play samplePlay oncePlayback, sampleKind, rfl, ho, by norm_num [samplePlay], h0,
    by simp [Call.starts], by simp, by simp, by simp [Call.starts], hal', h1, ?_, List.Forall₂.cons (by norm_num) .nil, ?_⟩
  · simp only [paces, hu, h5, Option.bind_some]
  · simp only [paces, h8, Option.bind_some]

end
end Motive.Rig
