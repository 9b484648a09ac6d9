import Verif.Rig.Clip
import Verif.Matrix.Rest

/-!
# C108 for rigs: what `TimeRemaining` of a rig promises

`TimeRemaining` of a rig (src/motive/processor/rig_data.h:209-218) is the greatest of those of its bones (C66).
-/

namespace Motive.Rig
open Motive.Matrix4

noncomputable section

variable {F : Matrix (Fin 3) (Fin 3) ℝ → Quat}

/-! ### Specification -/

/-- The animation is played once, and its grains of time are not longer than a unit. -/
structure OneShot (a : Anim (boneJoint F)) (pb : Playback) : Prop where
  once : pb.repeating = false
  blend : pb.blendX ≤ 65535
  fine : ∀ b ∈ a.bones, ∀ n ∈ b.ops, FineGrained n

/-! ### Proofs -/

theorem bone_bound {sq : Bool} {kd : ℕ → OpType} {m m' : Bone} (hs : m.sqt = sq) (hw : Works (Kinds sq) kd m.ops)
    {new : List (OpInit splineDriver)} {pb : Playback} (hc : Clip (Kinds sq) kd new pb [])
    (hq : sq = true → ∃ starts q, StartsAt new starts ∧ Describes starts q ∧ q ≠ ⟨0, 0, 0, 0⟩)
    (hrep : pb.repeating = false) (hb : pb.blendX ≤ 65535) (hf : ∀ n ∈ new, FineGrained n) (h : m.blend new pb = some m') :
    ∀ o ∈ m'.ops, Bound pb o := by
  unfold Bone.blend at h
  obtain ⟨l, h1, rfl⟩ := Option.map_eq_some_iff.mp h
  cases sq with
  | true =>
    rw [if_pos hs] at h1
    obtain ⟨starts, q, q1, q2, q3⟩ := hq rfl
    exact sqt_bound hw hc hrep hb hf q1 q2 q3 h1
  | false =>
    rw [if_neg (by simp [hs])] at h1
    exact merge_bound hw hc hrep hb hf (supported_not_quat hc.supported) h1

/-- The rig after some calls that do not start animations. -/
theorem rig_bound {sqt : ℕ → Bool} {kind : ℕ → ℕ → OpType} {a : Anim (boneJoint F)} {root : ℕ} {t₀ : ℤ} {r₀ : RigData (boneJoint F)}
    (hp : a.parents.length = a.bones.length) (ho : InOrder a.parents) (h0 : RigData.new a root t₀ = some r₀)
    {pre tail : List (Call F)} {order : Call F} (hs : order.starts ≠ []) (ht : ∀ c ∈ tail, c.starts = [])
    (ha : Allowed sqt kind 0 (pre ++ order :: tail)) (hone : ∀ x ∈ order.starts, OneShot x.1 x.2) {r : RigData (boneJoint F)} {t : ℤ}
    (h : run (r₀, t₀) (pre ++ order :: tail) = some (r, t)) :
    Inv sqt kind order.starts.length r ∧ r.defining = a ∧ r.rootBone = root ∧ Paced (tail.flatMap Call.time) ∧
      r.motivators.length = a.bones.length * order.starts.length ∧
      ∀ x < r.motivators.length, ∃ m l pb an, r.motivators[x]? = some (some m) ∧ (an, pb) ∈ order.starts ∧
        m.ops = advanceAll l (tail.flatMap Call.time) ∧ ∀ o ∈ l, Bound pb o := by
  have hd0 : r₀.defining = a ∧ r₀.rootBone = root := by
    obtain ⟨-, -, e, e', -⟩ := update_fields h0
    exact ⟨e, e'⟩
  obtain ⟨⟨old, told⟩, p1, p2⟩ := run_append.mp h
  obtain ⟨⟨r1, t1⟩, p3, p4⟩ := run_cons.mp p2
  obtain ⟨n, i1, a1, d1, b1⟩ := run_inv pre (new_inv hp ho h0 sqt kind) ha p1
  obtain ⟨a2, a3⟩ := allowed_starts hs a1
  obtain ⟨i2, d2, b2, s2⟩ := start_inv i1 hs a2 p3
  obtain ⟨i3, -, d3, b3, pc, s3⟩ := tail_inv tail (rest := []) ht i2 (by rw [List.append_nil]; exact a3) p4
  have hdo : old.defining = a := d1.trans hd0.1
  have hdr : r.defining = a := d3.trans (d2.trans hdo)
  have hno : old.numBones = a.bones.length := by unfold RigData.numBones; rw [hdo]
  have hlen : r.motivators.length = a.bones.length * order.starts.length := by
    rw [i3.reach.shaped.count, i3.count, Nat.max_eq_right (List.length_pos_iff.mpr hs)]
    unfold RigData.numBones; rw [hdr]
  refine ⟨i3, hdr, b3.trans (b2.trans (b1.trans hd0.2)), pc, hlen, fun x hx => ?_⟩
  rw [hlen] at hx
  have hn0 : 0 < a.bones.length := Nat.pos_of_ne_zero fun h => by rw [h, Nat.zero_mul] at hx; omega
  have hi : x / a.bones.length < order.starts.length := Nat.div_lt_of_lt_mul hx
  have hk : x % a.bones.length < a.bones.length := Nat.mod_lt _ hn0
  obtain ⟨b, m, m1, f1, f2, f3, f4, f5⟩ := s2 _ hi _ (by rw [hno]; exact hk)
  rw [hno, show x / a.bones.length * a.bones.length + x % a.bones.length = x by rw [Nat.mul_comm]; exact Nat.div_add_mod _ _] at f5
  obtain ⟨m2, g1, g2, g3⟩ := s3 _ _ f5
  have hmem := List.getElem_mem hi
  obtain ⟨-, hS1, hS2⟩ := a2 _ hmem _ b f1
  have ho1 := hone _ hmem
  exact ⟨m2, m1.ops, _, _, g1, hmem, g3, bone_bound f3.1 f3.works hS1 hS2 ho1.once ho1.blend (ho1.fine b (List.mem_of_getElem? f1)) f4⟩

theorem frames_time (ds : List ℤ) : (ds.map (Call.frame (F := F))).flatMap Call.time = ds := by
  induction ds with
  | nil => rfl
  | cons d ds ih => rw [List.map_cons, List.flatMap_cons, ih]; rfl

theorem frames_allowed {sqt : ℕ → Bool} {kind : ℕ → ℕ → OpType} {n : ℕ} : ∀ {ds : List ℤ}, Paced ds →
    Allowed sqt kind n (ds.map (Call.frame (F := F)))
  | [], _ => trivial
  | d :: ds, h => ⟨h d (by simp), frames_allowed fun x hx => h x (by simp [hx])⟩

theorem step_out {root : ℕ} {o : List Affine} {m m' : Affine} {p : ℕ} {loc : Mat4} {s s' : Globals}
    (h : Globals.step root ⟨o, m⟩ p loc = some s) (h' : Globals.step root ⟨o, m'⟩ p loc = some s') :
    s.out = s'.out ∧ s.out.length = o.length + 1 ∧ (m = m' ∨ o.length = root → s.rootMotion = s'.rootMotion) := by
  unfold Globals.step at h h'
  simp only at h h'
  split_ifs at h h' with h1 h2 h3 h4 h5 <;> (cases h; cases h'; simp [*])

theorem run_out (root : ℕ) : ∀ (bones : List (ℕ × Mat4)) (s s' g g' : Globals), s.out = s'.out → Globals.run root s bones = some g →
    Globals.run root s' bones = some g' → g.out = g'.out ∧
      (s.rootMotion = s'.rootMotion ∨ s.out.length ≤ root ∧ root < s.out.length + bones.length → g.rootMotion = g'.rootMotion) := by
  intro bones
  induction bones with
  | nil =>
    intro s s' g g' e h h'
    cases h; cases h'
    refine ⟨e, fun h => ?_⟩
    rcases h with h | h
    · exact h
    · simp at h; omega
  | cons b bones ih =>
    intro s s' g g' e h h'
    simp only [Globals.run, Option.bind_eq_some_iff] at h h'
    obtain ⟨s1, h1, h2⟩ := h
    obtain ⟨s1', h1', h2'⟩ := h'
    obtain ⟨o, m⟩ := s
    obtain ⟨o', m'⟩ := s'
    simp only at e
    subst e
    obtain ⟨a1, a2, a3⟩ := step_out h1 h1'
    obtain ⟨b1, b2⟩ := ih s1 s1' g g' a1 h2 h2'
    refine ⟨b1, fun h => b2 ?_⟩
    simp only [List.length_cons] at h
    rw [a2]
    rcases h with h | h
    · exact .inl (a3 (.inl h))
    · by_cases hr : o.length = root
      · exact .inl (a3 (.inr hr))
      · exact .inr (by omega)

/-- A bone shows what its operations show. -/
theorem bone_same {b c b' c' : Bone} {d e : ℤ} (hb : b.advance d = some b') (hc : c.advance e = some c') (hs : b.sqt = c.sqt)
    (ho : readOps b'.ops = readOps c'.ops) : b'.matrix = c'.matrix ∧ b'.pose F = c'.pose F := by
  obtain ⟨s1, o1⟩ := advance_fields hb
  obtain ⟨s2, o2⟩ := advance_fields hc
  rw [o1, o2] at ho
  have hb' : Bone.update { b with ops := advanceAll b.ops [d] } = some b' := hb
  have hc' : Bone.update { c with ops := advanceAll c.ops [e] } = some c' := hc
  unfold Bone.update at hb' hc'
  simp only [ho] at hb'
  cases h : b.sqt with
  | true =>
    rw [if_pos h] at hb'
    rw [if_pos (by rw [← h, hs])] at hc'
    obtain ⟨x, x1, x2⟩ := Option.map_eq_some_iff.mp hb'
    obtain ⟨y, y1, y2⟩ := Option.map_eq_some_iff.mp hc'
    rw [x1] at y1; cases y1
    subst x2 y2
    simp [Bone.pose, h, hs ▸ h]
  | false =>
    rw [if_neg (by simp [h])] at hb'
    rw [if_neg (by simp [← hs, h])] at hc'
    obtain ⟨x, x1, x2⟩ := Option.map_eq_some_iff.mp hb'
    obtain ⟨y, y1, y2⟩ := Option.map_eq_some_iff.mp hc'
    rw [x1] at y1; cases y1
    subst x2 y2
    simp [Bone.pose, h, hs ▸ h, Bone.unscaled]

theorem frames_weights : ∀ (ds : List ℤ) {r r' : RigData (boneJoint F)} {t t' : ℤ}, run (r, t) (ds.map Call.frame) = some (r', t') →
    r'.weights = r.weights ∧ r'.endTime = r.endTime := by
  intro ds
  induction ds with
  | nil => intro r r' t t' h; cases h; exact ⟨rfl, rfl⟩
  | cons d ds ih =>
    intro r r' t t' h
    obtain ⟨⟨r1, t1⟩, h1, h2⟩ := run_cons.mp h
    obtain ⟨r2, h3, h4⟩ := Option.bind_eq_some_iff.mp h1
    obtain ⟨t3, -, h5⟩ := Option.map_eq_some_iff.mp h4
    cases h5
    obtain ⟨e1, e2⟩ := ih h2
    unfold RigData.frame at h3
    obtain ⟨ms, -, h6⟩ := Option.bind_eq_some_iff.mp h3
    obtain ⟨-, f2, -, -, f5⟩ := update_fields h6
    exact ⟨e1.trans f2, e2.trans f5⟩

/-- The last of some frames. -/
theorem last_frame {sqt : ℕ → Bool} {kind : ℕ → ℕ → OpType} {n : ℕ} {r r' : RigData (boneJoint F)} {t t' : ℤ} (hi : Inv sqt kind n r)
    {ds : List ℤ} (hd : Paced ds) (hne : ds ≠ []) (h : run (r, t) (ds.map Call.frame) = some (r', t')) :
    ∃ (rp : RigData (boneJoint F)) (d : ℤ), rp.frame d = some r' ∧ rp.weights = r.weights ∧ rp.defining = r.defining ∧ rp.rootBone = r.rootBone ∧
      rp.motivators.length = r.motivators.length ∧
      ∀ (x : ℕ) (m : Bone), r.motivators[x]? = some (some m) → ∃ b m' : Bone, rp.motivators[x]? = some (some b) ∧ b.advance d = some m' ∧
        r'.motivators[x]? = some (some m') ∧ b.sqt = m.sqt ∧ m'.ops = advanceAll m.ops ds := by
  obtain ⟨ini, d, rfl⟩ : ∃ ini d, ds = ini ++ [d] := ⟨ds.dropLast, ds.getLast hne, (List.dropLast_append_getLast hne).symm⟩
  rw [List.map_append] at h
  obtain ⟨⟨rp, tp⟩, h1, h2⟩ := run_append.mp h
  obtain ⟨⟨r2, t2⟩, h3, h4⟩ := run_cons.mp h2
  cases h4
  obtain ⟨r3, h5, h6⟩ := Option.bind_eq_some_iff.mp h3
  obtain ⟨t3, -, h7⟩ := Option.map_eq_some_iff.mp h6
  cases h7
  have hini : Paced ini := fun x hx => hd x (by simp [hx])
  obtain ⟨e1, -, e3, e4, -, e6⟩ := tail_inv (rest := []) (ini.map Call.frame) (by intro c hc; obtain ⟨x, -, rfl⟩ := List.mem_map.mp hc; rfl) hi
    (by rw [List.append_nil]; exact frames_allowed hini) h1
  rw [frames_time] at e6
  have hnb : rp.numBones = r.numBones := by unfold RigData.numBones; rw [e3]
  refine ⟨rp, d, h5, (frames_weights ini h1).1, e3, e4, ?_, fun x m hm => ?_⟩
  · rw [e1.reach.shaped.count, hi.reach.shaped.count, hnb, (frames_weights ini h1).1]
  · obtain ⟨b, k1, k2, k3⟩ := e6 x m hm
    obtain ⟨ms, q1, -, q3, -⟩ := frame_fields h5
    obtain ⟨y, y1, y2⟩ := (mapM_get _ _ _ q1).2 _ _ k1
    obtain ⟨m', z1, z2⟩ := Option.map_eq_some_iff.mp y2
    cases z2
    refine ⟨b, m', k1, z1, by rw [q3]; exact y1, k2, ?_⟩
    rw [(advance_fields z1).2, k3, advanceAll_append]

/-- The transforms of a rig are a function of what its motivators show. -/
theorem update_same {r s r' s' : RigData (boneJoint F)} (hw : r.weights = s.weights) (hd : r.defining = s.defining) (hb : r.rootBone = s.rootBone)
    (hm : r.motivators.map (Option.map fun m : Bone => (m.matrix, m.pose F)) = s.motivators.map (Option.map fun m : Bone => (m.matrix, m.pose F)))
    (hr : RigData.update r = some r') (hs : RigData.update s = some s') :
    r'.transforms = s'.transforms ∧ (r.defining.parents.length = r.numBones → r.rootBone < r.numBones →
      r'.rootMotion = s'.rootMotion) := by
  have hnb : r.numBones = s.numBones := by unfold RigData.numBones; rw [hd]
  have hget : ∀ i, (r.motivators.getD i none).map (fun m : Bone => (m.matrix, m.pose F)) =
      (s.motivators.getD i none).map (fun m : Bone => (m.matrix, m.pose F)) := by
    intro i
    have h1 := congrArg (fun l => l.getD i none) hm
    simp only [List.getD_eq_getElem?_getD, List.getElem?_map] at h1 ⊢
    cases h2 : r.motivators[i]? <;> cases h3 : s.motivators[i]? <;> simp_all
  have h1 : r.singleLocals = s.singleLocals := by
    unfold RigData.singleLocals
    rw [hnb]
    apply List.map_congr_left
    intro i _
    have := hget i
    generalize r.motivators.getD i none = x at this
    generalize s.motivators.getD i none = y at this
    cases x <;> cases y <;> simp_all
  have h2 : r.blendedLocals = s.blendedLocals := by
    unfold RigData.blendedLocals
    have : r.bonePoses = s.bonePoses := by
      funext i
      unfold RigData.bonePoses
      rw [hw, hnb]
      apply List.map_congr_left
      intro j _
      have := hget (i + j * s.numBones)
      generalize r.motivators.getD (i + j * s.numBones) none = x at this
      generalize s.motivators.getD (i + j * s.numBones) none = y at this
      cases x <;> cases y <;> simp_all
    rw [hnb, this]
  unfold RigData.update at hr hs
  rw [h1, h2, hw] at hr
  split at hr
  · cases hr
  rename_i L hL
  rw [hL] at hs
  simp only at hs
  obtain ⟨g, g1, g2⟩ := Option.map_eq_some_iff.mp hr
  obtain ⟨g', g1', g2'⟩ := Option.map_eq_some_iff.mp hs
  rw [hd, hb] at g1
  obtain ⟨hout, hrm⟩ := run_out s.rootBone _ ⟨[], r.rootMotion⟩ ⟨[], s.rootMotion⟩ g g' rfl g1 g1'
  refine ⟨by rw [← g2, ← g2']; exact hout, fun hpl hroot => ?_⟩
  rw [← g2, ← g2']
  refine hrm (.inr ⟨by simp, ?_⟩)
  have hlen : L.length = s.numBones := by
    split_ifs at hL
    · cases hL; simp [RigData.singleLocals]
    · rw [(mapM_get _ _ _ hL).1, List.length_range]
  rw [List.length_zip, hlen, ← hd, hpl, ← hb, ← hnb]
  simpa using hroot

/-! ### Theorems -/

/-- C108 for rigs: a program in which the last call that has started animations started ones that are played once (`OneShot`). If the rig says that
the time remaining is `T`, then from two units after `T` on, both of time and of all the animations, and when all blends are over, the pose is always the same: whatever the
frames are, the transforms of all bones and the root motion are equal. -/
theorem C108_rig_rests {sqt : ℕ → Bool} {kind : ℕ → ℕ → OpType} {a : Anim (boneJoint F)} {root : ℕ} {t₀ : ℤ} {r₀ : RigData (boneJoint F)}
    (hp : a.parents.length = a.bones.length) (ho : InOrder a.parents) (h0 : RigData.new a root t₀ = some r₀)
    {pre tail : List (Call F)} {order : Call F} (hs : order.starts ≠ []) (ht : ∀ c ∈ tail, c.starts = [])
    (ha : Allowed sqt kind 0 (pre ++ order :: tail)) (hone : ∀ x ∈ order.starts, OneShot x.1 x.2) {r : RigData (boneJoint F)} {t : ℤ}
    (h : run (r₀, t₀) (pre ++ order :: tail) = some (r, t)) (hend : r.endTime ≠ kMotiveTimeEndless)
    {ds ds' : List ℤ} (hd : Paced ds) (hd' : Paced ds') (hsum : r.timeRemaining + 2 ≤ ds.sum) (hsum' : r.timeRemaining + 2 ≤ ds'.sum)
    (hr : ∀ x ∈ order.starts, r.timeRemaining + 2 ≤ ds.sum * x.2.rate) (hr' : ∀ x ∈ order.starts, r.timeRemaining + 2 ≤ ds'.sum * x.2.rate)
    (hb : ∀ x ∈ order.starts, x.2.blendX = 0 ∨ x.2.blendX < (tail.flatMap Call.time).sum + ds.sum)
    (hb' : ∀ x ∈ order.starts, x.2.blendX = 0 ∨ x.2.blendX < (tail.flatMap Call.time).sum + ds'.sum)
    {r1 r2 : RigData (boneJoint F)} {t1 t2 : ℤ} (h1 : run (r, t) (ds.map .frame) = some (r1, t1)) (h2 : run (r, t) (ds'.map .frame) = some (r2, t2)) :
    r1.transforms = r2.transforms ∧ (root < a.bones.length → r1.rootMotion = r2.rootMotion) := by
  obtain ⟨hi, hdef, hroot, hpt, hlen, hbd⟩ := rig_bound hp ho h0 hs ht ha hone h
  have hT : r.timeRemaining = longest 0 r.motivators := by unfold RigData.timeRemaining; rw [if_neg hend]
  obtain ⟨hT0, hTm, -⟩ := longest_spec r.motivators 0 le_rfl
  rw [← hT] at hT0 hTm
  obtain ⟨rp, d, f1, f2, f3, f4, f5, f6⟩ := last_frame hi hd (by rintro rfl; simp at hsum; omega) h1
  obtain ⟨rq, e, g1, g2, g3, g4, g5, g6⟩ := last_frame hi hd' (by rintro rfl; simp at hsum'; omega) h2
  obtain ⟨ms, p1, p2, p3, -⟩ := frame_fields f1
  obtain ⟨ns, q1, q2, q3, -⟩ := frame_fields g1
  have hml : ms.length = r.motivators.length := (mapM_get _ _ _ p1).1.trans f5
  have hnl : ns.length = r.motivators.length := (mapM_get _ _ _ q1).1.trans g5
  have hsame : ms.map (Option.map fun m : Bone => (m.matrix, m.pose F)) = ns.map (Option.map fun m : Bone => (m.matrix, m.pose F)) := by
    refine List.ext_getElem? fun x => ?_
    rw [List.getElem?_map, List.getElem?_map]
    by_cases hx : x < r.motivators.length
    · obtain ⟨m, l, pb, an, k1, k2, k3, k4⟩ := hbd x hx
      obtain ⟨b, m1, u1, u2, u3, u4, u5⟩ := f6 x m k1
      obtain ⟨c, m2, v1, v2, v3, v4, v5⟩ := g6 x m k1
      have ho2 := hone _ k2
      obtain ⟨vs, hvs⟩ := bound_rests k4 hpt
      have htm : timeRemaining (advanceAll l (tail.flatMap Call.time)) ≤ r.timeRemaining := by
        rw [← k3]
        exact hTm m (List.mem_of_getElem? k1)
      have htr : (timeRemaining (advanceAll l (tail.flatMap Call.time)) : ℝ) ≤ r.timeRemaining := by exact_mod_cast htm
      have w1 := (hvs ds hd (by omega) (by linarith [hr _ k2]) (hb _ k2)).1
      have w2 := (hvs ds' hd' (by omega) (by linarith [hr' _ k2]) (hb' _ k2)).1
      obtain ⟨z1, z2⟩ := bone_same (F := F) u2 v2 (by rw [u4, v4]) (by rw [u5, v5, k3, w1, w2])
      rw [← p3, ← q3, u3, v3]
      simp only [Option.map_some, z1, z2]
    · rw [List.getElem?_eq_none (by omega), List.getElem?_eq_none (by omega)]
  obtain ⟨y1, y2⟩ := update_same (r := { rp with motivators := ms }) (s := { rq with motivators := ns }) (by simp [f2, g2]) (by simp [f3, g3])
    (by simp [f4, g4]) hsame p2 q2
  refine ⟨y1, fun hr => y2 ?_ ?_⟩
  · show rp.defining.parents.length = rp.defining.bones.length
    rw [f3, hdef]; exact hp
  · show rp.rootBone < rp.defining.bones.length
    rw [f3, f4, hdef, hroot]; exact hr

/-- C108 for rigs: if the animations are played at their own speed, `TimeRemaining` counts down by the lengths of the frames, to 0. -/
theorem C108_rig_counts_down {sqt : ℕ → Bool} {kind : ℕ → ℕ → OpType} {a : Anim (boneJoint F)} {root : ℕ} {t₀ : ℤ} {r₀ : RigData (boneJoint F)}
    (hp : a.parents.length = a.bones.length) (ho : InOrder a.parents) (h0 : RigData.new a root t₀ = some r₀)
    {pre tail : List (Call F)} {order : Call F} (hs : order.starts ≠ []) (ht : ∀ c ∈ tail, c.starts = [])
    (ha : Allowed sqt kind 0 (pre ++ order :: tail)) (hone : ∀ x ∈ order.starts, OneShot x.1 x.2 ∧ x.2.rate = 1) {r : RigData (boneJoint F)} {t : ℤ}
    (h : run (r₀, t₀) (pre ++ order :: tail) = some (r, t)) (hend : r.endTime ≠ kMotiveTimeEndless)
    {ds : List ℤ} (hd : Paced ds) {r' : RigData (boneJoint F)} {t' : ℤ} (h' : run (r, t) (ds.map .frame) = some (r', t')) :
    r'.timeRemaining = max 0 (r.timeRemaining - ds.sum) := by
  obtain ⟨hi, hdef, hroot, hpt, hlen, hbd⟩ := rig_bound hp ho h0 hs ht ha (fun x hx => (hone x hx).1) h
  have hS : 0 ≤ ds.sum := List.sum_nonneg fun x hx => (hd x hx).1.le
  have hend' : r'.endTime ≠ kMotiveTimeEndless := by rw [(frames_weights ds h').2]; exact hend
  have hT : r.timeRemaining = longest 0 r.motivators := by unfold RigData.timeRemaining; rw [if_neg hend]
  have hT' : r'.timeRemaining = longest 0 r'.motivators := by unfold RigData.timeRemaining; rw [if_neg hend']
  obtain ⟨a0, a1, a2⟩ := longest_spec r.motivators 0 le_rfl
  obtain ⟨b0, b1, b2⟩ := longest_spec r'.motivators 0 le_rfl
  rw [← hT] at a0 a1 a2
  rw [← hT'] at b0 b1 b2
  obtain ⟨i', -, d', -, -, s'⟩ := tail_inv (rest := []) (ds.map Call.frame) (by intro c hc; obtain ⟨x, -, rfl⟩ := List.mem_map.mp hc; rfl) hi
    (by rw [List.append_nil]; exact frames_allowed hd) h'
  rw [frames_time] at s'
  have hl' : r'.motivators.length = r.motivators.length := by
    rw [i'.reach.shaped.count, hi.reach.shaped.count, (frames_weights ds h').1]
    unfold RigData.numBones
    rw [d']
  have key : ∀ x < r.motivators.length, ∃ m m' : Bone, r.motivators[x]? = some (some m) ∧ r'.motivators[x]? = some (some m') ∧
      timeRemaining m'.ops = max 0 (timeRemaining m.ops - ds.sum) := by
    intro x hx
    obtain ⟨m, l, pb, an, k1, k2, k3, k4⟩ := hbd x hx
    obtain ⟨m', u1, -, u3⟩ := s' x m k1
    refine ⟨m, m', k1, u1, ?_⟩
    rw [u3, k3]
    exact bound_counts (hone _ k2).2 k4 hpt hd
  apply le_antisymm
  · rcases b2 with e | ⟨m, hm, e⟩
    · rw [e]; exact le_max_left _ _
    · obtain ⟨x, hx, hxm⟩ := List.getElem_of_mem hm
      obtain ⟨m0, m1, k1, k2, k3⟩ := key x (by omega)
      rw [List.getElem?_eq_getElem hx, hxm] at k2
      cases k2
      rw [e]
      change timeRemaining m.ops ≤ _
      have : timeRemaining m0.ops ≤ r.timeRemaining := a1 m0 (List.mem_of_getElem? k1)
      rw [k3]
      exact max_le_max le_rfl (by omega)
  · refine max_le b0 ?_
    rcases a2 with e | ⟨m, hm, e⟩
    · omega
    · obtain ⟨x, hx, hxm⟩ := List.getElem_of_mem hm
      obtain ⟨m0, m1, k1, k2, k3⟩ := key x hx
      rw [List.getElem?_eq_getElem hx, hxm] at k1
      cases k1
      have h5 : timeRemaining m1.ops ≤ r'.timeRemaining := b1 m1 (List.mem_of_getElem? k2)
      rw [k3] at h5
      change r.timeRemaining = timeRemaining m.ops at e
      rw [e]
      exact le_trans (le_max_right _ _) h5

/-! ### Cases -/

/-- The playback in the example. -/
def oncePlayback : Playback := { startX := 1, blendX := 100 }

theorem once_suits : Suits (F := F) (fun _ => false) sampleKind samplePlay oncePlayback := by
  intro k b hb
  obtain ⟨h1, h2, h3⟩ := sample_suits (F := F) k b hb
  refine ⟨h1, ⟨by norm_num [oncePlayback], by norm_num [oncePlayback], by norm_num [oncePlayback], h2.made, h2.ascending, h2.supported, h2.typed,
    fun n hn => ?_, h2.range, h2.frames⟩, h3⟩
  have := h2.asks n hn
  have hk : k = 0 ∨ k = 1 := by
    have := (List.getElem?_eq_some_iff.mp hb).1
    simp [samplePlay] at this
    omega
  rcases hk with rfl | rfl
  · have : b = ⟨false, [⟨some ⟨-Real.pi, Real.pi⟩, 5, .rotateZ, .spline Motive.Splines.Spline.sample⟩]⟩ := (Option.some.inj hb).symm
    subst this
    rw [List.mem_singleton] at hn
    subst hn
    exact ⟨Motive.Splines.Spline.sample_wf.1, Motive.Splines.Spline.sample_wf.2, 9, SplineProc.endX_sample, by norm_num,
      by norm_num [Motive.Splines.Spline.sample, oncePlayback]⟩
  · have : b = ⟨false, [⟨none, 8, .scaleX, .initial 2⟩, ⟨some ⟨1, 0⟩, 9, .translateY, .target ⟨[⟨1, 0, 10, .closest⟩, ⟨7, 0, 40, .closest⟩]⟩⟩]⟩ :=
      (Option.some.inj hb).symm
    subst this
    simp only [List.mem_cons, List.not_mem_nil, or_false] at hn
    rcases hn with rfl | rfl
    · trivial
    · exact this

theorem once_oneShot : OneShot (F := F) samplePlay oncePlayback := by
  refine ⟨rfl, by norm_num [oncePlayback], fun b hb n hn => ?_⟩
  simp only [samplePlay, List.mem_cons, List.not_mem_nil, or_false] at hb
  rcases hb with rfl | rfl
  · rw [List.mem_singleton] at hn
    subst hn
    show Motive.Splines.Spline.sample.g ≤ 1
    norm_num [Motive.Splines.Spline.sample]
  · simp only [List.mem_cons, List.not_mem_nil, or_false] at hn
    rcases hn with rfl | rfl
    · trivial
    · intro e he
      simp only [Motive.Targets.Target.endTime, List.getLast?_cons_cons, List.getLast?_singleton, Option.map_some, Option.some.injEq] at he
      omega

/-- The hypotheses of the theorems are met: an animation that repeats is played, then two are blended that do not, and their weights change. -/
example : ∃ (F : Matrix (Fin 3) (Fin 3) ℝ → Quat) (a : Anim (boneJoint F)) (r₀ r r1 : RigData (boneJoint F)) (t t1 : ℤ) (pre tail : List (Call F))
    (order : Call F) (kind : ℕ → ℕ → OpType) (ds : List ℤ), a.parents.length = a.bones.length ∧ InOrder a.parents ∧ RigData.new a 0 7 = some r₀ ∧
    order.starts.length = 2 ∧ pre ≠ [] ∧ tail ≠ [] ∧ (∀ c ∈ tail, c.starts = []) ∧
    Allowed (fun _ => false) kind 0 (pre ++ order :: tail) ∧ (∀ x ∈ order.starts, OneShot x.1 x.2 ∧ x.2.rate = 1) ∧
    run (r₀, 7) (pre ++ order :: tail) = some (r, t) ∧ r.endTime ≠ kMotiveTimeEndless ∧ Paced ds ∧ r.timeRemaining + 2 ≤ ds.sum ∧
    (∀ x ∈ order.starts, x.2.blendX = 0 ∨ x.2.blendX < (tail.flatMap Call.time).sum + ds.sum) ∧ run (r, t) (ds.map .frame) = some (r1, t1) := by
  have hm : (samplePlay (F := fun _ => .one)).matches samplePlay := ⟨rfl, rfl⟩
  have hpac : Paced [32000, 32000, 32000] := by simp [Paced]
  have hal : Allowed (F := fun _ => .one) (fun _ => false) sampleKind 0 (([.play samplePlay samplePlayback, .frame 16] ++
      .blend [(samplePlay, oncePlayback, 1), (samplePlay, oncePlayback, 3)] :: [.frame 17, .weights [3, 2]]) ++ [32000, 32000, 32000].map .frame) :=
    ⟨sample_suits, by norm_num, by intro x hx; simp at hx; rcases hx with rfl | rfl <;> exact once_suits, by norm_num, by simp, frames_allowed hpac⟩
  have ho : InOrder (samplePlay (F := fun _ => .one)).parents := by
    unfold InOrder samplePlay kInvalidBoneIdx; decide
  obtain ⟨r₀, r1, t1, h0, h⟩ := C98_runs (by intro _; simp [Quat.one]) 0 7 rfl ho hal (by
    refine ⟨hm, ⟨by norm_num [samplePlay], by norm_num [samplePlay]⟩, by norm_num, ?_, ⟨_, rfl, by norm_num⟩, ?_, by norm_num, ⟨by norm_num, _, rfl, by norm_num⟩,
      by norm_num, by norm_num, by norm_num, trivial⟩
    · intro x hx
      simp at hx
      rcases hx with rfl | rfl <;> exact ⟨hm, by norm_num⟩
    · intro e he
      simp [samplePlay] at he
      rcases he with rfl | rfl <;> norm_num)
  obtain ⟨⟨r, t⟩, h1, h2⟩ := run_append.mp h
  have hal' : Allowed (F := fun _ => .one) (fun _ => false) sampleKind 0 ([.play samplePlay samplePlayback, .frame 16] ++
      .blend [(samplePlay, oncePlayback, 1), (samplePlay, oncePlayback, 3)] :: [.frame 17, .weights [3, 2]]) :=
    ⟨sample_suits, by norm_num, by intro x hx; simp at hx; rcases hx with rfl | rfl <;> exact once_suits, by norm_num, by simp, trivial⟩
  have hone : ∀ x ∈ Call.starts (F := fun _ => .one) (.blend [(samplePlay, oncePlayback, 1), (samplePlay, oncePlayback, 3)]),
      OneShot x.1 x.2 ∧ x.2.rate = 1 := by
    intro x hx
    simp [Call.starts] at hx
    subst hx
    exact ⟨once_oneShot, rfl⟩
  have hend : r.endTime ≠ kMotiveTimeEndless := by
    simp only [run, List.cons_append, List.nil_append, List.foldlM_cons, List.foldlM_nil, Option.pure_def, Option.bind_eq_bind, step] at h1
    obtain ⟨x1, e1, h1⟩ := Option.bind_eq_some_iff.mp h1
    obtain ⟨y1, -, rfl⟩ := Option.map_eq_some_iff.mp e1
    obtain ⟨x2, e2, h1⟩ := Option.bind_eq_some_iff.mp h1
    obtain ⟨y2, -, e2⟩ := Option.bind_eq_some_iff.mp e2
    obtain ⟨t2, e3, rfl⟩ := Option.map_eq_some_iff.mp e2
    obtain ⟨x3, e4, h1⟩ := Option.bind_eq_some_iff.mp h1
    obtain ⟨y3, e4, rfl⟩ := Option.map_eq_some_iff.mp e4
    obtain ⟨x4, e5, h1⟩ := Option.bind_eq_some_iff.mp h1
    obtain ⟨y4, e5, e6⟩ := Option.bind_eq_some_iff.mp e5
    obtain ⟨t4, -, rfl⟩ := Option.map_eq_some_iff.mp e6
    obtain ⟨x5, e7, h1⟩ := Option.bind_eq_some_iff.mp h1
    obtain ⟨y5, e7, rfl⟩ := Option.map_eq_some_iff.mp e7
    cases h1
    have a1 : r.endTime = y4.endTime := by
      unfold RigData.setWeights at e7
      split at e7
      · cases e7
      · cases e7; rfl
    have a2 := (frames_weights [17] (r := y3) (r' := y4) (t := t2) (t' := t4) (run_cons.mpr ⟨(y4, t4), e5, rfl⟩)).2
    have a3 : t2 = 23 := by
      unfold addTime at e3
      split at e3 <;> cases e3
      rfl
    have a4 : y3.endTime = 113 := by
      unfold RigData.blendToAnims at e4
      simp only at e4
      split at e4
      · rename_i h5
        split at e4
        · cases e4
        · cases e4
          subst a3
          unfold addTime at h5
          split at h5 <;> cases h5
          simp [samplePlay]
      · cases e4
    rw [a1, a2, a4]
    norm_num [kMotiveTimeEndless]
  obtain ⟨-, -, -, hpt, -, hbd⟩ := rig_bound rfl ho h0 (by simp [Call.starts]) (by simp [Call.starts]) hal' (fun x hx => (hone x hx).1) h1
  have hle : r.timeRemaining ≤ 65535 := by
    unfold RigData.timeRemaining
    rw [if_neg hend]
    obtain ⟨-, -, e⟩ := longest_spec r.motivators 0 le_rfl
    rcases e with e | ⟨m, hm, e⟩
    · rw [e]; norm_num
    · obtain ⟨x, hx, hxm⟩ := List.getElem_of_mem hm
      obtain ⟨m', l, pb, an, k1, k2, k3, k4⟩ := hbd x hx
      rw [List.getElem?_eq_getElem hx, hxm] at k1
      cases k1
      rw [e]
      change timeRemaining m.ops ≤ _
      rw [k3]
      exact bound_le (by rw [(hone _ k2).2]; norm_num) k4 hpt
  refine ⟨_, _, r₀, r, r1, t, t1, _, _, _, _, [32000, 32000, 32000], rfl, ho, h0, rfl, by simp, by simp, by simp [Call.starts], hal', hone, h1, hend, hpac,
    by norm_num; omega, ?_, h2⟩
  intro x hx
  simp [Call.starts] at hx
  subst hx
  right
  norm_num [oncePlayback, Call.time]

end
end Motive.Rig
