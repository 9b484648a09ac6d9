import Verif.Engine.FrameBones
/-!
# C78 for rigs whose bones are matrix motivators or SQT motivators

`RigData::InitializeMotivator` (rig_data.h:491-498) makes an SQT motivator for a bone whose animation has quaternions and a matrix
motivator for other bones.  The model is that of `Verif.Engine.FrameBones`.
-/

namespace Motive.Engine
open Motive.Proc (World MotId ProcId WInv)
open Motive.Matrix4 Motive.Rig

noncomputable section

variable {δ : Type}

/-! ### Specification -/

/-- `M` scales, then rotates by a unit quaternion, then translates.  The components come from the last operation for them, or are the
default without an operation; the quaternion of the operations is divided by its length. -/
def IsSqt (ops : List (OpType × ℝ)) (M : Mat4) : Prop :=
  ∃ tx ty tz w x y z sx sy sz : ℝ,
    Last (· = .translateX) ops 0 tx ∧ Last (· = .translateY) ops 0 ty ∧ Last (· = .translateZ) ops 0 tz ∧
    Last (· = .quatW) ops 1 w ∧ Last (· = .quatX) ops 0 x ∧ Last (· = .quatY) ops 0 y ∧ Last (· = .quatZ) ops 0 z ∧
    Last (fun t => t = .scaleX || t = .scaleUniformly) ops 1 sx ∧ Last (fun t => t = .scaleY || t = .scaleUniformly) ops 1 sy ∧
    Last (fun t => t = .scaleZ || t = .scaleUniformly) ops 1 sz ∧
    ∃ r : Quat, (∃ k > 0, r = ⟨k * w, k * x, k * y, k * z⟩) ∧ r.dot r = 1 ∧
      ∀ p : Fin 3 → ℝ, M.mulVec ![p 0, p 1, p 2, 1] =
        let v := r.toMatrix.mulVec ![sx * p 0, sy * p 1, sz * p 2]
        ![v 0 + tx, v 1 + ty, v 2 + tz, 1]

/-- `M` is the transform that a motivator of this kind makes of its operations and their values. -/
def IsLocal (k : Kind) (ops : List (OpType × ℝ)) (M : Mat4) : Prop :=
  if k = .sqt then IsSqt ops M else M = (ops.map elementary).prod

/-! ### The transforms of a rig -/

theorem isSqt_update {ops : List (OpType × ℝ)} {r : SqtResult} (h : updateSqt ops = some r) : IsSqt ops r.matrix := by
  have hs := updateSqt_supported ops r h
  have hq : lastOf (· = .quatW) 1 ops ^ 2 + lastOf (· = .quatX) 0 ops ^ 2 + lastOf (· = .quatY) 0 ops ^ 2 +
      lastOf (· = .quatZ) 0 ops ^ 2 ≠ 0 := by
    intro h0
    rw [updateSqt_eq _ hs, Quat.normalize, if_pos] at h
    · simp at h
    · rw [← h0]; unfold Quat.dot rawQuat; ring
  obtain ⟨r', e, -, hk, hu, -, hp⟩ := C65_sqt ops hs _ _ _ _ _ _ _ _ _ _ (last_lastOf _ _ _) (last_lastOf _ _ _) (last_lastOf _ _ _)
    (last_lastOf _ _ _) (last_lastOf _ _ _) (last_lastOf _ _ _) (last_lastOf _ _ _) (last_lastOf _ _ _) (last_lastOf _ _ _)
    (last_lastOf _ _ _) hq
  rw [h] at e
  cases e
  exact ⟨_, _, _, _, _, _, _, _, _, _, last_lastOf _ _ _, last_lastOf _ _ _, last_lastOf _ _ _, last_lastOf _ _ _, last_lastOf _ _ _,
    last_lastOf _ _ _, last_lastOf _ _ _, last_lastOf _ _ _, last_lastOf _ _ _, last_lastOf _ _ _, r.rotation, hk, hu, hp⟩

/-- What an update makes of a slot. -/
theorem slotUpdate_local {rd : δ → ℝ} {r : MotId → Option (List δ)} {k : Kind} {s s' : Slot} (h : slotUpdate rd r k s = some s') :
    IsLocal k (s.ops.map fun o => (o.type, partValue rd r o)) s'.result.1 ∧ IsAffine s'.result.1 := by
  unfold slotUpdate at h
  unfold IsLocal
  by_cases hk : k = .sqt
  · simp only [hk, if_true] at h ⊢
    obtain ⟨x, hx, rfl⟩ := Option.map_eq_some_iff.mp h
    exact ⟨isSqt_update hx, C45_locals_affine.2.1 _ _ hx⟩
  · simp only [hk, if_false] at h ⊢
    obtain ⟨x, hx, rfl⟩ := Option.map_eq_some_iff.mp h
    refine ⟨?_, C45_locals_affine.1 _ x.1 x.2 hx⟩
    have hs : ∀ o ∈ s.ops.map fun o => (o.type, partValue rd r o), Supported o.1 := by
      by_contra hc
      push Not at hc
      rw [C42_unsupported_fails _ hc] at hx
      simp at hx
    rw [C42_result_is_product _ hs] at hx
    cases hx
    rfl

/-- C78 for a rig that plays one animation, with bones of both kinds.  The bones are motivators with the kinds and operations in `bones`,
and the parents of bones come before them.  If a frame succeeds, the global transform of every bone is the product of the local
transforms of the bones on the path to it from a bone without parent.  A local transform is what the kind of the bone makes of the
operations, for the values that the motivators of the operations have after the frame, or for their constants. -/
theorem C78_bones_both {pose : Slot → Pose} {leaf : Kind → δ → Option δ} {rd : δ → ℝ} {D : Defaults δ Slot (RigSlot (joint pose))}
    {cs : List (SCall δ Slot (RigSlot (joint pose)))} {S S' : System δ Slot (RigSlot (joint pose))} (h : System.run D cs = some S)
    (hf : S.frame (updates leaf rd pose) = some S') {m : MotId} {p : ProcId} {s : RigSlot (joint pose)} (hm : S.rigs.view.vals m = some (p, [s]))
    (hw : s.data.weights.length ≤ 1) (bones : List (Kind × Slot)) (hb : s.data.defining.bones.length = bones.length)
    (hp : s.data.defining.parents.length = bones.length) (hord : InOrder s.data.defining.parents)
    (hids : List.Forall₂ (fun b x => ∃ q, S.mats.view.vals b = some (q, [x.2]) ∧ S.kinds q = some x.1) s.ids bones)
    (value : Part → ℝ) (hvalue : ∀ o, Shows rd (values S'.leaves) o (value o)) :
    ∃ s' locals, S'.rigs.view.vals m = some (p, [s']) ∧ s'.ids = s.ids ∧ s'.data.transforms.length = bones.length ∧
      List.Forall₂ (fun x M => IsLocal x.1 (x.2.ops.map fun o => (o.type, value o)) M) bones locals ∧
      ∀ i < bones.length, ∃ path, Path s.data.defining.parents path i ∧ s'.data.transforms[i]? = some (toAffine
        (path.map fun b => if b = s.data.rootBone then 1 else locals.getD b 1).prod) := by
  obtain rfl : value = partValue rd (values S'.leaves) := funext fun o => (shows_iff _ _ _ _).mp (hvalue o)
  obtain ⟨-, h2, h3⟩ := C78_one_time h hf
  obtain ⟨k, l', -, e2, e3⟩ := (h3 m).2 p [s] hm
  let upd : Kind × Slot → Slot := fun x => (slotUpdate rd (values S'.leaves) x.1 x.2).getD x.2
  have hboth : List.Forall₂ (fun b x => slotUpdate rd (values S'.leaves) x.1 x.2 = some (upd x) ∧
      some (upd x) = (values S'.mats b).bind List.head?) s.ids bones := by
    refine forall₂_mem hids fun b _ x hx ⟨q, hv, hq⟩ => ?_
    obtain ⟨k, l, g1, g2, g3⟩ := (h2 b).2 q [x.2] hv
    rw [hq] at g1
    cases g1
    have g2' : [x.2].mapM (slotUpdate rd (values S'.leaves) x.1) = some l := g2
    cases hu : slotUpdate rd (values S'.leaves) x.1 x.2 with
    | none => simp [hu] at g2'
    | some y =>
      simp only [List.mapM_cons, List.mapM_nil, hu, Option.pure_def, Option.bind_eq_bind, Option.bind_some, Option.some.injEq] at g2'
      subst g2'
      have : upd x = y := by simp [upd, hu]
      rw [this]
      exact ⟨rfl, by simp [values, g3]⟩
  have hread : s.ids.map (fun b => (values S'.mats b).bind List.head?) = bones.map fun x => some (upd x) :=
    (map_forall₂ (forall₂_mem hboth fun _ _ _ _ hx => hx.2)).symm
  have hupd : ∀ x ∈ bones, slotUpdate rd (values S'.leaves) x.1 x.2 = some (upd x) := by
    intro x hx
    obtain ⟨i, hi, rfl⟩ := List.getElem_of_mem hx
    exact ((List.forall₂_iff_get.mp hboth).2 i (by rw [(List.forall₂_iff_get.mp hboth).1]; exact hi) hi).1
  let mat : Kind × Slot → Mat4 := fun x => (upd x).result.1
  let r : RigData (joint pose) := { s.data with motivators := s.ids.map fun b => (values S'.mats b).bind List.head? }
  have hlocals : r.singleLocals = bones.map mat := by
    apply List.ext_getElem
    · simp [RigData.singleLocals, RigData.numBones, r, hb]
    · intro i h1 h2
      have hi : i < bones.length := by simpa using h2
      simp only [RigData.singleLocals, List.getElem_map, List.getElem_range]
      have hg : ((s.ids.map fun b => (values S'.mats b).bind List.head?).getD i none : Option Slot).map (fun x => x.result.1) =
          some (mat bones[i]) := by
        rw [hread, List.getD_eq_getElem?_getD, List.getElem?_map, List.getElem?_eq_getElem hi]
        rfl
      obtain ⟨x, hx1, hx2⟩ := Option.map_eq_some_iff.mp hg
      rw [show r.motivators.getD i none = some x from hx1]
      exact hx2
  have haff : ∀ M ∈ bones.map mat, IsAffine M := by
    intro M hM
    obtain ⟨x, hx, rfl⟩ := List.mem_map.mp hM
    exact (slotUpdate_local (hupd x hx)).2
  obtain ⟨g, q1, q2, q3, -⟩ := C45_globals s.data.defining.parents (bones.map mat) s.data.rootBone s.data.rootMotion (by simp [hp]) hord haff
  have hup : s.update (values S'.mats) = some ⟨s.ids, { r with transforms := g.out, rootMotion := g.rootMotion }⟩ := by
    change (r.update).map _ = _
    unfold RigData.update
    rw [if_pos hw, hlocals]
    change ((globals s.data.rootBone s.data.rootMotion (s.data.defining.parents.zip (bones.map mat))).map _).map _ = _
    rw [q1]
    rfl
  have e2' : [s].mapM (fun x => x.update (values S'.mats)) = some l' := e2
  simp only [List.mapM_cons, List.mapM_nil, hup, Option.pure_def, Option.bind_eq_bind, Option.bind_some, Option.some.injEq] at e2'
  subst e2'
  refine ⟨_, bones.map mat, e3, rfl, by rw [← hp]; exact q2, ?_, fun i hi => q3 i (by omega)⟩
  rw [List.forall₂_map_right_iff, List.forall₂_same]
  exact fun x hx => (slotUpdate_local (hupd x hx)).1

/-- A matrix bone that is translated by motivator 1, and its child, an SQT bone that is turned and moved. -/
def demoBoth : List (Kind × Slot) :=
  [(.matrix, ⟨(1, 1), [⟨0, .translateX, 1, 0⟩]⟩), (.sqt, ⟨(1, 1), [⟨0, .quatX, 99, 3⟩, ⟨1, .translateY, 1, 0⟩]⟩)]

/-- The rig is created before the motivators that it reads. -/
def demoBothCalls (pose : Slot → Pose) : List (SCall ℝ Slot (RigSlot (joint pose))) :=
  [.use .rig, .use .matrix, .use .sqt, .use .spline, .rig (.initialize 30 0 [demoRig pose]),
    .mat (.initialize 20 1 ((demoBoth.take 1).map Prod.snd)), .mat (.initialize 21 2 ((demoBoth.drop 1).map Prod.snd)),
    .leaf (.initialize 1 3 [5])]

/-- The update of the SQT bone succeeds: its quaternion is not zero. -/
theorem demo_sqt (r : MotId → Option (List ℝ)) : (slotUpdate id r .sqt ⟨(1, 1), [⟨0, .quatX, 99, 3⟩, ⟨1, .translateY, 1, 0⟩]⟩).isSome := by
  have h : ∀ a b : ℝ, ∃ x, updateSqt [(.quatX, a), (.translateY, b)] = some x := by
    intro a b
    rw [updateSqt_eq _ (by simp [SqtSupported, OpType.isQuat, OpType.isTranslate])]
    have : (1 : ℝ) * 1 + a * a + 0 * 0 + 0 * 0 ≠ 0 := by nlinarith [mul_self_nonneg a]
    simp only [rawQuat, lastOf, Quat.normalize, Quat.dot]
    simp at this
    simp [this]
  obtain ⟨x, hx⟩ := h (partValue id r ⟨0, .quatX, 99, 3⟩) (partValue id r ⟨1, .translateY, 1, 0⟩)
  simp [slotUpdate, hx]

/-- The hypotheses of `C78_bones_both` are met. -/
example (pose : Slot → Pose) : ∃ (D : Defaults ℝ Slot (RigSlot (joint pose))) (S S' : System ℝ Slot (RigSlot (joint pose))),
    System.run D (demoBothCalls pose) = some S ∧
    S.frame (updates (fun _ x => some (x + 1)) id pose) = some S' ∧ S.rigs.view.vals 30 = some (0, [demoRig pose]) ∧
    (demoRig pose).data.weights.length ≤ 1 ∧ InOrder (demoRig pose).data.defining.parents ∧
    List.Forall₂ (fun b x => ∃ q, S.mats.view.vals b = some (q, [x.2]) ∧ S.kinds q = some x.1) (demoRig pose).ids demoBoth ∧
    ∃ value : Part → ℝ, ∀ o, Shows id (values S'.leaves) o (value o) := by
  have hrun : ((System.run ⟨0, ⟨(1, 1), []⟩, demoRig pose⟩ (demoBothCalls pose)).map fun S =>
      (S.rigs.view.vals 30, S.mats.view.vals 20, S.mats.view.vals 21, S.kinds 1, S.kinds 2)) =
      some (some (0, [demoRig pose]), some (1, (demoBoth.take 1).map Prod.snd), some (2, (demoBoth.drop 1).map Prod.snd),
        some .matrix, some .sqt) := rfl
  have hmots : ((System.run ⟨0, ⟨(1, 1), []⟩, demoRig pose⟩ (demoBothCalls pose)).map fun S => (S.mats.mots, S.rigs.mots)) =
      some (fun m => if m = 21 then some (2, 0) else if m = 20 then some (1, 0) else none,
        fun m => if m = 30 then some (0, 0) else none) := rfl
  obtain ⟨S, hS, e⟩ := Option.map_eq_some_iff.mp hrun
  rw [hS] at hmots
  simp only [Option.map_some, Option.some.injEq, Prod.mk.injEq] at e hmots
  obtain ⟨e1, e2, e3, e4, e5⟩ := e
  obtain ⟨m1, m2⟩ := hmots
  have hsucc : ∃ S', S.frame (updates (fun _ x => some (x + 1)) id pose) = some S' := by
    refine C78_succeeds hS (fun _ _ _ _ _ _ x _ => rfl) ?_ ?_
    · intro r m p l k hv hk x hx
      by_cases h21 : m = 21
      · subst h21
        rw [e3] at hv
        cases hv
        rw [e5] at hk
        cases hk
        simp only [demoBoth, List.drop_succ_cons, List.drop_zero, List.map_cons, List.map_nil, List.mem_singleton] at hx
        subst hx
        exact demo_sqt r
      by_cases h20 : m = 20
      · subst h20
        rw [e2] at hv
        cases hv
        rw [e4] at hk
        cases hk
        simp only [demoBoth, List.take_succ_cons, List.take_zero, List.map_cons, List.map_nil, List.mem_singleton] at hx
        subst hx
        rfl
      · simp [World.view, m1, h20, h21] at hv
    · intro r m p l hv x hx
      by_cases h30 : m = 30
      · subst h30
        rw [e1] at hv
        cases hv
        simp only [List.mem_singleton] at hx
        subst hx
        rfl
      · simp [World.view, m2, h30] at hv
  obtain ⟨S', hS'⟩ := hsucc
  refine ⟨_, S, S', hS, hS', e1, by simp [demoRig], ?_, .cons ⟨1, e2, e4⟩ (.cons ⟨2, e3, e5⟩ .nil), _,
    fun o => (shows_iff _ _ _ _).mpr rfl⟩
  intro i hi
  have : i = 0 ∨ i = 1 := by simp [demoRig] at hi; omega
  rcases this with rfl | rfl
  · exact .inl rfl
  · exact .inr (by simp [demoRig])

end
end Motive.Engine
