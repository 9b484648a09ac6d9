import Verif.Engine.Frame
import Verif.Rig.Props
/-!
# C78 for rigs: the global transforms after a frame

The updates of `Verif.Engine.Frame` for the matrix operations of `Verif.Matrix` and the rigs of `Verif.Rig`.  Idealisation: `float` is `ℝ`.
-/

namespace Motive.Engine
open Motive.Proc (World MotId ProcId WInv)
open Motive.Matrix4 Motive.Rig

noncomputable section

variable {δ : Type}

/-- `MatrixOperation::Value` (matrix_op.h:268-270), given the values that can be read; `rd` is the value in a slot of a child. -/
def partValue (rd : δ → ℝ) (r : MotId → Option (List δ)) (o : Part) : ℝ :=
  match r o.child with
  | some (v :: _) => rd v
  | _ => o.const

/-- `UpdateResultMatrix` of a matrix motivator and of a sqt motivator (matrix_data.h:51-54, sqt_data.h:59-137). -/
def slotUpdate (rd : δ → ℝ) (r : MotId → Option (List δ)) (k : Kind) (s : Slot) : Option Slot :=
  let ops := s.ops.map fun o => (o.type, partValue rd r o)
  if k = .sqt then (updateSqt ops).map fun x => ⟨(x.matrix, x.scale), s.ops⟩ else (calculate ops).map fun x => ⟨x, s.ops⟩

/-- What a rig reads of the motivator of a bone; animations are not started here. -/
def joint (pose : Slot → Pose) : Joint where
  M := Slot
  Ops := Unit
  create _ := ⟨(1, 1), []⟩
  blend m _ _ := some m
  matrix s := s.result.1
  pose := pose
  timeRemaining _ := 0
  setRate m _ := m
  setRepeating m _ := m

/-- The slot of a rig motivator: `RigData` (rig_data.h:506-528) with the addresses of `motivators_`. -/
structure RigSlot (J : Joint) where
  ids : List MotId
  data : RigData J

/-- `UpdateGlobalTransforms` (rig_data.h:233-242) with the motivators as they are at that moment. -/
def RigSlot.update {J : Joint} (r : MotId → Option (List J.M)) (s : RigSlot J) : Option (RigSlot J) :=
  ({ s.data with motivators := s.ids.map fun m => (r m).bind List.head? }.update).map fun d => ⟨s.ids, d⟩

/-- The updates of all slots. -/
def updates (leaf : Kind → δ → Option δ) (rd : δ → ℝ) (pose : Slot → Pose) : Updates δ Slot (RigSlot (joint pose)) :=
  ⟨leaf, slotUpdate rd, fun r s => s.update r⟩

/-- Specification: the value of an operation is what its motivator shows, and the constant of the operation without a motivator. -/
def Shows (rd : δ → ℝ) (r : MotId → Option (List δ)) (o : Part) (x : ℝ) : Prop :=
  (∀ v l, r o.child = some (v :: l) → x = rd v) ∧ ((∀ v l, r o.child ≠ some (v :: l)) → x = o.const)

theorem shows_iff (rd : δ → ℝ) (r : MotId → Option (List δ)) (o : Part) (x : ℝ) : Shows rd r o x ↔ x = partValue rd r o := by
  unfold Shows partValue
  rcases h : r o.child with _ | ⟨_ | ⟨v, l⟩⟩ <;> simp

/-- C78 for a rig that plays one animation.  Its bones are matrix motivators with the operations `bones`, the parents of bones come before
them, and `root` is the bone of the root motion.  After a frame, the global transform of every bone is the product of the transforms of the bones
on the path to it from a bone without parent, and the transform of a bone is the product of its operations for the values that
the motivators of the operations have after the frame, or for their constants. -/
theorem C78_bones {pose : Slot → Pose} {leaf : Kind → δ → Option δ} {rd : δ → ℝ} {D : Defaults δ Slot (RigSlot (joint pose))}
    {cs : List (SCall δ Slot (RigSlot (joint pose)))} {S S' : System δ Slot (RigSlot (joint pose))} (h : System.run D cs = some S)
    (hf : S.frame (updates leaf rd pose) = some S') {m : MotId} {p : ProcId} {s : RigSlot (joint pose)} (hm : S.rigs.view.vals m = some (p, [s]))
    (hw : s.data.weights.length ≤ 1) (bones : List Slot) (hb : s.data.defining.bones.length = bones.length)
    (hp : s.data.defining.parents.length = bones.length) (hord : InOrder s.data.defining.parents)
    (hids : List.Forall₂ (fun b x => ∃ q, S.mats.view.vals b = some (q, [x]) ∧ S.kinds q = some .matrix) s.ids bones)
    (hsup : ∀ x ∈ bones, ∀ o ∈ x.ops, Supported o.type) (value : Part → ℝ) (hvalue : ∀ o, Shows rd (values S'.leaves) o (value o)) :
    ∃ s', S'.rigs.view.vals m = some (p, [s']) ∧ s'.ids = s.ids ∧ s'.data.transforms.length = bones.length ∧
      ∀ i < bones.length, ∃ path, Path s.data.defining.parents path i ∧ s'.data.transforms[i]? = some (toAffine
        (path.map fun b => if b = s.data.rootBone then 1 else
          ((bones.getD b ⟨(1, 1), []⟩).ops.map fun o => elementary (o.type, value o)).prod).prod) := by
  obtain rfl : value = partValue rd (values S'.leaves) := funext fun o => (shows_iff _ _ _ _).mp (hvalue o)
  obtain ⟨-, h2, h3⟩ := C78_one_time h hf
  obtain ⟨k, l', -, e2, e3⟩ := (h3 m).2 p [s] hm
  have hread : s.ids.map (fun b => (values S'.mats b).bind List.head?) =
      bones.map fun x => some (⟨((x.ops.map fun o => elementary (o.type, partValue rd (values S'.leaves) o)).prod,
        (x.ops.map fun o => scaling (o.type, partValue rd (values S'.leaves) o)).prod), x.ops⟩ : Slot) := by
    refine (map_forall₂ (forall₂_mem hids fun b _ x hx ⟨q, hv, hq⟩ => ?_)).symm
    obtain ⟨k, l, g1, g2, g3⟩ := (h2 b).2 q [x] hv
    rw [hq] at g1
    cases g1
    have hc := C42_result_is_product (x.ops.map fun o => (o.type, partValue rd (values S'.leaves) o)) fun o ho => by
      obtain ⟨o', ho', rfl⟩ := List.mem_map.mp ho
      exact hsup x hx o' ho'
    have hu : (updates leaf rd pose).mat (values S'.leaves) .matrix x = some
        (⟨((x.ops.map fun o => elementary (o.type, partValue rd (values S'.leaves) o)).prod,
          (x.ops.map fun o => scaling (o.type, partValue rd (values S'.leaves) o)).prod), x.ops⟩ : Slot) := by
      change slotUpdate rd (values S'.leaves) .matrix x = _
      simp only [slotUpdate, reduceCtorEq, if_false]
      rw [hc]
      simp [List.map_map, Function.comp_def]
    simp only [List.mapM_cons, List.mapM_nil, hu, Option.pure_def, Option.bind_eq_bind, Option.bind_some, Option.some.injEq] at g2
    subst g2
    simp [values, g3]
  let mat : Slot → Mat4 := fun x => (x.ops.map fun o => elementary (o.type, partValue rd (values S'.leaves) o)).prod
  let r : RigData (joint pose) := { s.data with motivators := s.ids.map fun b => (values S'.mats b).bind List.head? }
  have hlocals : r.singleLocals = bones.map mat := by
    apply List.ext_getElem
    · simp [RigData.singleLocals, RigData.numBones, r, hb]
    · intro i h1 h2
      have hi : i < bones.length := by simpa using h2
      simp only [RigData.singleLocals, List.getElem_map, List.getElem_range]
      have hg : ((s.ids.map fun b => (values S'.mats b).bind List.head?).getD i none : Option Slot).map (fun x => x.result.1) =
          some (mat bones[i]) := by
        rw [hread, List.getD_eq_getElem?_getD, List.getElem?_map, List.getElem?_eq_getElem hi]
        rfl
      obtain ⟨x, hx1, hx2⟩ := Option.map_eq_some_iff.mp hg
      rw [show r.motivators.getD i none = some x from hx1]
      exact hx2
  have haff : ∀ M ∈ bones.map mat, IsAffine M := by
    intro M hM
    obtain ⟨x, -, rfl⟩ := List.mem_map.mp hM
    have := C42_affine (x.ops.map fun o => (o.type, partValue rd (values S'.leaves) o))
    simpa [List.map_map, Function.comp_def, IsAffine, mat] using this
  obtain ⟨g, q1, q2, q3, -⟩ := C45_globals s.data.defining.parents (bones.map mat) s.data.rootBone s.data.rootMotion (by simp [hp]) hord haff
  have hup : s.update (values S'.mats) = some ⟨s.ids, { r with transforms := g.out, rootMotion := g.rootMotion }⟩ := by
    change (r.update).map _ = _
    unfold RigData.update
    rw [if_pos hw, hlocals]
    change ((globals s.data.rootBone s.data.rootMotion (s.data.defining.parents.zip (bones.map mat))).map _).map _ = _
    rw [q1]
    rfl
  have e2' : [s].mapM (fun x => x.update (values S'.mats)) = some l' := e2
  simp only [List.mapM_cons, List.mapM_nil, hup, Option.pure_def, Option.bind_eq_bind, Option.bind_some, Option.some.injEq] at e2'
  subst e2'
  refine ⟨_, e3, rfl, by rw [← hp]; exact q2, fun i hi => ?_⟩
  obtain ⟨path, u1, u2⟩ := q3 i (by omega)
  refine ⟨path, u1, u2.trans ?_⟩
  congr 4
  funext b
  split
  · rfl
  · rw [List.getD_eq_getElem?_getD, List.getElem?_map, List.getD_eq_getElem?_getD]
    cases bones[b]? <;> simp [mat]

/-- A bone that is translated by motivator 1, and its child, which is scaled by 2. -/
def demoBones : List Slot := [⟨(1, 1), [⟨0, .translateX, 1, 0⟩]⟩, ⟨(1, 1), [⟨0, .scaleUniformly, 99, 2⟩]⟩]
/-- A rig with these two bones. -/
def demoRig (pose : Slot → Pose) : RigSlot (joint pose) :=
  ⟨[20, 21], ⟨[none, none], [toAffine 1, toAffine 1], [1], ⟨[⟨false, ()⟩, ⟨false, ()⟩], [255, 0], 0⟩, 255, toAffine 1, 0⟩⟩
/-- The rig is created before the motivators that it reads. -/
def demoRigCalls (pose : Slot → Pose) : List (SCall ℝ Slot (RigSlot (joint pose))) :=
  [.use .rig, .use .matrix, .use .spline, .rig (.initialize 30 0 [demoRig pose]), .mat (.initialize 20 1 (demoBones.take 1)),
    .mat (.initialize 21 1 (demoBones.drop 1)), .leaf (.initialize 1 2 [5])]

/-- The hypotheses of `C78_bones` are met. -/
example (pose : Slot → Pose) : ∃ (D : Defaults ℝ Slot (RigSlot (joint pose))) (S S' : System ℝ Slot (RigSlot (joint pose))),
    System.run D (demoRigCalls pose) = some S ∧
    S.frame (updates (fun _ x => some (x + 1)) id pose) = some S' ∧ S.rigs.view.vals 30 = some (0, [demoRig pose]) ∧
    (demoRig pose).data.weights.length ≤ 1 ∧ InOrder (demoRig pose).data.defining.parents ∧
    List.Forall₂ (fun b x => ∃ q, S.mats.view.vals b = some (q, [x]) ∧ S.kinds q = some .matrix) (demoRig pose).ids demoBones ∧
    (∀ x ∈ demoBones, ∀ o ∈ x.ops, Supported o.type) ∧ ∃ value : Part → ℝ, ∀ o, Shows id (values S'.leaves) o (value o) := by
  have hrun : ((System.run ⟨0, ⟨(1, 1), []⟩, demoRig pose⟩ (demoRigCalls pose)).map fun S =>
      (S.rigs.view.vals 30, S.mats.view.vals 20, S.mats.view.vals 21, S.kinds 1,
        (S.frame (updates (fun _ x => some (x + 1)) id pose)).isSome)) =
      some (some (0, [demoRig pose]), some (1, demoBones.take 1), some (1, demoBones.drop 1), some .matrix, true) := rfl
  obtain ⟨S, hS, e⟩ := Option.map_eq_some_iff.mp hrun
  simp only [Prod.mk.injEq] at e
  obtain ⟨e1, e2, e3, e4, e5⟩ := e
  obtain ⟨S', hS'⟩ := Option.isSome_iff_exists.mp e5
  refine ⟨_, S, S', hS, hS', e1, by simp [demoRig], ?_, .cons ⟨1, e2, e4⟩ (.cons ⟨1, e3, e4⟩ .nil), ?_, _, fun o => (shows_iff _ _ _ _).mpr rfl⟩
  · intro i hi
    have : i = 0 ∨ i = 1 := by simp [demoRig] at hi; omega
    rcases this with rfl | rfl
    · exact .inl rfl
    · exact .inr (by simp [demoRig])
  · simp [demoBones, Supported, OpType.isRotate, OpType.isTranslate, OpType.isScale]

end
end Motive.Engine
