import Verif.Rig.Average
/-!
# Model of `RigData` (src/motive/processor/rig_data.h)

Idealisation: `float` is `ℝ`. The motivator of a bone is modelled by its interface, `Joint`: matrix motivators (C43) and SQT motivators (C65)
are instances. By C09 and C11 the calls to one motivator do not disturb the others and a clone has the state of its original, so a
motivator is a value here; C115 (`Verif.Rig.Stored`) proves it of rigs whose bones have motivators in shared processors. A failed assertion, an access out of bounds, a call on an invalid motivator and an overflow of `MotiveTime`
are `none`.
-/

namespace Motive.Rig
open Motive.Matrix4

noncomputable section

/-- `MatrixMotivator4f` (include/motive/matrix_motivator.h). -/
structure Joint where
  /-- The state of a motivator. -/
  M : Type
  /-- A list of `MatrixOperationInit`. -/
  Ops : Type
  /-- `InitializeMotivator` (rig_data.h:491-498): no operations; the flag is `sqt_anim`. -/
  create : Bool → M
  blend : M → Ops → Playback → Option M
  matrix : M → Mat4
  pose : M → Pose
  timeRemaining : M → ℤ
  setRate : M → ℝ → M
  setRepeating : M → Bool → M

variable (J : Joint)

/-- `MatrixAnim` (include/motive/matrix_anim.h): `IsSqtAnim` and `ops`. -/
structure BoneAnim where
  sqt : Bool
  ops : J.Ops

/-- `RigAnim` (include/motive/rig_anim.h). -/
structure Anim where
  bones : List (BoneAnim J)
  parents : List ℕ
  endTime : ℤ

/-- `RigData` (rig_data.h:506-528): a motivator that is not valid is `none`. `current_anim_` is for debugging and is left out. -/
structure RigData where
  motivators : List (Option J.M)
  transforms : List Affine
  weights : List ℝ
  defining : Anim J
  rootBone : ℕ
  rootMotion : Affine
  endTime : ℤ

variable {J}

/-- `kMotiveTimeEndless` (include/motive/common.h:58). -/
def kMotiveTimeEndless : ℤ := 2 ^ 31 - 1

/-- The sum of two values of `MotiveTime`, an `int`: it must not overflow. -/
def addTime (a b : ℤ) : Option ℤ := if -2 ^ 31 ≤ a + b ∧ a + b ≤ 2 ^ 31 - 1 then some (a + b) else none

/-- `std::vector::resize`. -/
def resize {α : Type} (l : List α) (n : ℕ) (x : α) : List α := l.take n ++ List.replicate (n - l.length) x

/-- `NumBones` (rig_data.h:252). -/
def RigData.numBones (r : RigData J) : ℕ := r.defining.bones.length

/-- `RigInit::MatchesHierarchy` (src/motive/rig_init.cpp:36-55). -/
def Anim.matches (a b : Anim J) : Prop := a.bones.length = b.bones.length ∧ a.parents = b.parents

/-- The assertion on the hierarchy (rig_data.h:64-65, 123-124). -/
def RigData.accepts (r : RigData J) (a : Anim J) : Prop := r.numBones = 1 ∨ a.bones.length = 1 ∨ a.matches r.defining

/-- The end of the loops over the bones (rig_data.h:79-82, 150-153): initialise the motivator if it is not valid, and blend it. -/
def drive (ms : List (Option J.M)) (index : ℕ) (m : Option J.M) (b : BoneAnim J) (pb : Playback) : Option (List (Option J.M)) :=
  match J.blend (m.getD (J.create b.sqt)) b.ops pb with
  | none => none
  | some m' => some (ms.set index (some m'))

/-- The loop of `BlendToAnim` (rig_data.h:76-83). -/
def animLoop (a : Anim J) (pb : Playback) (n i : ℕ) (ms : List (Option J.M)) : Option (List (Option J.M)) :=
  if i < n then
    match a.bones[i]?, ms[i]? with
    | some b, some m =>
      match drive ms i m b pb with
      | none => none
      | some ms' => animLoop a pb n (i + 1) ms'
    | _, _ => none
  else some ms
termination_by n - i

open Classical in
/-- `BlendToAnim` (rig_data.h:57-87). -/
def RigData.blendToAnim (r : RigData J) (a : Anim J) (pb : Playback) (time : ℤ) : Option (RigData J) :=
  match addTime time a.endTime with
  | none => none
  | some e =>
    if r.accepts a then
      match animLoop a pb r.numBones 0 (resize r.motivators r.numBones none) with
      | none => none
      | some ms => some { r with motivators := ms, weights := resize r.weights 1 1, endTime := e }
    else none

/-- The inner loop of `BlendToAnims` (rig_data.h:130-154), from bone `j` of animation `i`. -/
def boneLoop (oldCount : ℕ) (a : Anim J) (pb : Playback) (n i j : ℕ) (ms : List (Option J.M)) : Option (List (Option J.M)) :=
  if j < n then
    match a.bones[j]?, ms[i * n + j]? with
    | some b, some m =>
      match (if oldCount ≤ i then if oldCount = 1 then ms[j]? else some (some (J.create b.sqt)) else some m) with
      | none => none
      | some m' =>
        match drive ms (i * n + j) m' b pb with
        | none => none
        | some ms' => boneLoop oldCount a pb n i (j + 1) ms'
    | _, _ => none
  else some ms
termination_by n - j

open Classical in
/-- The outer loop of `BlendToAnims` (rig_data.h:115-155), from animation `i`. -/
def RigData.animsLoop (r : RigData J) (oldCount : ℕ) (i : ℕ) : List (Anim J × Playback) → List (Option J.M) → Option (List (Option J.M))
  | [], ms => some ms
  | (a, pb) :: as, ms =>
    if r.accepts a then
      match boneLoop oldCount a pb r.numBones i 0 ms with
      | none => none
      | some ms' => r.animsLoop oldCount (i + 1) as ms'
    else none

open Classical in
/-- The sum of weights, with the assertions (rig_data.h:96-104, 188-193). -/
def totalWeight (ws : List ℝ) : Option ℝ := if (∀ w ∈ ws, 0 ≤ w) ∧ 0 < ws.sum then some ws.sum else none

/-- `BlendToAnims` (rig_data.h:89-163). The three arrays of length `count` are one list. -/
def RigData.blendToAnims (r : RigData J) (as : List (Anim J × Playback × ℝ)) (time : ℤ) : Option (RigData J) :=
  let ws := as.map fun a => a.2.2
  match totalWeight ws, addTime time (as.foldl (fun t a => max t a.1.endTime) 0) with
  | some total, some e =>
    match r.animsLoop r.weights.length 0 (as.map fun a => (a.1, a.2.1)) (resize r.motivators (r.numBones * as.length) none) with
    | none => none
    | some ms => some { r with motivators := ms, weights := ws.map (· / total), endTime := e }
  | _, _ => none

/-- `SetWeights` (rig_data.h:187-201). -/
def RigData.setWeights (r : RigData J) (ws : List ℝ) : Option (RigData J) :=
  match totalWeight ws with
  | none => none
  | some total => some { r with
      weights := (List.range r.weights.length).map fun i => if h : i < ws.length then ws[i] / total else 0 }

/-- `SetPlaybackRate` (rig_data.h:167-173). A motivator that is not valid ignores it (include/motive/matrix_motivator.h:164-168). -/
def RigData.setRate (r : RigData J) (rate : ℝ) : RigData J :=
  { r with motivators := r.motivators.map fun m => m.map fun m => J.setRate m rate }

/-- The inner loop of `SetPlaybackRates` (rig_data.h:181-183): `none` if an index is past the end of `motivators_`. -/
def rateLoop (rate : ℝ) (base n j : ℕ) (ms : List (Option J.M)) : Option (List (Option J.M)) :=
  if j < n then
    match ms[base + j]? with
    | some m => rateLoop rate base n (j + 1) (ms.set (base + j) (m.map fun m => J.setRate m rate))
    | none => none
  else some ms
termination_by n - j

/-- The outer loop of `SetPlaybackRates` (rig_data.h:178-184). -/
def ratesLoop (n i : ℕ) : List ℝ → List (Option J.M) → Option (List (Option J.M))
  | [], ms => some ms
  | rate :: rates, ms =>
    match rateLoop rate (i * n) n 0 ms with
    | none => none
    | some ms' => ratesLoop n (i + 1) rates ms'

/-- `SetPlaybackRates` (rig_data.h:175-185). -/
def RigData.setRates (r : RigData J) (rates : List ℝ) : Option (RigData J) :=
  (ratesLoop r.numBones 0 rates r.motivators).map fun ms => { r with motivators := ms }

/-- `SetRepeating` (rig_data.h:203-207, include/motive/matrix_motivator.h:170-174). -/
def RigData.setRepeating (r : RigData J) (b : Bool) : RigData J :=
  { r with motivators := r.motivators.map fun m => m.map fun m => J.setRepeating m b }

/-- The loops of `TimeRemaining` and `ChildTimeRemaining` (rig_data.h:213-217, 224-230). It is zero for a motivator that is not valid
(include/motive/matrix_motivator.h:81-83). -/
def longest (t : ℤ) : List (Option J.M) → ℤ
  | [] => t
  | none :: ms => longest (max t 0) ms
  | some m :: ms => longest (max t (J.timeRemaining m)) ms

/-- `TimeRemaining` (rig_data.h:209-218). -/
def RigData.timeRemaining (r : RigData J) : ℤ :=
  if r.endTime = kMotiveTimeEndless then kMotiveTimeEndless else longest 0 r.motivators

/-- `ChildTimeRemaining` (rig_data.h:220-231), for an index that is not negative. -/
def RigData.childTimeRemaining (r : RigData J) (index : ℕ) : Option ℤ :=
  if r.weights.length ≤ index then some 0
  else if index * r.numBones + r.numBones ≤ r.motivators.length then
    some (longest 0 ((r.motivators.drop (index * r.numBones)).take r.numBones))
  else none

/-- The local transforms of `CalculateGlobalTransforms` (rig_data.h:364-366). Here and in `bonePoses` the index is in range: see `Shaped`. -/
def RigData.singleLocals (r : RigData J) : List Mat4 :=
  (List.range r.numBones).map fun i => match r.motivators.getD i none with
    | some m => J.matrix m
    | none => 1

/-- The weights and poses of a bone (rig_data.h:420-434). -/
def RigData.bonePoses (r : RigData J) (i : ℕ) : List (ℝ × Pose) :=
  (List.range r.weights.length).map fun j => (r.weights.getD j 0, match r.motivators.getD (i + j * r.numBones) none with
    | some m => J.pose m
    | none => .rest)

/-- The local transforms of `CalculateBlendedGlobalTransforms` (rig_data.h:407-459). -/
def RigData.blendedLocals (r : RigData J) : Option (List Mat4) := (List.range r.numBones).mapM fun i => average (r.bonePoses i)

/-- `UpdateGlobalTransforms` (rig_data.h:233-242). -/
def RigData.update (r : RigData J) : Option (RigData J) :=
  match (if r.weights.length ≤ 1 then some r.singleLocals else r.blendedLocals) with
  | none => none
  | some locals => (globals r.rootBone r.rootMotion (r.defining.parents.zip locals)).map fun g =>
      { r with transforms := g.out, rootMotion := g.rootMotion }

/-- The constructor (rig_data.h:38-53). -/
def RigData.new (defining : Anim J) (root : ℕ) (time : ℤ) : Option (RigData J) :=
  RigData.update ⟨List.replicate defining.bones.length none, List.replicate defining.bones.length (toAffine 1), [], defining, root, toAffine 1, time⟩

end
end Motive.Rig
