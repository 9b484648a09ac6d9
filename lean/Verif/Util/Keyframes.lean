import Verif.Spline.Layout
import Verif.Spline.Model
import Verif.Matrix.Ops
/-!
# Model of `keyframe_converter` (include/motive/util/keyframe_converter.h, src/motive/util/keyframe_converter.cpp)

Arithmetic is exact. The arrays `times` and `values` of the user are functions of the index; they are long enough.
-/

namespace Motive.Util

open Motive.Math Motive.Splines Motive.Matrix4

noncomputable section

/-- `QuaternionOrder` (keyframe_converter.h:26-29). -/
inductive QuatOrder where
  | wxyz | xyzw
deriving DecidableEq

/-- `InterpolationType` (keyframe_converter.h:32-36). -/
inductive Interpolation where
  | linear | step | cubic
deriving DecidableEq

/-- `KeyframeData` (keyframe_converter.h:47-53). -/
structure KeyframeData where
  times : ℕ → ℝ
  values : ℕ → ℝ
  count : ℕ
  interpolation : Interpolation
  msPerUnit : ℝ

/-- `ConvertTimeToMilliseconds` (keyframe_converter.cpp:25-27), for a frame. -/
def KeyframeData.time (d : KeyframeData) (frame : ℕ) : ℝ := d.times frame * d.msPerUnit

/-- `Keyframe` (keyframe_converter.cpp:49-56); elements that are not written are 0. -/
structure Keyframe where
  values : ℕ → ℝ := fun _ => 0
  left : ℕ → ℝ := fun _ => 0
  right : ℕ → ℝ := fun _ => 0

/-- `GetArrayValue` (keyframe_converter.cpp:61-83). It overwrites all that it has written before. -/
def getArrayValue (channels : ℕ) (d : KeyframeData) (frame : ℕ) : Keyframe :=
  if d.interpolation ≠ .cubic then { values := fun i => d.values (frame * channels + i) }
  else
    { left := fun i => d.values (frame * channels * 3 + i)
      values := fun i => d.values (frame * channels * 3 + channels + i)
      right := fun i => d.values (frame * channels * 3 + channels + channels + i) }

/-- `GetQuaternionValue` (keyframe_converter.cpp:95-113). -/
def getQuaternionValue (d : KeyframeData) (frame : ℕ) (previous : Keyframe) : Keyframe :=
  let out := getArrayValue 4 d frame
  if frame > 0 ∧ d.interpolation = .linear then
    if out.values 0 * previous.values 0 + out.values 1 * previous.values 1 + out.values 2 * previous.values 2 +
        out.values 3 * previous.values 3 < 0 then
      { out with values := fun i => out.values i * -1 }
    else out
  else out

/-- The body of the loop over the channels of `AddLinearKeyframeData` (keyframe_converter.cpp:134-165), for the nodes of one channel. -/
def linearBody (d : KeyframeData) (frame : ℕ) (value : ℝ) (nodes : List Uncompressed) : List Uncompressed :=
  let time := d.time frame
  let left := frame * 2
  let nodes := nodes.modify left fun n => { n with x := time, y := value }
  let nodes := nodes.modify (left + 1) fun n => { n with x := time, y := value }
  if left = 0 then nodes.modify left fun n => { n with derivative := 0 }
  else
    let prev := nodes.getD (left - 1) ⟨0, 0, 0⟩
    let delta := time - prev.x
    let tangent := if delta > 0 then (value - prev.y) / delta else 0
    let nodes := nodes.modify (left - 1) fun n => { n with derivative := tangent }
    let nodes := nodes.modify left fun n => { n with derivative := tangent }
    if frame = d.count - 1 then nodes.modify (left + 1) fun n => { n with derivative := 0 } else nodes

/-- The body of the loop over the channels of `AddStepKeyframeData` (keyframe_converter.cpp:189-211). -/
def stepBody (d : KeyframeData) (frame : ℕ) (value previous : ℝ) (nodes : List Uncompressed) : List Uncompressed :=
  let time := d.time frame
  let left := frame * 2
  let nodes := nodes.modify left fun n => { n with x := time, derivative := 0 }
  let nodes := nodes.modify (left + 1) fun n => { n with x := time, y := value, derivative := 0 }
  if left = 0 then nodes.modify left fun n => { n with y := value } else nodes.modify left fun n => { n with y := previous }

/-- The body of the loop over the channels of `AddCubicSplineKeyframeData` (keyframe_converter.cpp:235-252), with
`ConvertTangentToMilliseconds` (31-33). -/
def cubicBody (d : KeyframeData) (frame : ℕ) (value leftTangent rightTangent : ℝ) (nodes : List Uncompressed) : List Uncompressed :=
  let time := d.time frame
  let left := frame * 2
  let nodes := nodes.modify left fun _ => ⟨time, value, leftTangent / d.msPerUnit⟩
  nodes.modify (left + 1) fun _ => ⟨time, value, rightTangent / d.msPerUnit⟩

/-- `AddKeyframeData` (keyframe_converter.cpp:257-273): the body of the loop over the channels. -/
def channelBody (d : KeyframeData) (frame : ℕ) (current previous : Keyframe) (channel : ℕ) (nodes : List Uncompressed) : List Uncompressed :=
  match d.interpolation with
  | .linear => linearBody d frame (current.values channel) nodes
  | .step => stepBody d frame (current.values channel) (previous.values channel) nodes
  | .cubic => cubicBody d frame (current.values channel) (current.left channel) (current.right channel) nodes

/-- The loop over the frames (keyframe_converter.cpp:130-167, 185-213, 231-254), from `frame` on. -/
def frameLoop (d : KeyframeData) (valueFn : ℕ → Keyframe → Keyframe) : ℕ → ℕ → Keyframe → List (List Uncompressed) → List (List Uncompressed)
  | 0, _, _, nodes => nodes
  | n + 1, frame, previous, nodes =>
    let current := valueFn frame previous
    frameLoop d valueFn n (frame + 1) current (nodes.mapIdx fun channel l => channelBody d frame current previous channel l)

/-- `AddKeyframeData` with the resizing of the lists of nodes (keyframe_converter.cpp:122-125, 177-180, 223-226). -/
def addKeyframeData (d : KeyframeData) (channels : ℕ) (valueFn : ℕ → Keyframe → Keyframe) : List (List Uncompressed) :=
  frameLoop d valueFn d.count 0 {} (List.replicate channels (List.replicate (d.count * 2) ⟨0, 0, 0⟩))

/-- `kMaxSplineIndex` (compact_spline.h:35-36). -/
def kMaxSplineIndex : ℕ := 65532

/-- `GetRequiredNodeCount` (keyframe_converter.cpp:275-283); `none` is `kInvalidSplineIndex`. -/
def requiredNodeCount (keyframes : ℕ) : Option ℕ := if keyframes * 2 > kMaxSplineIndex then none else some (keyframes * 2)

/-- `GetRequiredBufferSize` (keyframe_converter.cpp:301-309). -/
def requiredBufferSize (keyframes channels : ℕ) : ℕ :=
  match requiredNodeCount keyframes with
  | none => 0
  | some n => channels * Layout.size n

/-- `CreateFromNodes`, `CreateFromNodesInPlace` (compact_spline.h:341-364) with their assertion. -/
def createFromNodes (nodes : List Uncompressed) : Option Spline :=
  if nodes.length ≤ kMaxSplineIndex then (Spline.create nodes.length).initFromNodes nodes else none

/-- `CreateSplinesInPlace` (keyframe_converter.cpp:285-297): the splines and the bytes used. -/
def createSplinesInPlace : List (List Uncompressed) → Option (List Spline × ℕ)
  | [] => some ([], 0)
  | nodes :: rest => match createFromNodes nodes with
    | none => none
    | some s => match createSplinesInPlace rest with
      | none => none
      | some (ss, bytes) => some (s :: ss, Layout.size s.maxNodes + bytes)

/-- `AddArrayCurves` (keyframe_converter.cpp:311-320). -/
def addArrayCurves (d : KeyframeData) (channels : ℕ) : Option (List Spline × ℕ) :=
  createSplinesInPlace (addKeyframeData d channels fun frame _ => getArrayValue channels d frame)

/-- `AddQuaternionCurves` into a buffer (keyframe_converter.cpp:322-334). -/
def addQuaternionCurves (d : KeyframeData) (order : QuatOrder) : Option (List Spline × ℕ) :=
  match addKeyframeData d 4 (getQuaternionValue d), order with
  | [a, b, c, e], .xyzw => createSplinesInPlace [e, a, b, c]
  | nodes, _ => createSplinesInPlace nodes

/-- `IndexForQuaternionComponent` (keyframe_converter.cpp:37-46), for component `i` of W, X, Y, Z. -/
def quatIndex (i : ℕ) (order : QuatOrder) : ℕ := if order = .wxyz then i else if i = 0 then 3 else i - 1

/-- An operation of a `MatrixAnim` (matrix_op.h:130-190): constant or driven by a spline. The
identifiers are natural numbers; the code has 8 bits for them. -/
structure AnimationOp where
  id : ℕ
  type : OpType
  drive : ℝ ⊕ Spline

/-- The values of the enumerators of `MatrixOperationType` (matrix_op.h:48-68). -/
def enumValue : OpType → ℕ
  | .invalid => 0 | .rotateX => 1 | .rotateY => 2 | .rotateZ => 3 | .translateX => 4 | .translateY => 5 | .translateZ => 6
  | .scaleX => 7 | .scaleY => 8 | .scaleZ => 9 | .scaleUniformly => 10 | .quatW => 11 | .quatX => 12 | .quatY => 13 | .quatZ => 14

/-- `static_cast<MatrixOperationType>` (keyframe_converter.cpp:341, 354, 380, 396); values that name no type are `invalid`. -/
def ofEnum (n : ℕ) : OpType :=
  ([.invalid, .rotateX, .rotateY, .rotateZ, .translateX, .translateY, .translateZ, .scaleX, .scaleY, .scaleZ, .scaleUniformly,
    .quatW, .quatX, .quatY, .quatZ] : List OpType).getD n .invalid

/-- The type `base_type + i`. -/
def typeAt (base : OpType) (i : ℕ) : OpType := ofEnum (enumValue base + i)

/-- `IsOperationDefaultValue` (matrix_op.h:114-116), with `NearlyEqual` (71-74). -/
def isDefault (t : OpType) (v : ℝ) : Prop := |t.default - v| ≤ 1 / 100000

open Classical in
/-- `AddVector3Constants` (keyframe_converter.cpp:336-347). -/
def addVector3Constants (ops : List AnimationOp) (base : OpType) (id : ℕ) (v : ℕ → ℝ) : List AnimationOp :=
  (List.range 3).foldl (fun ops i => if isDefault (typeAt base i) (v i) then ops else ops ++ [⟨id + i, typeAt base i, .inl (v i)⟩]) ops

open Classical in
/-- `AddQuaternionConstants` (keyframe_converter.cpp:349-361). -/
def addQuaternionConstants (ops : List AnimationOp) (id : ℕ) (q : ℕ → ℝ) (order : QuatOrder) : List AnimationOp :=
  (List.range 4).foldl (fun ops i =>
    if isDefault (typeAt .quatW i) (q (quatIndex i order)) then ops else ops ++ [⟨id + i, typeAt .quatW i, .inl (q (quatIndex i order))⟩]) ops

/-- One step of the loops that add curves to an animation (keyframe_converter.cpp:376-382, 394-405). -/
def addCurve (nodes : List (List Uncompressed)) (type : OpType) (id index : ℕ) (ops : List AnimationOp) : Option (List AnimationOp) :=
  match nodes[index]? with
  | none => none
  | some l => match createFromNodes l with
    | none => none
    | some s => some (ops ++ [⟨id, type, .inr s⟩])

/-- `AddVector3Curves` (keyframe_converter.cpp:363-383). -/
def addVector3Curves (ops : List AnimationOp) (base : OpType) (id : ℕ) (d : KeyframeData) : Option (List AnimationOp) :=
  (List.range 3).foldlM (fun ops i =>
    addCurve (addKeyframeData d 3 fun frame _ => getArrayValue 3 d frame) (typeAt base i) (id + i) i ops) ops

/-- `AddQuaternionCurves` into an animation (keyframe_converter.cpp:385-406). -/
def addQuaternionOps (ops : List AnimationOp) (id : ℕ) (order : QuatOrder) (d : KeyframeData) : Option (List AnimationOp) :=
  (List.range 4).foldlM (fun ops i =>
    addCurve (addKeyframeData d 4 (getQuaternionValue d)) (typeAt .quatW i) (id + i) (quatIndex i order) ops) ops

end

end Motive.Util
