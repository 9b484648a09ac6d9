import Verif.Pipeline.Again
import Verif.Pipeline.Scene
import Mathlib.LinearAlgebra.Matrix.NonsingularInverse
/-!
# Model of the import of the transform of a node (src/anim_pipeline/anim_pipeline.cpp), and C75

The FBX SDK is not modelled: a property has a value and perhaps curves, and what a curve returns from `Evaluate`, `EvaluateLeftDerivative`
and `EvaluateRightDerivative` is given by functions of the time.  `FbxTime` counts ticks, an integer; `GetMilliSeconds` is a parameter `ms`.
Floats are real numbers, and the assertion that a time fits into `FlatTime` is left out.
-/

namespace Motive.Pipeline
open Motive.Curve Motive.Matrix4

noncomputable section
open Classical

/-! ### What the FBX SDK provides -/

/-- A key of an `FbxAnimCurve`: `KeyGetTime`, `KeyGetValue`, `KeyGetLeftDerivative`, `KeyGetRightDerivative`. -/
structure FKey where
  time : ℤ
  val : ℝ
  left : ℝ
  right : ℝ

/-- `FbxAnimCurve`. -/
structure FCurve where
  keys : List FKey
  eval : ℤ → ℝ
  leftDeriv : ℤ → ℝ
  rightDeriv : ℤ → ℝ

/-- `FbxAnimCurveNode`: `GetChannelsCount`, `GetChannelValue` and `GetCurve`. -/
structure CurveNode where
  count : ℕ
  value : ℕ → ℝ
  curve : ℕ → Option FCurve

/-- `FbxPropertyT<FbxDouble3>`: `Get`, and what `AnimCurveNodeDrivingProperty` (anim_pipeline.cpp:335-343) finds. -/
structure FProperty where
  value : ℕ → ℝ
  node : Option CurveNode

/-- `FbxEuler::EOrder`. -/
inductive EOrder where
  | xyz | xzy | yzx | yxz | zxy | zyx | sphericXyz
deriving DecidableEq

/-- The transform of an `FbxNode`. -/
structure FTransform where
  lclTranslation : FProperty
  rotationOffset : FProperty
  rotationPivot : FProperty
  preRotation : FProperty
  lclRotation : FProperty
  postRotation : FProperty
  scalingOffset : FProperty
  scalingPivot : FProperty
  lclScaling : FProperty
  order : EOrder

/-! ### The model -/

/-- `AnimProperty` with `AnimOp` (anim_pipeline.cpp:270-279). -/
structure AnimProperty where
  property : FProperty
  id : ℕ
  op : OpType
  invert : Bool

/-- `static_cast<MatrixOperationType>(op + channel)` (anim_pipeline.cpp:443-444). -/
def opPlus (op : OpType) (channel : ℕ) : OpType :=
  match opValue op + channel with
  | 1 => .rotateX | 2 => .rotateY | 3 => .rotateZ | 4 => .translateX | 5 => .translateY | 6 => .translateZ
  | 7 => .scaleX | 8 => .scaleY | 9 => .scaleZ | 10 => .scaleUniformly | 11 => .quatW | 12 => .quatX | 13 => .quatY | 14 => .quatZ
  | _ => .invalid

/-- `InvertValue` (anim_pipeline.cpp:286-288). -/
def invertValue (val : ℝ) (p : AnimProperty) : ℝ := if p.invert = false then val else if p.op.isScale then 1 / val else -val

/-- `FbxToFlatValue` (anim_pipeline.cpp:290-295). -/
def flatValue (x : ℝ) (p : AnimProperty) : ℝ := invertValue (if p.op.isRotate then Real.pi / 180 * x else x) p

/-- `FbxToFlatDerivative` (anim_pipeline.cpp:297-302). -/
def flatDerivative (d : ℝ) (p : AnimProperty) : ℝ := flatValue (d / 1000) p

/-- The loop of `AnimConst` (anim_pipeline.cpp:375-386): all keys pass. -/
def keysConst (p : AnimProperty) (tol dtol first : ℝ) : List FKey → Prop
  | a :: b :: rest => |derivativeAngle (flatDerivative a.left p)| ≤ dtol ∧ |derivativeAngle (flatDerivative a.right p)| ≤ dtol ∧
      |flatValue b.val p - first| ≤ tol ∧ keysConst p tol dtol first (b :: rest)
  | _ => True

/-- `AnimConst` (anim_pipeline.cpp:345-388): the constant, if it returns true. -/
def animConst (p : AnimProperty) (channel : ℕ) (tol dtol : ℝ) : Option ℝ :=
  match p.property.node with
  | none => some (flatValue (p.property.value channel) p)
  | some node =>
    if node.count ≤ channel then some (flatValue (p.property.value channel) p)
    else match node.curve channel with
      | none => some (flatValue (node.value channel) p)
      | some c =>
        match c.keys with
        | [] => some (flatValue (node.value channel) p)
        | k :: ks => if keysConst p tol dtol (flatValue k.val p) (k :: ks) then some (flatValue k.val p) else none

/-- `kRotationOrderToChannelOrder` (anim_pipeline.cpp:36-44). -/
def rotationChannelOrder : EOrder → List ℕ
  | .xyz => [2, 1, 0] | .xzy => [2, 0, 1] | .yzx => [1, 0, 2] | .yxz => [1, 2, 0] | .zxy => [0, 2, 1] | .zyx => [0, 1, 2]
  | .sphericXyz => [2, 1, 0]
/-- `kRotationOrderToChannelOrderInverted` (anim_pipeline.cpp:45-53). -/
def rotationChannelOrderInverted : EOrder → List ℕ
  | .xyz => [0, 1, 2] | .xzy => [0, 2, 1] | .yzx => [1, 2, 0] | .yxz => [1, 0, 2] | .zxy => [2, 0, 1] | .zyx => [2, 1, 0]
  | .sphericXyz => [0, 1, 2]

/-- `ChannelOrder` (anim_pipeline.cpp:390-402). -/
def channelOrder (o : EOrder) (p : AnimProperty) : List ℕ :=
  if p.op.isRotate = false then [0, 1, 2] else if p.invert then rotationChannelOrderInverted o else rotationChannelOrder o

/-- The samples of a key interval (anim_pipeline.cpp:509-527), from `start` on, every `inc` ticks: the values and the derivatives. -/
def samples (p : AnimProperty) (c : FCurve) (start inc : ℤ) : (ℕ → ℝ) × (ℕ → ℝ) :=
  (fun i => flatValue (c.eval (start + inc * i)) p,
   fun i => if i = 0 then flatDerivative (c.rightDeriv start) p else flatDerivative (c.leftDeriv (start + inc * i)) p)

/-- The body of the loop over the key intervals (anim_pipeline.cpp:499-533), without the log; `n` is the list of nodes of the channel. -/
def gatherInterval (ms : ℤ → ℤ) (span : ℤ × ℤ) (tol : ℝ) (p : AnimProperty) (c : FCurve) (a b : FKey) (n : List Node) : Option (List Node) :=
  if span.2 < a.time ∨ b.time < span.1 then some n
  else
    let start := max span.1 a.time
    let stop := min span.2 b.time
    let s := samples p c start (Int.tdiv (stop - start) 15)
    addCurve tol n (ms start) (ms stop) s.1 s.2 16

/-- The loop over the key intervals (anim_pipeline.cpp:498-544). -/
def gatherIntervals (ms : ℤ → ℤ) (span : ℤ × ℤ) (tol : ℝ) (p : AnimProperty) (c : FCurve) : List FKey → List Node → Option (List Node)
  | a :: b :: rest, n =>
    match gatherInterval ms span tol p c a b n with
    | none => none
    | some n' => gatherIntervals ms span tol p c (b :: rest) n'
  | _, n => some n

/-- `GatherFlatAnimCurve` (anim_pipeline.cpp:492-549), and the assertion after it (line 483). -/
def gatherCurve (ms : ℤ → ℤ) (span : ℤ × ℤ) (tol dtol : ℝ) (p : AnimProperty) (c : FCurve) : Option (List Node) :=
  if c.keys.length ≤ 1 then none
  else match gatherIntervals ms span tol p c c.keys [] with
    | none => none
    | some n => if pruneNodes tol dtol n = [] then none else some (pruneNodes tol dtol n)

/-- The body of the loop over the channels of a property (anim_pipeline.cpp:440-484): the channel that it adds, if any. -/
def gatherChannel (ms : ℤ → ℤ) (span : ℤ × ℤ) (tl : Tolerances) (p : AnimProperty) (idx channel : ℕ) : Option (List Channel) :=
  let op := opPlus p.op channel
  match animConst p channel (tl.forOp op) tl.derivativeAngle with
  | some v => if isDefaultValue tl op v then some [] else some [⟨op, p.id + idx, addConstant v⟩]
  | none =>
    match p.property.node with
    | none => none
    | some node =>
      match node.curve channel with
      | none => none
      | some c =>
        match gatherCurve ms span (tl.forOp op) tl.derivativeAngle p c with
        | none => none
        | some n => some [⟨op, p.id + idx, n⟩]

/-- The loop over the channels of a property (anim_pipeline.cpp:439-484), from the index `idx` on. -/
def gatherChannels (ms : ℤ → ℤ) (span : ℤ × ℤ) (tl : Tolerances) (p : AnimProperty) (idx : ℕ) : List ℕ → Option (List Channel)
  | [] => some []
  | channel :: rest =>
    match gatherChannel ms span tl p idx channel, gatherChannels ms span tl p (idx + 1) rest with
    | some a, some b => some (a ++ b)
    | _, _ => none

/-- The body of the loop over the properties (anim_pipeline.cpp:424-485). -/
def gatherProperty (ms : ℤ → ℤ) (span : ℤ × ℤ) (tl : Tolerances) (o : EOrder) (p : AnimProperty) : Option (List Channel) :=
  match p.property.node with
  | some node => if node.count ≠ 3 then some [] else gatherChannels ms span tl p 0 (channelOrder o p)
  | none => gatherChannels ms span tl p 0 (channelOrder o p)

/-- `properties` (anim_pipeline.cpp:412-423). -/
def FTransform.properties (x : FTransform) : List AnimProperty :=
  [⟨x.lclTranslation, 0, .translateX, false⟩, ⟨x.rotationOffset, 0, .translateX, false⟩, ⟨x.rotationPivot, 0, .translateX, false⟩,
   ⟨x.preRotation, 3, .rotateX, false⟩, ⟨x.lclRotation, 6, .rotateX, false⟩, ⟨x.postRotation, 9, .rotateX, true⟩,
   ⟨x.rotationPivot, 12, .translateX, true⟩, ⟨x.scalingOffset, 12, .translateX, false⟩, ⟨x.scalingPivot, 12, .translateX, false⟩,
   ⟨x.lclScaling, 15, .scaleX, false⟩, ⟨x.scalingPivot, 19, .translateX, true⟩]

/-- The loop over the properties (anim_pipeline.cpp:429-485). -/
def gatherProperties (ms : ℤ → ℤ) (span : ℤ × ℤ) (tl : Tolerances) (o : EOrder) : List AnimProperty → Option (List Channel)
  | [] => some []
  | p :: ps =>
    match gatherProperty ms span tl o p, gatherProperties ms span tl o ps with
    | some a, some b => some (a ++ b)
    | _, _ => none

/-- `GatherFlatAnimForNode` (anim_pipeline.cpp:409-489) without `PruneChannels`: the channels of the bone. -/
def gatherTransform (ms : ℤ → ℤ) (span : ℤ × ℤ) (tl : Tolerances) (x : FTransform) : Option (List Channel) :=
  gatherProperties ms span tl x.order x.properties

/-! ### Specification -/

/-- The properties are counted as in the formula of `GatherFlatAnimForNode`: T, Roff, Rp, Rpre, R, Rpost⁻¹, Rp⁻¹, Soff, Sp, S, Sp⁻¹. -/
def FTransform.prop (x : FTransform) (i : ℕ) : AnimProperty := x.properties.getD i ⟨x.lclTranslation, 0, .translateX, false⟩

/-- The operation for an axis of a property. -/
def FTransform.op (x : FTransform) (i axis : ℕ) : OpType := opPlus (x.prop i).op axis

/-- The nodes that are imported for an axis of a property: a constant, or those of the curve. -/
def FTransform.nodes (x : FTransform) (ms : ℤ → ℤ) (span : ℤ × ℤ) (tl : Tolerances) (i axis : ℕ) : Option (List Node) :=
  match animConst (x.prop i) axis (tl.forOp (x.op i axis)) tl.derivativeAngle with
  | some v => some [⟨0, v, 0⟩]
  | none => ((x.prop i).property.node.bind fun node => node.curve axis).bind fun c =>
      gatherCurve ms span (tl.forOp (x.op i axis)) tl.derivativeAngle (x.prop i) c

/-- The value of an axis of a property at a time, in the units of Motive, as imported. -/
def FTransform.imported (x : FTransform) (ms : ℤ → ℤ) (span : ℤ × ℤ) (tl : Tolerances) (t : ℝ) (i axis : ℕ) : ℝ :=
  if (x.prop i).invert then -curveAt ((x.nodes ms span tl i axis).getD []) t else curveAt ((x.nodes ms span tl i axis).getD []) t

/-- Properties that are animated have three channels. -/
def FTransform.ThreeChannels (x : FTransform) : Prop := ∀ p ∈ x.properties, ∀ node, p.property.node = some node → node.count = 3

abbrev Mat4 := Matrix (Fin 4) (Fin 4) ℝ

def translation (v : ℕ → ℝ) : Mat4 := !![1, 0, 0, v 0; 0, 1, 0, v 1; 0, 0, 1, v 2; 0, 0, 0, 1]
def scaleBy (v : ℕ → ℝ) : Mat4 := !![v 0, 0, 0, 0; 0, v 1, 0, 0; 0, 0, v 2, 0; 0, 0, 0, 1]
def rotX (v : ℕ → ℝ) : Mat4 := elementary (.rotateX, v 0)
def rotY (v : ℕ → ℝ) : Mat4 := elementary (.rotateY, v 1)
def rotZ (v : ℕ → ℝ) : Mat4 := elementary (.rotateZ, v 2)

/-- Rotation by Euler angles: the first axis of the name of the order is applied first.  (The spherical order counts as the first.) -/
def euler : EOrder → (ℕ → ℝ) → Mat4
  | .xyz, v => rotZ v * rotY v * rotX v
  | .xzy, v => rotY v * rotZ v * rotX v
  | .yzx, v => rotX v * rotZ v * rotY v
  | .yxz, v => rotZ v * rotX v * rotY v
  | .zxy, v => rotY v * rotX v * rotZ v
  | .zyx, v => rotX v * rotY v * rotZ v
  | .sphericXyz, v => rotZ v * rotY v * rotX v

/-- The rotation that the importer outputs instead. -/
def eulerImported : EOrder → (ℕ → ℝ) → Mat4
  | .xyz, v => rotZ v * rotY v * rotX v
  | .xzy, v => rotZ v * rotX v * rotY v
  | .yzx, v => rotY v * rotX v * rotZ v
  | .yxz, v => rotY v * rotZ v * rotX v
  | .zxy, v => rotX v * rotZ v * rotY v
  | .zyx, v => rotX v * rotY v * rotZ v
  | .sphericXyz, v => rotZ v * rotY v * rotX v

/-- The transform of a node (anim_pipeline.cpp:411-415) for the values of its properties; `rot` and `post` are the rotations by Euler angles. -/
def transform (rot post : (ℕ → ℝ) → Mat4) (u : ℕ → ℕ → ℝ) : Mat4 :=
  translation (u 0) * translation (u 1) * translation (u 2) * rot (u 3) * rot (u 4) * (post (u 5))⁻¹ * (translation (u 6))⁻¹ *
    translation (u 7) * translation (u 8) * scaleBy (u 9) * (translation (u 10))⁻¹

/-! ### The matrices -/

theorem translation_prod (a b c : ℝ) (v : ℕ → ℝ) (h0 : v 0 = a) (h1 : v 1 = b) (h2 : v 2 = c) :
    elementary (.translateX, a) * (elementary (.translateY, b) * elementary (.translateZ, c)) = translation v := by
  subst h0 h1 h2
  ext i j
  fin_cases i <;> fin_cases j <;> simp [elementary, translation, Matrix.mul_apply, Fin.sum_univ_four]

theorem scaleBy_prod (v : ℕ → ℝ) : elementary (.scaleX, v 0) * (elementary (.scaleY, v 1) * elementary (.scaleZ, v 2)) = scaleBy v := by
  ext i j
  fin_cases i <;> fin_cases j <;> simp [elementary, scaleBy, Matrix.mul_apply, Fin.sum_univ_four]

theorem translation_inv (v : ℕ → ℝ) : translation (fun i => -v i) = (translation v)⁻¹ := by
  symm
  apply Matrix.inv_eq_right_inv
  ext i j
  fin_cases i <;> fin_cases j <;> simp [translation, Matrix.mul_apply, Fin.sum_univ_four]

theorem rot_inv {t : OpType} (h : t.isRotate) (a : ℝ) : (elementary (t, a))⁻¹ = elementary (t, -a) := by
  apply Matrix.inv_eq_right_inv
  have := congrArg Prod.fst (E_add (Or.inl h) a (-a))
  rw [add_neg_cancel] at this
  change elementary (t, a) * elementary (t, -a) = elementary (t, 0) at this
  rw [this]
  cases t <;> simp [OpType.isRotate] at h <;>
    (ext i j
     fin_cases i <;> fin_cases j <;> simp [elementary])

/-- The imported inverse rotations are right. -/
theorem euler_inv (o : EOrder) (v : ℕ → ℝ) : ((rotationChannelOrderInverted o).map fun a => elementary (opPlus .rotateX a, -v a)).prod = (euler o v)⁻¹ := by
  have hx : (rotX v)⁻¹ = elementary (.rotateX, -v 0) := rot_inv rfl _
  have hy : (rotY v)⁻¹ = elementary (.rotateY, -v 1) := rot_inv rfl _
  have hz : (rotZ v)⁻¹ = elementary (.rotateZ, -v 2) := rot_inv rfl _
  cases o <;> simp [rotationChannelOrderInverted, euler, opPlus, opValue, Matrix.mul_inv_rev, hx, hy, hz, Matrix.mul_assoc]

theorem euler_imported (o : EOrder) (v : ℕ → ℝ) : ((rotationChannelOrder o).map fun a => elementary (opPlus .rotateX a, v a)).prod = eulerImported o v := by
  cases o <;> simp [rotationChannelOrder, eulerImported, opPlus, opValue, rotX, rotY, rotZ, Matrix.mul_assoc]

/-! ### The parts of the transform -/

/-- An axis of a property, and the position of the axis among the three. -/
structure Part where
  index : ℕ
  axis : ℕ
  pos : ℕ
deriving DecidableEq

/-- The axes of a property, in order. -/
def partsOf (o : EOrder) (i : ℕ) (p : AnimProperty) : List Part := (channelOrder o p).zipIdx.map fun a => ⟨i, a.1, a.2⟩

def FTransform.parts (x : FTransform) : List Part := (List.range 11).flatMap fun i => partsOf x.order i (x.prop i)

/-- The channel for a part with these nodes. -/
def FTransform.channel (x : FTransform) (N : ℕ → ℕ → List Node) (s : Part) : Channel := ⟨x.op s.index s.axis, (x.prop s.index).id + s.pos, N s.index s.axis⟩

/-- `PairOk` for operations and ids, as a boolean. -/
def pairOkB (c d : OpType × ℕ) : Bool :=
  (!c.1.isScale || decide (d.1 ≠ c.1)) && !(decide (c.1 = .scaleX) && decide (d.1 = .scaleUniformly)) &&
    !(decide (c.1 = .scaleUniformly) && decide (d.1 = .scaleX)) &&
    ((c.1.isTranslate && d.1.isTranslate) ||
      (Nat.blt c.2 d.2 && (!(c.1.isScale) || d.1.isScale || Nat.blt (c.2 + (opValue .scaleUniformly - opValue c.1)) d.2)))

theorem pairOkB_spec {c d : Channel} (hc : c.op ≠ .scaleUniformly) (hd : d.op ≠ .scaleUniformly) (h : pairOkB (c.op, c.id) (d.op, d.id)) : PairOk c d := by
  unfold pairOkB at h
  simp only [Bool.and_eq_true, Bool.or_eq_true, Bool.not_eq_true', decide_eq_true_eq, Bool.and_eq_false_iff, decide_eq_false_iff_not,
    Nat.blt_eq] at h
  obtain ⟨⟨⟨h1, h2⟩, h3⟩, h4⟩ := h
  refine ⟨fun e => ?_, fun e => ?_, fun e => ?_, ?_⟩
  · rcases h1 with h1 | h1
    · rw [h1] at e; simp at e
    · exact h1
  · tauto
  · tauto
  · rcases h4 with h4 | ⟨h4, h5⟩
    · exact Or.inl h4
    · refine Or.inr ⟨h4, fun e1 e2 => ?_⟩
      rcases h5 with (h5 | h5) | h5
      · rcases e1 with e | e | e <;> rw [e] at h5 <;> simp [OpType.isScale] at h5
      · exfalso
        apply e2
        revert h5 hd
        unfold IsXyz
        cases d.op <;> simp [OpType.isScale]
      · exact h5

/-- The operations and the ids of the parts, for each order. -/
def slots (o : EOrder) : List (OpType × ℕ) :=
  let t (k : ℕ) : List (OpType × ℕ) := [(.translateX, k), (.translateY, k + 1), (.translateZ, k + 2)]
  let r (k : ℕ) (l : List ℕ) : List (OpType × ℕ) := l.zipIdx.map fun a => (opPlus .rotateX a.1, k + a.2)
  t 0 ++ t 0 ++ t 0 ++ r 3 (rotationChannelOrder o) ++ r 6 (rotationChannelOrder o) ++ r 9 (rotationChannelOrderInverted o) ++ t 12 ++ t 12 ++ t 12 ++
    [(.scaleX, 15), (.scaleY, 16), (.scaleZ, 17)] ++ t 19

theorem parts_slots (x : FTransform) : (x.parts.map fun s => (x.op s.index s.axis, (x.prop s.index).id + s.pos)) = slots x.order := by
  obtain ⟨a1, a2, a3, a4, a5, a6, a7, a8, a9, o⟩ := x
  cases o <;> rfl

def pairwiseB (f : OpType × ℕ → OpType × ℕ → Bool) : List (OpType × ℕ) → Bool
  | [] => true
  | a :: l => l.all (f a) && pairwiseB f l

theorem pairwiseB_spec {f : OpType × ℕ → OpType × ℕ → Bool} : ∀ {l : List (OpType × ℕ)}, pairwiseB f l = true → l.Pairwise fun a b => f a b = true
  | [], _ => .nil
  | a :: l, h => by
    simp only [pairwiseB, Bool.and_eq_true, List.all_eq_true] at h
    exact List.pairwise_cons.mpr ⟨h.1, pairwiseB_spec h.2⟩

theorem slots_ok (o : EOrder) : pairwiseB pairOkB (slots o) = true ∧
    ((slots o).all fun c => (slots o).all fun d => !c.1.isTranslate || !d.1.isTranslate || !(Nat.beq c.2 d.2) || Nat.beq (opValue c.1) (opValue d.1)) = true ∧
    ((slots o).all fun c => (c.1.isRotate || c.1.isTranslate || c.1.isScale) && !(Nat.beq (opValue c.1) (opValue .scaleUniformly))) = true := by
  cases o <;> refine ⟨?_, ?_, ?_⟩ <;> rfl

/-- A constant that is close to the default of its operation is not output. -/
def FTransform.Skipped (x : FTransform) (tl : Tolerances) (i axis : ℕ) : Prop :=
  ∃ v, animConst (x.prop i) axis (tl.forOp (x.op i axis)) tl.derivativeAngle = some v ∧ isDefaultValue tl (x.op i axis) v

def FTransform.out (x : FTransform) (tl : Tolerances) (N : ℕ → ℕ → List Node) (s : Part) : List Channel :=
  if x.Skipped tl s.index s.axis then [] else [x.channel N s]

theorem gatherChannel_eq {ms : ℤ → ℤ} {span : ℤ × ℤ} {tl : Tolerances} {x : FTransform} {N : ℕ → ℕ → List Node} {i axis : ℕ} (pos : ℕ)
    (h : x.nodes ms span tl i axis = some (N i axis)) :
    gatherChannel ms span tl (x.prop i) pos axis = some (x.out tl N ⟨i, axis, pos⟩) := by
  unfold gatherChannel FTransform.out FTransform.Skipped FTransform.channel
  unfold FTransform.nodes at h
  simp only
  change (match animConst (x.prop i) axis (tl.forOp (x.op i axis)) tl.derivativeAngle with | some v => _ | none => _) = _
  cases hc : animConst (x.prop i) axis (tl.forOp (x.op i axis)) tl.derivativeAngle with
  | some v =>
    rw [hc] at h
    simp only [Option.some.injEq] at h
    simp only [Option.some.injEq, exists_eq_left']
    change (if isDefaultValue tl (x.op i axis) v then _ else _) = _
    split_ifs
    · rfl
    · rw [← h]; rfl
  | none =>
    rw [hc] at h
    simp only [reduceCtorEq, false_and, exists_false, if_false] at h ⊢
    cases hn : (x.prop i).property.node with
    | none => rw [hn] at h; simp at h
    | some node =>
      rw [hn] at h
      simp only [Option.bind_some] at h ⊢
      cases hcv : node.curve axis with
      | none => rw [hcv] at h; simp at h
      | some c =>
        rw [hcv] at h
        simp only [Option.bind_some] at h ⊢
        change (match gatherCurve ms span (tl.forOp (x.op i axis)) tl.derivativeAngle (x.prop i) c with | none => _ | some n => _) = _
        rw [h]
        rfl

theorem gatherChannels_eq {ms : ℤ → ℤ} {span : ℤ × ℤ} {tl : Tolerances} {x : FTransform} {N : ℕ → ℕ → List Node} {i : ℕ} :
    ∀ (l : List ℕ) (idx : ℕ), (∀ axis ∈ l, x.nodes ms span tl i axis = some (N i axis)) →
      gatherChannels ms span tl (x.prop i) idx l = some (((l.zipIdx idx).map fun a => (⟨i, a.1, a.2⟩ : Part)).flatMap (x.out tl N))
  | [], _, _ => rfl
  | a :: l, idx, h => by
    rw [gatherChannels, gatherChannel_eq idx (h a (by simp)), gatherChannels_eq l (idx + 1) fun b hb => h b (by simp [hb])]
    simp [List.zipIdx_cons]

theorem axis_lt (o : EOrder) (p : AnimProperty) : ∀ a ∈ channelOrder o p, a < 3 := by
  intro a ha
  unfold channelOrder at ha
  split_ifs at ha
  · simp at ha; omega
  · cases o <;> simp [rotationChannelOrderInverted] at ha <;> omega
  · cases o <;> simp [rotationChannelOrder] at ha <;> omega

theorem prop_mem (x : FTransform) {i : ℕ} (hi : i < 11) : x.prop i ∈ x.properties := by
  unfold FTransform.prop
  have : i < x.properties.length := by simpa [FTransform.properties] using hi
  simp [List.getD_eq_getElem?_getD, this]

theorem gatherProperty_eq {ms : ℤ → ℤ} {span : ℤ × ℤ} {tl : Tolerances} {x : FTransform} {N : ℕ → ℕ → List Node} {i : ℕ} (hi : i < 11)
    (h3 : x.ThreeChannels) (h : ∀ axis < 3, x.nodes ms span tl i axis = some (N i axis)) :
    gatherProperty ms span tl x.order (x.prop i) = some ((partsOf x.order i (x.prop i)).flatMap (x.out tl N)) := by
  have hc := gatherChannels_eq (x := x) (N := N) (i := i) (channelOrder x.order (x.prop i)) 0 fun a ha => h a (axis_lt _ _ a ha)
  unfold gatherProperty
  cases hn : (x.prop i).property.node with
  | none => exact hc
  | some node =>
    simp only
    rw [if_neg (by rw [h3 _ (prop_mem x hi) node hn]; simp)]
    exact hc

theorem gatherProperties_eq {ms : ℤ → ℤ} {span : ℤ × ℤ} {tl : Tolerances} {x : FTransform} {N : ℕ → ℕ → List Node}
    (h3 : x.ThreeChannels) (h : ∀ i < 11, ∀ axis < 3, x.nodes ms span tl i axis = some (N i axis)) : ∀ l : List ℕ, (∀ i ∈ l, i < 11) →
      gatherProperties ms span tl x.order (l.map x.prop) = some ((l.flatMap fun i => partsOf x.order i (x.prop i)).flatMap (x.out tl N))
  | [], _ => rfl
  | i :: l, hl => by
    rw [List.map_cons, gatherProperties, gatherProperty_eq (hl i (by simp)) h3 (h i (hl i (by simp))),
      gatherProperties_eq h3 h l fun j hj => hl j (by simp [hj])]
    simp

theorem gatherTransform_eq {ms : ℤ → ℤ} {span : ℤ × ℤ} {tl : Tolerances} {x : FTransform} {N : ℕ → ℕ → List Node}
    (h3 : x.ThreeChannels) (h : ∀ i < 11, ∀ axis < 3, x.nodes ms span tl i axis = some (N i axis)) :
    gatherTransform ms span tl x = some (x.parts.flatMap (x.out tl N)) := by
  have := gatherProperties_eq h3 h (List.range 11) (by simp)
  exact this

/-- What is output is part of all the channels. -/
theorem out_sublist (x : FTransform) (tl : Tolerances) (N : ℕ → ℕ → List Node) (l : List Part) :
    (l.flatMap (x.out tl N)).Sublist (l.map (x.channel N)) := by
  induction l with
  | nil => simp
  | cons s l ih =>
    rw [List.flatMap_cons, List.map_cons]
    unfold FTransform.out
    split_ifs
    · exact ih.cons _
    · exact ih.cons_cons _

theorem parts_mem {x : FTransform} {s : Part} (h : s ∈ x.parts) : s.index < 11 ∧ s.axis < 3 := by
  unfold FTransform.parts partsOf at h
  simp only [List.mem_flatMap, List.mem_range, List.mem_map] at h
  obtain ⟨i, hi, a, ha, rfl⟩ := h
  exact ⟨hi, axis_lt _ _ _ (List.fst_mem_of_mem_zipIdx ha)⟩

theorem parts_ok (x : FTransform) (N : ℕ → ℕ → List Node) : (x.parts.map (x.channel N)).Pairwise PairOk ∧ IdsOk (x.parts.map (x.channel N)) ∧
    ∀ c ∈ x.parts.map (x.channel N), Supported c.op := by
  have hs := parts_slots x
  obtain ⟨o1, o2, o3⟩ := slots_ok x.order
  have hm : ∀ s ∈ x.parts, (x.op s.index s.axis, (x.prop s.index).id + s.pos) ∈ slots x.order := fun s h => by
    rw [← hs]; exact List.mem_map_of_mem h
  simp only [List.all_eq_true, Bool.and_eq_true, Bool.or_eq_true, Bool.not_eq_true'] at o2 o3
  have hu : ∀ s ∈ x.parts, x.op s.index s.axis ≠ .scaleUniformly := by
    intro s h e
    have := (o3 _ (hm s h)).2
    simp only [e] at this
    exact absurd this (by decide)
  refine ⟨?_, ?_, ?_⟩
  · have := pairwiseB_spec o1
    rw [← hs, List.pairwise_map] at this
    rw [List.pairwise_map]
    exact this.imp_of_mem fun {a b} ha hb h => pairOkB_spec (hu a ha) (hu b hb) h
  · intro c hc d hd h1 h2 e
    obtain ⟨a, ha, rfl⟩ := List.mem_map.mp hc
    obtain ⟨b, hb, rfl⟩ := List.mem_map.mp hd
    have := o2 _ (hm a ha) _ (hm b hb)
    simp only [FTransform.channel] at h1 h2 e ⊢
    rw [h1, h2, e] at this
    simp only [reduceCtorEq, false_or] at this
    rcases this with h | h
    · simp at h
    · revert h
      cases x.op a.index a.axis <;> cases x.op b.index b.axis <;> simp [opValue]
  · intro c hc
    obtain ⟨a, ha, rfl⟩ := List.mem_map.mp hc
    have := (o3 _ (hm a ha)).1
    unfold Supported
    simp only [FTransform.channel]
    tauto

theorem forOp_le_error {tl : Tolerances} (htl : tl.Ok) {w : ℝ} (hw : 0 ≤ w) (op : OpType) (h : Supported op) : tl.forOp op ≤ tl.error w op := by
  unfold Tolerances.error
  split_ifs with hs
  · have : tl.forOp op = tl.scale := by
      cases op <;> simp [OpType.isScale] at hs <;> simp [Tolerances.forOp, OpType.isScale, OpType.isRotate, OpType.isTranslate]
    rw [this]
    have h1 := htl.tan hw
    have h2 := htl.1
    linarith
  · exact le_rfl

/-- Parts that are not output count as operations with their default. -/
theorem fill {tl : Tolerances} (htl : tl.Ok) {w : ℝ} (hw : 0 ≤ w) {ms : ℤ → ℤ} {span : ℤ × ℤ} {x : FTransform} {N : ℕ → ℕ → List Node} (t : ℝ) :
    ∀ (parts : List Part) (l : List (OpType × ℝ)), (∀ s ∈ parts, Supported (x.op s.index s.axis) ∧ x.nodes ms span tl s.index s.axis = some (N s.index s.axis)) →
      List.Forall₂ (fun p c => p.1 = c.op ∧ |p.2 - curveAt c.nodes t| ≤ tl.error w c.op) l (parts.flatMap (x.out tl N)) →
      ∃ l', List.Forall₂ (fun (p : OpType × ℝ) (s : Part) => p.1 = x.op s.index s.axis ∧
        |p.2 - curveAt (N s.index s.axis) t| ≤ tl.error w (x.op s.index s.axis)) l' parts ∧ (l'.map E).prod = (l.map E).prod
  | [], l, _, f => by
    rw [List.flatMap_nil] at f
    cases f
    exact ⟨[], .nil, rfl⟩
  | s :: parts, l, h, f => by
    obtain ⟨hs1, hs2⟩ := h s (by simp)
    rw [List.flatMap_cons] at f
    by_cases hsk : x.Skipped tl s.index s.axis
    · rw [show x.out tl N s = [] from if_pos hsk] at f
      obtain ⟨l', f', e⟩ := fill htl hw t parts l (fun a ha => h a (by simp [ha])) (by simpa using f)
      obtain ⟨v, v1, v2⟩ := hsk
      have hN : N s.index s.axis = [⟨0, v, 0⟩] := by
        unfold FTransform.nodes at hs2
        rw [v1] at hs2
        simpa using hs2.symm
      refine ⟨(x.op s.index s.axis, defaultOpValue (x.op s.index s.axis)) :: l', .cons ⟨rfl, ?_⟩ f', ?_⟩
      · rw [hN, curveAt, abs_sub_comm]
        exact (le_of_lt v2).trans (forOp_le_error htl hw _ hs1)
      · rw [List.map_cons, List.prod_cons, E_default hs1, one_mul, e]
    · rw [show x.out tl N s = [x.channel N s] from if_neg hsk, List.singleton_append] at f
      cases f with
      | cons h1 f =>
        obtain ⟨l', f', e⟩ := fill htl hw t parts _ (fun a ha => h a (by simp [ha])) f
        exact ⟨_ :: l', .cons h1 f', by rw [List.map_cons, List.prod_cons, List.map_cons, List.prod_cons, e]⟩

/-- Each axis of each property occurs once. -/
theorem parts_distinct (x : FTransform) : (x.parts.map fun s => (s.index, s.axis)).Nodup := by
  obtain ⟨a1, a2, a3, a4, a5, a6, a7, a8, a9, o⟩ := x
  cases o
  all_goals
    first
      | (change ([_, _, _, _, _, _, _, _, _, _, _, _, _, _, _, _, _, _, _, _, _, _, _, _, _, _, _, _, _, _, _, _, _] : List (ℕ × ℕ)).Nodup
         decide +kernel)

theorem parts_all (x : FTransform) {i axis : ℕ} (hi : i < 11) (ha : axis < 3) : ∃ s ∈ x.parts, s.index = i ∧ s.axis = axis := by
  have : (i, axis) ∈ x.parts.map fun s => (s.index, s.axis) := by
    obtain ⟨a1, a2, a3, a4, a5, a6, a7, a8, a9, o⟩ := x
    have h1 : i = 0 ∨ i = 1 ∨ i = 2 ∨ i = 3 ∨ i = 4 ∨ i = 5 ∨ i = 6 ∨ i = 7 ∨ i = 8 ∨ i = 9 ∨ i = 10 := by omega
    have h2 : axis = 0 ∨ axis = 1 ∨ axis = 2 := by omega
    cases o
    all_goals
      change _ ∈ ([_, _, _, _, _, _, _, _, _, _, _, _, _, _, _, _, _, _, _, _, _, _, _, _, _, _, _, _, _, _, _, _, _] : List (ℕ × ℕ))
      rcases h1 with rfl | rfl | rfl | rfl | rfl | rfl | rfl | rfl | rfl | rfl | rfl <;> rcases h2 with rfl | rfl | rfl <;> decide +kernel
  obtain ⟨s, hs, e⟩ := List.mem_map.mp this
  simp only [Prod.mk.injEq] at e
  exact ⟨s, hs, e⟩

/-- A value for each part is a function of the property and the axis. -/
theorem as_function {f : Part → OpType} {Q : ℝ → Part → Prop} : ∀ (parts : List Part) (l : List (OpType × ℝ)),
    (parts.map fun s => (s.index, s.axis)).Nodup → List.Forall₂ (fun (p : OpType × ℝ) (s : Part) => p.1 = f s ∧ Q p.2 s) l parts →
      ∃ u : ℕ → ℕ → ℝ, l = parts.map (fun s => (f s, u s.index s.axis)) ∧ ∀ s ∈ parts, Q (u s.index s.axis) s
  | [], _, _, h => by cases h; exact ⟨fun _ _ => 0, rfl, by simp⟩
  | s :: parts, _, hn, .cons (a := p) (l₁ := l) h hl => by
    rw [List.map_cons, List.nodup_cons] at hn
    obtain ⟨u, u1, u2⟩ := as_function parts l hn.2 hl
    have hne : ∀ r ∈ parts, ¬ (r.index = s.index ∧ r.axis = s.axis) := by
      rintro r hr ⟨e1, e2⟩
      exact hn.1 (List.mem_map.mpr ⟨r, hr, by rw [e1, e2]⟩)
    refine ⟨fun i a => if i = s.index ∧ a = s.axis then p.2 else u i a, ?_, ?_⟩
    · rw [List.map_cons, u1]
      congr 1
      · simp [← h.1]
      · exact List.map_congr_left fun r hr => by simp only [if_neg (hne r hr)]
    · intro r hr
      rcases List.mem_cons.mp hr with rfl | hr
      · simpa using h.2
      · simp only [if_neg (hne r hr)]
        exact u2 r hr

def FTransform.sign (x : FTransform) (u : ℕ → ℕ → ℝ) (i axis : ℕ) : ℝ := if (x.prop i).invert then -u i axis else u i axis

/-- The product of all the parts. -/
theorem parts_prod (x : FTransform) (u : ℕ → ℕ → ℝ) :
    ((x.parts.map fun s => (x.op s.index s.axis, x.sign u s.index s.axis)).map elementary).prod = transform (eulerImported x.order) (euler x.order) u := by
  have hr : ∀ i, x.prop i = ⟨(x.prop i).property, (x.prop i).id, .rotateX, false⟩ →
      ((partsOf x.order i (x.prop i)).map fun s => elementary (x.op s.index s.axis, x.sign u s.index s.axis)).prod = eulerImported x.order (u i) := by
    intro i e
    rw [← euler_imported]
    unfold partsOf
    have hc : channelOrder x.order (x.prop i) = rotationChannelOrder x.order := by rw [e]; rfl
    have ho : (x.prop i).op = .rotateX := by rw [e]
    have hi : (x.prop i).invert = false := by rw [e]
    rw [hc]
    cases x.order <;> simp [rotationChannelOrder, FTransform.op, FTransform.sign, ho, hi]
  have hp : ((partsOf x.order 5 (x.prop 5)).map fun s => elementary (x.op s.index s.axis, x.sign u s.index s.axis)).prod = (euler x.order (u 5))⁻¹ := by
    rw [← euler_inv]
    unfold partsOf
    have hc : channelOrder x.order (x.prop 5) = rotationChannelOrderInverted x.order := rfl
    have ho : (x.prop 5).op = .rotateX := rfl
    have hi : (x.prop 5).invert = true := rfl
    rw [hc]
    cases x.order <;> simp [rotationChannelOrderInverted, FTransform.op, FTransform.sign, ho, hi]
  have ht : ∀ i, x.prop i = ⟨(x.prop i).property, (x.prop i).id, .translateX, false⟩ →
      ((partsOf x.order i (x.prop i)).map fun s => elementary (x.op s.index s.axis, x.sign u s.index s.axis)).prod = translation (u i) := by
    intro i e
    rw [← translation_prod (u i 0) (u i 1) (u i 2) (u i) rfl rfl rfl]
    unfold partsOf
    have hc : channelOrder x.order (x.prop i) = [0, 1, 2] := by rw [e]; rfl
    have ho : (x.prop i).op = .translateX := by rw [e]
    have hi : (x.prop i).invert = false := by rw [e]
    rw [hc]
    simp [FTransform.op, FTransform.sign, ho, hi, opPlus, opValue]
  have hti : ∀ i, x.prop i = ⟨(x.prop i).property, (x.prop i).id, .translateX, true⟩ →
      ((partsOf x.order i (x.prop i)).map fun s => elementary (x.op s.index s.axis, x.sign u s.index s.axis)).prod = (translation (u i))⁻¹ := by
    intro i e
    rw [← translation_inv, ← translation_prod (-u i 0) (-u i 1) (-u i 2) (fun j => -u i j) rfl rfl rfl]
    unfold partsOf
    have hc : channelOrder x.order (x.prop i) = [0, 1, 2] := by rw [e]; rfl
    have ho : (x.prop i).op = .translateX := by rw [e]
    have hi : (x.prop i).invert = true := by rw [e]
    rw [hc]
    simp [FTransform.op, FTransform.sign, ho, hi, opPlus, opValue]
  have hs : ((partsOf x.order 9 (x.prop 9)).map fun s => elementary (x.op s.index s.axis, x.sign u s.index s.axis)).prod = scaleBy (u 9) := by
    rw [← scaleBy_prod]
    unfold partsOf
    have hc : channelOrder x.order (x.prop 9) = [0, 1, 2] := rfl
    have ho : (x.prop 9).op = .scaleX := rfl
    have hi : (x.prop 9).invert = false := rfl
    rw [hc]
    simp [FTransform.op, FTransform.sign, ho, hi, opPlus, opValue]
  have hx : x.parts = partsOf x.order 0 (x.prop 0) ++ (partsOf x.order 1 (x.prop 1) ++ (partsOf x.order 2 (x.prop 2) ++ (partsOf x.order 3 (x.prop 3) ++
    (partsOf x.order 4 (x.prop 4) ++ (partsOf x.order 5 (x.prop 5) ++ (partsOf x.order 6 (x.prop 6) ++ (partsOf x.order 7 (x.prop 7) ++
    (partsOf x.order 8 (x.prop 8) ++ (partsOf x.order 9 (x.prop 9) ++ partsOf x.order 10 (x.prop 10)))))))))) := by
    simp [FTransform.parts, List.range_succ]
  rw [List.map_map, hx]
  simp only [Function.comp_def, List.map_append, List.prod_append]
  rw [ht 0 rfl, ht 1 rfl, ht 2 rfl, hr 3 rfl, hr 4 rfl, hp, hti 6 rfl, ht 7 rfl, ht 8 rfl, hs, hti 10 rfl]
  unfold transform
  simp only [Matrix.mul_assoc]

/-- C75: if the animated properties of a node have three channels, and the curves that are imported for them are as `ChannelOk` requires, then
the import succeeds, pruning its result again changes nothing, and ids ascend.  At every time the channels represent the transform of
the node, with the value of each axis of each property close to what was imported for it. -/
theorem C75_transform {tl : Tolerances} (htl : tl.Ok) {nu : Bool} {τ : OpType → ℤ × ℤ} {w : ℝ} (hw : 0 ≤ w) {sort : List Channel → List Channel}
    (hsort : Sorts sort) (ms : ℤ → ℤ) (span : ℤ × ℤ) (x : FTransform) (h3 : x.ThreeChannels)
    (h : ∀ i < 11, ∀ axis < 3, ∃ n, x.nodes ms span tl i axis = some n ∧ ∀ id, ChannelOk τ w ⟨x.op i axis, id, n⟩) :
    ∃ chs out, gatherTransform ms span tl x = some chs ∧ pruneChannels sort tl nu chs = some out ∧ pruneChannels sort tl nu out = some out ∧
      out.Pairwise (fun c d => c.id < d.id) ∧ ∀ t : ℝ, ∃ u : ℕ → ℕ → ℝ,
        (∀ i < 11, ∀ axis < 3, |u i axis - x.imported ms span tl t i axis| ≤ tl.error w (x.op i axis)) ∧
        (calculate (out.map (opAt t))).map Prod.fst = some (transform (eulerImported x.order) (euler x.order) u) := by
  have hN : ∀ i < 11, ∀ axis < 3, x.nodes ms span tl i axis = some ((x.nodes ms span tl i axis).getD []) := by
    intro i hi a ha
    obtain ⟨n, e, -⟩ := h i hi a ha
    rw [e]; rfl
  set N : ℕ → ℕ → List Node := fun i axis => (x.nodes ms span tl i axis).getD [] with hNd
  obtain ⟨p1, p2, p3⟩ := parts_ok x N
  have hsub := out_sublist x tl N x.parts
  have hpair := p1.sublist hsub
  have hids : IdsOk (x.parts.flatMap (x.out tl N)) := fun c hc d hd => p2 c (hsub.subset hc) d (hsub.subset hd)
  have hok : ∀ c ∈ x.parts.flatMap (x.out tl N), ChannelOk τ w c := by
    intro c hc
    obtain ⟨s, hs, rfl⟩ := List.mem_map.mp (hsub.subset hc)
    obtain ⟨q1, q2⟩ := parts_mem hs
    obtain ⟨n, e, hn⟩ := h _ q1 _ q2
    have : N s.index s.axis = n := by rw [hNd]; simp only [e, Option.getD_some]
    unfold FTransform.channel
    rw [this]
    exact hn _
  obtain ⟨out, o1, o2, o3⟩ := C77_prune_again (nu := nu) hsort hok hpair hids
  obtain ⟨out', o1', -, -, o4⟩ := C52_prune_channels htl (nu := nu) hw hsort hok hpair
  have : out' = out := Option.some.inj (o1'.symm.trans o1)
  subst this
  refine ⟨_, _, gatherTransform_eq h3 hN, o1, o2, o3, fun t => ?_⟩
  obtain ⟨l, f, -, e⟩ := o4 t
  obtain ⟨l', f', e'⟩ := fill htl hw t x.parts l (fun s hs => ⟨p3 (x.channel N s) (List.mem_map_of_mem hs), hN _ (parts_mem hs).1 _ (parts_mem hs).2⟩) f
  obtain ⟨u, u1, u2⟩ := as_function (f := fun s => x.op s.index s.axis)
    (Q := fun v s => |v - curveAt (N s.index s.axis) t| ≤ tl.error w (x.op s.index s.axis)) x.parts l' (parts_distinct x) f'
  refine ⟨x.sign u, ?_, ?_⟩
  · intro i hi a ha
    obtain ⟨s, hs, rfl, rfl⟩ := parts_all x hi ha
    have := u2 s hs
    unfold FTransform.sign FTransform.imported
    split_ifs
    · rw [neg_sub_neg, abs_sub_comm]; exact this
    · exact this
  · have hl : ∀ op ∈ l, Supported op.1 := by
      intro op hop
      obtain ⟨i, hi, rfl⟩ := List.mem_iff_getElem.mp hop
      have hi' : i < (x.parts.flatMap (x.out tl N)).length := f.length_eq ▸ hi
      have := (List.forall₂_iff_get.mp f).2 i hi hi'
      simp only [List.get_eq_getElem] at this
      rw [this.1]
      exact (hok _ (List.getElem_mem hi')).1
    rw [e, C42_result_is_product l hl, Option.map_some, ← parts_prod]
    have hu : (x.parts.map fun s => (x.op s.index s.axis, x.sign (x.sign u) s.index s.axis)) = l' := by
      rw [u1]
      apply List.map_congr_left
      intro s _
      unfold FTransform.sign
      split_ifs <;> simp
    rw [hu]
    have := congrArg Prod.fst e'
    rw [prod_E, prod_E] at this
    exact congrArg some this.symm

/-- C75: the importer applies the three rotations in the right order for three orders, and in the wrong order for the other four. -/
theorem C75_rotation_order (o : EOrder) : eulerImported o = euler o ↔ o = .xyz ∨ o = .zyx ∨ o = .sphericXyz := by
  refine ⟨fun h => ?_, ?_⟩
  · have h := congrFun (congrFun (congrFun h fun _ => Real.pi / 2) 0) 0
    cases o <;> simp [eulerImported, euler, rotX, rotY, rotZ, elementary, Matrix.mul_apply, Fin.sum_univ_four] at h ⊢
  · rintro (rfl | rfl | rfl) <;> rfl

/-- C75: for these orders, the channels represent the transform as FBX defines it. -/
theorem C75_transform_exact {tl : Tolerances} (htl : tl.Ok) {nu : Bool} {τ : OpType → ℤ × ℤ} {w : ℝ} (hw : 0 ≤ w) {sort : List Channel → List Channel}
    (hsort : Sorts sort) (ms : ℤ → ℤ) (span : ℤ × ℤ) (x : FTransform) (h3 : x.ThreeChannels) (ho : x.order = .xyz ∨ x.order = .zyx ∨ x.order = .sphericXyz)
    (h : ∀ i < 11, ∀ axis < 3, ∃ n, x.nodes ms span tl i axis = some n ∧ ∀ id, ChannelOk τ w ⟨x.op i axis, id, n⟩) :
    ∃ chs out, gatherTransform ms span tl x = some chs ∧ pruneChannels sort tl nu chs = some out ∧
      ∀ t : ℝ, ∃ u : ℕ → ℕ → ℝ, (∀ i < 11, ∀ axis < 3, |u i axis - x.imported ms span tl t i axis| ≤ tl.error w (x.op i axis)) ∧
        (calculate (out.map (opAt t))).map Prod.fst = some (transform (euler x.order) (euler x.order) u) := by
  obtain ⟨chs, out, h1, h2, -, -, h5⟩ := C75_transform htl (nu := nu) hw hsort ms span x h3 h
  rw [(C75_rotation_order _).mpr ho] at h5
  exact ⟨chs, out, h1, h2, h5⟩

/-- C75: with any of the other orders, a rotation and its inverse do not cancel: here the local rotation equals the post-rotation, and all other
values are the defaults. -/
theorem C75_rotations_do_not_cancel (o : EOrder) (h : o = .xzy ∨ o = .yzx ∨ o = .yxz ∨ o = .zxy) :
    ∃ v : ℕ → ℝ, transform (euler o) (euler o) (fun i => if i = 4 ∨ i = 5 then v else if i = 9 then fun _ => 1 else fun _ => 0) = 1 ∧
      transform (eulerImported o) (euler o) (fun i => if i = 4 ∨ i = 5 then v else if i = 9 then fun _ => 1 else fun _ => 0) ≠ 1 := by
  have ht : translation (fun _ => 0) = 1 := by
    ext i j
    fin_cases i <;> fin_cases j <;> simp [translation]
  have hs : scaleBy (fun _ => 1) = 1 := by
    ext i j
    fin_cases i <;> fin_cases j <;> simp [scaleBy]
  have he : ∀ o, euler o (fun _ => 0) = 1 ∧ eulerImported o (fun _ => 0) = 1 := by
    have hx : rotX (fun _ => 0) = 1 := by ext i j; fin_cases i <;> fin_cases j <;> simp [rotX, elementary]
    have hy : rotY (fun _ => 0) = 1 := by ext i j; fin_cases i <;> fin_cases j <;> simp [rotY, elementary]
    have hz : rotZ (fun _ => 0) = 1 := by ext i j; fin_cases i <;> fin_cases j <;> simp [rotZ, elementary]
    intro o
    cases o <;> simp [euler, eulerImported, hx, hy, hz]
  have hi : ∀ o v, IsUnit (euler o v).det := by
    intro o v
    have hr : ∀ t : OpType, t.isRotate = true → ∀ a, IsUnit (elementary (t, a)).det := by
      intro t htr a
      have h1 : elementary (t, a) * elementary (t, -a) = 1 := by
        have := congrArg Prod.fst (E_add (Or.inl htr) a (-a))
        rw [add_neg_cancel] at this
        change elementary (t, a) * elementary (t, -a) = elementary (t, 0) at this
        rw [this]
        cases t <;> simp [OpType.isRotate] at htr <;>
          (ext i j
           fin_cases i <;> fin_cases j <;> simp [elementary])
      exact Matrix.isUnit_det_of_right_inverse h1
    have hx : IsUnit (rotX v).det := hr _ rfl _
    have hy : IsUnit (rotY v).det := hr _ rfl _
    have hz : IsUnit (rotZ v).det := hr _ rfl _
    cases o <;> simp only [euler, Matrix.det_mul] <;> exact (IsUnit.mul (IsUnit.mul (by assumption) (by assumption)) (by assumption))
  refine ⟨fun _ => Real.pi / 2, ?_, ?_⟩
  · simp [transform, ht, hs, (he o).1, Matrix.mul_nonsing_inv _ (hi o _)]
  · intro e
    have e : eulerImported o (fun _ => Real.pi / 2) * (euler o fun _ => Real.pi / 2)⁻¹ = 1 := by
      simpa [transform, ht, hs, (he o).2] using e
    have := congrArg (· * euler o fun _ => Real.pi / 2) e
    simp only [Matrix.one_mul, Matrix.mul_assoc, Matrix.nonsing_inv_mul _ (hi o _), Matrix.mul_one] at this
    have := congrFun (congrFun this 0) 0
    rcases h with rfl | rfl | rfl | rfl <;> simp [eulerImported, euler, rotX, rotY, rotZ, elementary, Matrix.mul_apply, Fin.sum_univ_four] at this

/-- C75: what is imported for a property that is not animated is its value at all times, in radians for rotations. -/
theorem C75_static (ms : ℤ → ℤ) (span : ℤ × ℤ) (tl : Tolerances) (x : FTransform) {i : ℕ} (hi : i < 11) (axis : ℕ)
    (h : (x.prop i).property.node = none) (t : ℝ) :
    x.nodes ms span tl i axis ≠ none ∧
    x.imported ms span tl t i axis = if 3 ≤ i ∧ i ≤ 5 then Real.pi / 180 * (x.prop i).property.value axis else (x.prop i).property.value axis := by
  have hn : x.nodes ms span tl i axis = some [⟨0, flatValue ((x.prop i).property.value axis) (x.prop i), 0⟩] := by
    unfold FTransform.nodes animConst
    rw [h]
  refine ⟨by rw [hn]; simp, ?_⟩
  unfold FTransform.imported
  rw [hn, Option.getD_some, curveAt]
  unfold flatValue invertValue
  have h1 : i = 0 ∨ i = 1 ∨ i = 2 ∨ i = 3 ∨ i = 4 ∨ i = 5 ∨ i = 6 ∨ i = 7 ∨ i = 8 ∨ i = 9 ∨ i = 10 := by omega
  rcases h1 with rfl | rfl | rfl | rfl | rfl | rfl | rfl | rfl | rfl | rfl | rfl <;>
    simp [FTransform.prop, FTransform.properties, OpType.isRotate, OpType.isScale]

end
end Motive.Pipeline
