import Verif.Pipeline.Nodes
/-!
# Model of the channels of `AnimData` (src/anim_pipeline/anim_data.h, anim_data.cpp): `PruneChannels` and the functions it uses

Idealisation: as in `Verif.Pipeline.Nodes`.  `MatrixOpId`, a `uint8_t`, is `ℕ`: its arithmetic does not wrap here.  A failed assertion, or an
access to a vector without elements, is `none`.
-/

namespace Motive.Pipeline
open Motive.Curve Motive.Matrix4

noncomputable section
open Classical

/-- `AnimData::Channel` (anim_data.h:110-119). -/
@[ext] structure Channel where
  op : OpType
  id : ℕ
  nodes : List Node

/-- The values of the enumerators of `MatrixOperationType` (matrix_op.h:48-68). -/
def opValue : OpType → ℕ
  | .invalid => 0 | .rotateX => 1 | .rotateY => 2 | .rotateZ => 3 | .translateX => 4 | .translateY => 5 | .translateZ => 6
  | .scaleX => 7 | .scaleY => 8 | .scaleZ => 9 | .scaleUniformly => 10 | .quatW => 11 | .quatX => 12 | .quatY => 13 | .quatZ => 14

/-- `DefaultOpValue` (anim_data.cpp:608-612). -/
def defaultOpValue (op : OpType) : ℝ := if op.isScale then 1 else 0

/-- `IsDefaultValue` (anim_data.cpp:290-292). -/
def isDefaultValue (tl : Tolerances) (op : OpType) (v : ℝ) : Prop := |v - defaultOpValue op| < tl.forOp op

/-! ### `UniformScaleChannels` -/

/-- `op_bits` and its comparison (anim_data.cpp:12-16, 424-425). -/
def opsAreXyz (a b c : OpType) : Prop :=
  (1 <<< opValue a ||| 1 <<< opValue b ||| 1 <<< opValue c) = (1 <<< 7 ||| 1 <<< 8 ||| 1 <<< 9)

/-- `are_equal` (anim_data.cpp:441-444). -/
def threeEqual (tl : Tolerances) (v0 v1 v2 : Node) : Prop :=
  equalNodes v0 v1 tl.scale tl.derivativeAngle ∧ equalNodes v0 v2 tl.scale tl.derivativeAngle ∧
    equalNodes v1 v2 tl.scale tl.derivativeAngle

/-- The loop over the nodes (anim_data.cpp:437-448), for node lists of the same length. -/
def allEqual (tl : Tolerances) : List Node → List Node → List Node → Prop
  | v0 :: n0, v1 :: n1, v2 :: n2 => threeEqual tl v0 v1 v2 ∧ allEqual tl n0 n1 n2
  | _, _, _ => True

/-- `UniformScaleChannels` (anim_data.cpp:413-449); the list holds the channels from `channel_id` on. -/
def uniformScaleChannels (tl : Tolerances) : List Channel → Prop
  | c0 :: c1 :: c2 :: _ => opsAreXyz c0.op c1.op c2.op ∧
      (c0.nodes.length = c1.nodes.length ∧ c0.nodes.length = c2.nodes.length ∧ c1.nodes.length = c2.nodes.length) ∧
      allEqual tl c0.nodes c1.nodes c2.nodes
  | _ => False

/-! ### `SummableChannel` -/

/-- `SummableChannel` (anim_data.cpp:451-470) on the channels after `ch`: the index into them. -/
def summableChannel (op : OpType) : List Channel → Option ℕ
  | [] => none
  | d :: ds =>
    if d.op = op then some 0
    else if op.isRotate then none
    else if op.isTranslate && !d.op.isTranslate then none
    else if op.isScale && !d.op.isScale then none
    else (summableChannel op ds).map (· + 1)

/-! ### `SumChannels` -/

/-- The search for the first node at or after `time` (anim_data.cpp:482-489), from the node `pre` on. -/
def findSpan (time : ℤ) : Node → List Node → Option (Node × Node)
  | _, [] => none
  | pre, post :: rest =>
    if time ≤ post.time then (if pre.time ≤ time then some (pre, post) else none) else findSpan time post rest

/-- `EvaluateNodes` (anim_data.cpp:472-499): the value and the derivative. -/
def evaluateNodes (nodes : List Node) (time : ℤ) : Option (ℝ × ℝ) :=
  match nodes with
  | [] => none
  | front :: rest =>
    if time < front.time then some (front.val, 0)
    else if ((front :: rest).getLast (by simp)).time ≤ time then some (((front :: rest).getLast (by simp)).val, 0)
    else match findSpan time front rest with
      | none => none
      | some (pre, post) =>
        some ((between pre post).eval ((time - pre.time : ℤ) : ℝ), (between pre post).deriv ((time - pre.time : ℤ) : ℝ))

/-- `GetValueAtTime` (anim_data.cpp:501-513); the iterator is the list of the nodes from it on. -/
def getValueAtTime (nodes iter : List Node) (time : ℤ) : Option (ℝ × ℝ) :=
  match iter with
  | n :: _ => if n.time = time then some (n.val, n.deriv) else evaluateNodes nodes time
  | [] => evaluateNodes nodes time

/-- The increment of an iterator if `GetValueAtTime` returns true (anim_data.cpp:548-553). -/
def advance (iter : List Node) (time : ℤ) : List Node :=
  match iter with
  | n :: rest => if n.time = time then rest else iter
  | [] => []

/-- The condition of the loop, and `time` (anim_data.cpp:537-544). -/
def nextTime : List Node → List Node → Option ℤ
  | [], [] => none
  | a :: _, [] => some a.time
  | [], b :: _ => some b.time
  | a :: _, b :: _ => some (min a.time b.time)

theorem advance_length_le (iter : List Node) (t : ℤ) : (advance iter t).length ≤ iter.length := by
  unfold advance
  split
  · split_ifs <;> simp
  · simp

theorem nextTime_decreases {ia ib : List Node} {t : ℤ} (h : nextTime ia ib = some t) :
    (advance ia t).length + (advance ib t).length < ia.length + ib.length := by
  have ha := advance_length_le ia t
  have hb := advance_length_le ib t
  rcases ia with _ | ⟨a, ia⟩ <;> rcases ib with _ | ⟨b, ib⟩ <;> simp only [nextTime, Option.some.injEq, reduceCtorEq] at h
  · have : (advance (b :: ib) t).length = ib.length := by simp [advance, h]
    simp only [List.length_cons] at *; omega
  · have : (advance (a :: ia) t).length = ia.length := by simp [advance, h]
    simp only [List.length_cons] at *; omega
  · rcases min_choice a.time b.time with h' | h'
    · have : (advance (a :: ia) t).length = ia.length := by simp [advance, ← h, h']
      simp only [List.length_cons] at *; omega
    · have : (advance (b :: ib) t).length = ib.length := by simp [advance, ← h, h']
      simp only [List.length_cons] at *; omega

/-- The loop of `SumChannels` (anim_data.cpp:537-555). -/
def sumLoop (na nb ia ib : List Node) : Option (List Node) :=
  match h : nextTime ia ib with
  | none => some []
  | some t =>
    have := nextTime_decreases h
    match getValueAtTime na ia t, getValueAtTime nb ib t, sumLoop na nb (advance ia t) (advance ib t) with
    | some a, some b, some rest => some (⟨t, a.1 + b.1, a.2 + b.2⟩ :: rest)
    | _, _, _ => none
termination_by ia.length + ib.length

/-- `SumChannels` (anim_data.cpp:515-558): the nodes of the sum. -/
def sumNodes (na nb : List Node) : Option (List Node) :=
  let ia := if na.length = 1 then [] else na
  let ib := if nb.length = 1 then [] else nb
  let sum : List Node := match na, nb with
    | [a], [b] => [⟨0, a.val + b.val, 0⟩]
    | _, _ => []
  match sumLoop na nb ia ib with
  | none => none
  | some rest => some (sum ++ rest)

/-! ### `PruneChannels` -/

/-- The collapse of three scale channels (anim_data.cpp:187-209), on the channels from `ch` on. -/
def collapseScale (tl : Tolerances) (noUniformScale : Bool) (chs : List Channel) : List Channel :=
  match chs with
  | [] => []
  | c :: rest => if noUniformScale = false ∧ uniformScaleChannels tl (c :: rest) then
      { c with id := c.id + (opValue .scaleUniformly - opValue c.op), op := .scaleUniformly } :: rest.drop 2
    else c :: rest

/-- The sum of two channels (anim_data.cpp:211-220), on the channels from `ch` on. -/
def sumWithLater (chs : List Channel) : Option (List Channel) :=
  match chs with
  | [] => some []
  | c :: rest =>
    match summableChannel c.op rest with
    | none => some (c :: rest)
    | some k =>
      match rest[k]? with
      | none => none
      | some d =>
        match sumNodes c.nodes d.nodes with
        | none => none
        | some nodes => some ({ c with nodes := nodes } :: rest.eraseIdx k)

/-- The removal of a constant channel with the default value (anim_data.cpp:222-231), on the channels from `ch` on. -/
def dropDefault (tl : Tolerances) (chs : List Channel) : List Channel :=
  match chs with
  | [] => []
  | c :: rest =>
    match c.nodes with
    | [n] => if isDefaultValue tl c.op n.val then rest else c :: rest
    | _ => c :: rest

/-- The body of the loop (anim_data.cpp:187-231), on the channels from `ch` on. -/
def pruneStep (tl : Tolerances) (noUniformScale : Bool) (chs : List Channel) : Option (List Channel) :=
  match sumWithLater (collapseScale tl noUniformScale chs) with
  | none => none
  | some chs' => some (dropDefault tl chs')

/-- The loop over the channels of a bone, from the last to the first (anim_data.cpp:185-232): `k` channels are still to be visited.  The body
changes only the channels from `ch` on. -/
def pruneLoop (tl : Tolerances) (noUniformScale : Bool) : ℕ → List Channel → Option (List Channel)
  | 0, chs => some chs
  | k + 1, chs =>
    match pruneStep tl noUniformScale (chs.drop k) with
    | none => none
    | some tail => pruneLoop tl noUniformScale k (chs.take k ++ tail)

/-- `PruneChannels` (anim_data.cpp:181-237) for one bone.  `std::sort` is a parameter: how it orders channels with the same id is not
specified. -/
def pruneChannels (sort : List Channel → List Channel) (tl : Tolerances) (noUniformScale : Bool) (chs : List Channel) :
    Option (List Channel) :=
  match pruneLoop tl noUniformScale chs.length chs with
  | none => none
  | some out => some (sort out)

end
end Motive.Pipeline
