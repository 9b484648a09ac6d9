import Verif.Math.Range
import Verif.Matrix.Ops
import Verif.Table.Load
/-!
# Model of the defining animations of `AnimTable` (src/motive/anim_table.cpp:262-379)

Numbers are the elements of a linearly ordered field. The pointers of animated operations into the array of splines are not modelled; the
count of splines that are allocated is.
-/

namespace Motive.Table

open Motive.Matrix4 (OpType)
open Motive.Math (Range)

variable {K : Type} [Field K] [LinearOrder K]

/-- `MatrixOperationInit` (matrix_op.h:130-191) as far as it matters here: `value` is `initial_value` if `init` is null, that is, if the
operation is constant. -/
structure AnimOp (K : Type) where
  id : ℕ
  type : OpType
  value : Option K
deriving DecidableEq

/-- `RigAnim` (rig_anim.h): the operations of each bone and the parent of each bone. Names of bones and the flag for SQT are not modelled. -/
structure RigAnim (K : Type) where
  bones : List (List (AnimOp K)) := []
  parents : List ℕ := []

/-- `NumBones` (rig_anim.h). -/
def RigAnim.numBones (a : RigAnim K) : ℕ := a.bones.length

/-- The loop of `FindCompleteRig` (anim_table.cpp:268-272): a `BoneIndex` has 8 bits. -/
def completeLoop (anims : List (RigAnim K)) (best i : ℕ) : Option ℕ :=
  if h : i < anims.length then
    match anims[best]? with
    | none => none
    | some b => completeLoop anims (if anims[i].numBones > b.numBones then i % 256 else best) (i + 1)
  else some best
termination_by anims.length - i

/-- `FindCompleteRig` (anim_table.cpp:262-274). -/
def findCompleteRig (anims : List (RigAnim K)) : Option (RigAnim K) :=
  if anims.length = 0 then none
  else match completeLoop anims 0 1 with
    | none => none
    | some best => anims[best]?

/-- `OpRange` (anim_table.cpp:293-296); no range stands for `Range::Full()`. -/
structure OpRange (K : Type) where
  type : OpType
  range : Option (Range K)

/-- The default range (range.h:52). -/
def defaultRange : Range K := ⟨1, 0⟩

/-- What the loop does to the range of an operation (anim_table.cpp:316-321). Including a value in the full range does not change it. -/
def OpRange.widen (r : OpRange K) (op : AnimOp K) : OpRange K :=
  ⟨op.type, match op.value with
    | none => none
    | some v => r.range.map fun r => r.incl v⟩

/-- The body of the loop over the operations of a bone (anim_table.cpp:304-322): `id_to_range` is the list of its pairs sorted by id;
a missing id is inserted with the invalid operation and the default range. -/
def note (op : AnimOp K) : List (ℕ × OpRange K) → Option (List (ℕ × OpRange K))
  | [] => some [(op.id, OpRange.widen ⟨.invalid, some defaultRange⟩ op)]
  | (k, r) :: m =>
    if op.id < k then some ((op.id, OpRange.widen ⟨.invalid, some defaultRange⟩ op) :: (k, r) :: m)
    else if op.id = k then
      if r.type = .invalid ∨ r.type = op.type then some ((k, r.widen op) :: m) else none
    else match note op m with
      | none => none
      | some m' => some ((k, r) :: m')

/-- The loop over the operations of a bone of one animation (anim_table.cpp:304-322). -/
def noteAll : List (AnimOp K) → List (ℕ × OpRange K) → Option (List (ℕ × OpRange K))
  | [], m => some m
  | op :: ops, m => match note op m with
    | none => none
    | some m' => noteAll ops m'

/-- The loop over the animations (anim_table.cpp:301-323): animations without bone `j` are skipped. -/
def noteAnims (j : ℕ) : List (RigAnim K) → List (ℕ × OpRange K) → Option (List (ℕ × OpRange K))
  | [], m => some m
  | a :: as, m => match a.bones[j]? with
    | none => noteAnims j as m
    | some ops => match noteAll ops m with
      | none => none
      | some m' => noteAnims j as m'

/-- `range.Length() == 0.0f` (anim_table.cpp:339); the length of the full range is infinite. -/
def OpRange.isConst (r : OpRange K) : Bool :=
  match r.range with
  | none => false
  | some r => r.length = 0

/-- `range.Length() > 0.0f` (anim_table.cpp:325). -/
def OpRange.isAnimated (r : OpRange K) : Bool :=
  match r.range with
  | none => true
  | some r => r.length > 0

/-- An operation of the defining animation: constant, or animated with a range that is modular or not. -/
structure DefOp (K : Type) where
  id : ℕ
  type : OpType
  value : Option K
  modular : Bool
deriving DecidableEq

/-- The body of the loop that creates the operations (anim_table.cpp:334-352), with `RangeOfOp` (matrix_op.h:121-123). -/
def defOp (x : ℕ × OpRange K) : DefOp K :=
  if x.2.isConst then ⟨x.1, x.2.type, x.2.range.map fun r => r.start, false⟩ else ⟨x.1, x.2.type, none, x.2.type.isRotate⟩

/-- The operations of bone `j` (anim_table.cpp:286-352): they are appended to the ones that the bone already has. It fails if it writes past
the splines that it allocates. -/
def defineBone (anims : List (RigAnim K)) (j : ℕ) (old : List (DefOp K)) : Option (List (DefOp K)) :=
  match noteAnims j anims [] with
  | none => none
  | some m =>
    if (m.filter fun x => !x.2.isConst).length ≤ (m.filter fun x => x.2.isAnimated).length then some (old ++ m.map defOp) else none

/-- The defining animation of an object, a `RigAnim`. -/
structure Defining (K : Type) where
  bones : List (List (DefOp K)) := []
  parents : List ℕ := []

/-- The loop over the bones (anim_table.cpp:285-353), with `InitMatrixAnim` (rig_anim.cpp:34-43). -/
def defineBones (anims : List (RigAnim K)) (parents : List ℕ) (n j : ℕ) (d : Defining K) : Option (Defining K) :=
  if j < n then
    match parents[j]? with
    | none => none
    | some p =>
      if p < j ∨ p = 255 then
        match defineBone anims j (d.bones.getD j []) with
        | none => none
        | some ops => defineBones anims parents n (j + 1) { d with bones := d.bones.set j ops, parents := d.parents.set j p }
      else none
  else some d
termination_by n - j

/-- `vector::resize`. -/
def resizeTo {α : Type} (l : List α) (n : ℕ) (x : α) : List α := l.take n ++ List.replicate (n - l.length) x

/-- `CreateDefiningAnim` (anim_table.cpp:276-351), with `RigAnim::Init` (rig_anim.cpp:21-32), which keeps the bones that it finds. -/
def createDefiningAnim (anims : List (RigAnim K)) (d : Defining K) : Option (Defining K) :=
  match findCompleteRig anims with
  | none => none
  | some c =>
    if c.numBones ≤ 254 then
      defineBones anims c.parents c.numBones 0
        ⟨resizeTo d.bones c.numBones [], resizeTo d.parents c.numBones 0⟩
    else none

/-- `GatherObjectAnims` (anim_table.cpp:361-369). -/
def gather {A : Type} (anims : List A) : List ℕ → Option (List A)
  | [] => some []
  | k :: l => if k = kInvalidAnimIndex then gather anims l
    else match anims[k]?, gather anims l with
      | some a, some as => some (a :: as)
      | _, _ => none

/-- The body of the loop of `CalculateDefiningAnims` (anim_table.cpp:373-378). -/
def calculateDefining (anims : List (RigAnim K)) (list : List ℕ) (d : Defining K) : Option (Defining K) :=
  match gather anims list with
  | none => none
  | some [] => some d
  | some as => createDefiningAnim as d

end Motive.Table
