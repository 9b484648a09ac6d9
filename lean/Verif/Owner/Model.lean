import Verif.Proc.World

/-!
# Motivators that own motivators

A matrix motivator owns one `Motivator1f` per operation (matrix_op.h:207-244, `MatrixOperation::motivator_`), and so do
SQT motivators, which use the same `MatrixOperation`.  The operations live in a `std::vector` inside the slot of the matrix
in its processor (matrix_data.h:170, sqt_data.h).  So the children are created, moved, cloned and destroyed by
constructors, assignments and destructors that C++ runs when slots are reset, copied or swapped.  This file models which
calls reach the children, for each call on the parent; both levels are worlds of `Verif.Proc.Model`.

Simplifications: the kind of value a slot computes is a parameter `ρ`, what an operation knows besides its child (id, type,
constant) is a parameter `κ`.  An address in memory is a `MotId`; the addresses at which C++ puts the `MatrixOperation`s are
chosen by the caller, freely among those not in use.  `U` tells the addresses of motivators that are not part of another.
-/

namespace Motive.Owner

open Motive.Proc

/-- `MatrixOperation` (matrix_op.h:207-244): what it knows, and the address of its `motivator_`. -/
structure Item (κ : Type) where
  info : κ
  addr : MotId

/-- `MatrixData` (matrix_data.h:26-171), `SqtData` (sqt_data.h:25-): the result of the last update and the operations. -/
structure Comp (ρ κ : Type) where
  result : ρ
  items : List (Item κ)

/-- The processors of single values and the processors of matrices, with all motivators. -/
structure Sys (δ ρ κ : Type) where
  leaves : World δ
  comps : World (Comp ρ κ)

/-- An operation to be created: `MatrixOperationInit` with the address it gets; `value` if it has an `init`. -/
structure Part (δ κ : Type) where
  info : κ
  addr : MotId
  value : Option (ProcId × List δ)

/-- What is done to the child of one operation. -/
inductive Edit (δ : Type) where
  /-- only `const_value_` changes (`SetValue1f`, matrix_op.h:296-300) -/
  | keep
  /-- `SetTarget1f`, `SetSpline`, `SetPlaybackRate`, ... on a child (matrix_op.h:291-294, 326-346, 363-371) -/
  | write (off : Nat) (v : δ)
  /-- `motivator_ = Motivator1f(*init.init, engine)` (matrix_op.h:326-331) -/
  | init (p : ProcId) (vals : List δ)
  /-- `motivator_.Invalidate()` (matrix_op.h:317) -/
  | drop

/-- Calls on the engine, on motivators that stand alone, and on matrices. -/
inductive Call (δ ρ κ : Type) where
  /-- first use of a type of single values -/
  | createLeaf (p : ProcId) (dflt : δ) (cloning : Bool)
  /-- first use of matrices or SQTs; slots start with the result `r` and no operations -/
  | createComp (p : ProcId) (r : ρ) (cloning : Bool)
  /-- `AdvanceFrame` of a processor of single values -/
  | leafFrame (p : ProcId) (f : δ → δ)
  /-- `AdvanceFrame` of a processor of matrices; `g` computes a result from the values of the children -/
  | compFrame (p : ProcId) (g : ρ → List (κ × Option (ProcId × List δ)) → ρ)
  /-- a call on a motivator that stands alone -/
  | user (op : Op δ)
  /-- `Initialize` of a matrix with one list of operations per dimension -/
  | init (m : MotId) (p : ProcId) (slots : List (ρ × List (Part δ κ)))
  /-- `Invalidate()` of a matrix, or its destructor -/
  | invalidate (m : MotId)
  | moveAssign (dst src : MotId)
  | moveConstruct (dst src : MotId)
  /-- `dst.CloneFrom(&src)`; the copy of the operation at address `a` is put at address `σ a` -/
  | clone (dst src : MotId) (σ : MotId → MotId)
  /-- a call on the `j`-th operation of the `k`-th dimension of a matrix -/
  | child (m : MotId) (k j : Nat) (info : κ) (e : Edit δ)
  /-- `std::vector` moves an operation to another address -/
  | relocate (m : MotId) (k j : Nat) (addr : MotId)
  /-- an operation is inserted before the `j`-th one (`ops_.emplace`, matrix_data.h:87, 104) -/
  | insert (m : MotId) (k j : Nat) (new : Part δ κ)
  /-- `data_.resize` reallocates and copies every slot, the copy of the operation at `a` being at `σ a` -/
  | regrow (p : ProcId) (σ : MotId → MotId)
  /-- destruction of a processor of single values -/
  | destroyLeaf (p : ProcId)
  /-- destruction of a processor of matrices -/
  | destroyComp (p : ProcId)

variable {δ ρ κ : Type}

/-- The addresses of the operations in one slot. -/
def Comp.addrs (c : Comp ρ κ) : List MotId := c.items.map Item.addr

/-- The addresses of the operations in a list of slots. -/
def addrsOf (l : List (Comp ρ κ)) : List MotId := l.flatMap Comp.addrs

/-- The slots of a matrix. -/
def Sys.slots (S : Sys δ ρ κ) (m : MotId) : List (Comp ρ κ) := ((S.comps.view.vals m).map Prod.snd).getD []

/-- All slots of a processor of matrices, in use or not. -/
def Sys.data (S : Sys δ ρ κ) (p : ProcId) : List (Comp ρ κ) := ((S.comps.procs p).map Proc.data).getD []

/-- The destructors of `MatrixOperation` for a list of slots (`ops_.resize(0)`, matrix_data.h:46-49). -/
def destroyAll (l : List (Comp ρ κ)) : List (Op δ) := (addrsOf l).map .invalidate

/-- The child of a new operation (matrix_op.h:222-227). -/
def Part.create (x : Part δ κ) : List (Op δ) := (x.value.map fun v => .initialize x.addr v.1 v.2).toList

/-- The children of new slots (matrix_data.h:30-44). -/
def createAll (slots : List (ρ × List (Part δ κ))) : List (Op δ) := slots.flatMap fun s => s.2.flatMap Part.create

/-- The new operation. -/
def Part.item (x : Part δ κ) : Item κ := ⟨x.info, x.addr⟩

/-- The new slots. -/
def newSlots (slots : List (ρ × List (Part δ κ))) : List (Comp ρ κ) := slots.map fun s => ⟨s.1, s.2.map Part.item⟩

/-- The copy constructors of `MatrixOperation` for a list of slots (matrix_op.h:248-257): `CloneFrom` with a null pointer
if the child of the original is not valid. -/
def cloneAll (w : World δ) (l : List (Comp ρ κ)) (σ : MotId → MotId) : List (Op δ) :=
  (addrsOf l).map fun a => .cloneFrom (σ a) (if w.valid a then some a else none)

/-- A copy of a slot. -/
def Comp.rename (σ : MotId → MotId) (c : Comp ρ κ) : Comp ρ κ := ⟨c.result, c.items.map fun i => ⟨i.info, σ i.addr⟩⟩

/-- `UpdateResultMatrix` of every slot (matrix_processor.cpp:34-47). -/
def Comp.update (w : World δ) (g : ρ → List (κ × Option (ProcId × List δ)) → ρ) (c : Comp ρ κ) : Comp ρ κ :=
  ⟨g c.result (c.items.map fun i => (i.info, w.view.vals i.addr)), c.items⟩

/-- The call that reaches the child at address `a`. -/
def Edit.ops (a : MotId) : Edit δ → List (Op δ)
  | .keep => []
  | .write off v => [.write a off v]
  | .init p vals => [.initialize a p vals]
  | .drop => [.invalidate a]

/-- Reallocation of the slots of a processor (matrix_processor.cpp:166-176, `data_.resize`). -/
def mapData (w : World (Comp ρ κ)) (p : ProcId) (f : Comp ρ κ → Comp ρ κ) : Option (World (Comp ρ κ)) :=
  (w.procs p).map fun pr => w.setProc p (some { pr with data := pr.data.map f })

/-- The slot `k` of matrix `m` after a change. -/
def Sys.rewrite (S : Sys δ ρ κ) (m : MotId) (k : Nat) (f : List (Item κ) → List (Item κ)) : List (Op (Comp ρ κ)) :=
  ((S.slots m)[k]?.map fun c => .write m k ⟨c.result, f c.items⟩).toList

/-- The address of the `j`-th operation of slot `k` of matrix `m`. -/
def Sys.addrAt (S : Sys δ ρ κ) (m : MotId) (k j : Nat) : Option MotId :=
  (S.slots m)[k]?.bind fun c => c.items[j]?.map Item.addr

/-- Does the clone of `src` in `dst` get slots? (`CloneFrom` and `CloneMotivator`: motivator.h:118-126, processor.cpp.) -/
def Sys.clones (S : Sys δ ρ κ) (dst src : MotId) : Bool :=
  decide (dst ≠ src) && (S.comps.view.vals src).any fun x => S.comps.view.procs x.1 == some true

/-- The calls that reach the processors of single values. -/
def Sys.leafOps (S : Sys δ ρ κ) : Call δ ρ κ → List (Op δ)
  | .createLeaf p dflt cl => [.create p dflt cl]
  | .createComp .. => []
  | .leafFrame p f => [.advance p f]
  | .compFrame .. => []
  | .user op => [op]
  | .init m _ slots => destroyAll (S.slots m) ++ createAll slots
  | .invalidate m => destroyAll (S.slots m)
  | .moveAssign dst _ => destroyAll (S.slots dst)
  | .moveConstruct .. => []
  | .clone dst src σ => destroyAll (S.slots dst) ++ if S.clones dst src then cloneAll S.leaves (S.slots src) σ else []
  | .child m k j _ e => (S.addrAt m k j).elim [] e.ops
  | .relocate m k j addr => (S.addrAt m k j).elim [] fun a => [.moveConstruct addr a]
  | .insert _ _ _ new => new.create
  | .regrow p σ => cloneAll S.leaves (S.data p) σ ++ destroyAll (S.data p)
  | .destroyLeaf p => [.destroyProc p]
  | .destroyComp p => destroyAll (S.data p)

/-- The calls on the processors of matrices. -/
def Sys.compOps (S : Sys δ ρ κ) : Call δ ρ κ → List (Op (Comp ρ κ))
  | .createLeaf .. => []
  | .createComp p r cl => [.create p ⟨r, []⟩ cl]
  | .leafFrame .. => []
  | .compFrame p g => [.advance p (Comp.update S.leaves g)]
  | .user _ => []
  | .init m p slots => [.initialize m p (newSlots slots)]
  | .invalidate m => [.invalidate m]
  | .moveAssign dst src => [.moveAssign dst src]
  | .moveConstruct dst src => [.moveConstruct dst src]
  | .clone dst src σ => .cloneFrom dst (some src) ::
      if S.clones dst src then (S.slots src).zipIdx.map fun x => .write dst x.2 (x.1.rename σ) else []
  | .child m k j info _ => S.rewrite m k fun l => l.modify j fun i => ⟨info, i.addr⟩
  | .relocate m k j addr => S.rewrite m k fun l => l.modify j fun i => ⟨i.info, addr⟩
  | .insert m k j new => S.rewrite m k fun l => l.insertIdx j new.item
  | .regrow .. => []
  | .destroyLeaf _ => []
  | .destroyComp p => [.destroyProc p]

/-- One call. -/
def Sys.step (S : Sys δ ρ κ) (c : Call δ ρ κ) : Option (Sys δ ρ κ) :=
  match runFrom S.leaves (S.leafOps c) with
  | none => none
  | some l =>
    match (match c with
      | .regrow p σ => mapData S.comps p (Comp.rename σ)
      | c => runFrom S.comps (S.compOps c)) with
    | none => none
    | some w => some ⟨l, w⟩

/-- Is an address free: neither that of a motivator that stands alone nor that of an operation? -/
def Sys.Free (U : MotId → Bool) (S : Sys δ ρ κ) (a : MotId) : Prop := U a = false ∧ ∀ m, a ∉ addrsOf (S.slots m)

/-- Copies of operations are put at different free addresses. -/
def Sys.Copies (U : MotId → Bool) (S : Sys δ ρ κ) (as : List MotId) (σ : MotId → MotId) : Prop :=
  (∀ a ∈ as, S.Free U (σ a)) ∧ ∀ a ∈ as, ∀ b ∈ as, σ a = σ b → a = b

/-- Calls on motivators that stand alone. -/
def Standing (U : MotId → Bool) : Op δ → Prop
  | .create .. => False
  | .initialize m _ _ => U m = true
  | .invalidate m => U m = true
  | .moveAssign dst src => U dst = true ∧ U src = true
  | .moveConstruct dst src => U dst = true ∧ U src = true
  | .cloneFrom dst src => U dst = true ∧ ∀ m ∈ src, U m = true
  | .write m _ _ => U m = true
  | .advance .. => False
  | .destroyProc _ => False

/-- What the API and C++ demand of a call: existing processors and operations, and objects at free addresses. -/
def Sys.Allowed (U : MotId → Bool) (S : Sys δ ρ κ) : Call δ ρ κ → Prop
  | .user op => Standing U op
  | .init _ p slots => (S.comps.procs p).isSome ∧ slots ≠ [] ∧
      (slots.flatMap fun s => s.2.map Part.addr).Nodup ∧ ∀ s ∈ slots, ∀ x ∈ s.2, S.Free U x.addr
  | .moveConstruct dst src => dst ≠ src ∧ S.comps.valid dst = false
  | .clone _ src σ => S.Copies U (addrsOf (S.slots src)) σ
  | .child m k j _ _ => (S.addrAt m k j).isSome
  | .relocate m k j addr => (S.addrAt m k j).isSome ∧ S.Free U addr
  | .insert m k j new => (∃ c, (S.slots m)[k]? = some c ∧ j ≤ c.items.length) ∧ S.Free U new.addr
  | .regrow p σ => (S.comps.procs p).isSome ∧ S.Copies U (addrsOf (S.data p)) σ
  | _ => True

/-- Nothing exists. -/
def Sys.init : Sys δ ρ κ := ⟨World.empty, World.empty⟩

/-- The states after a list of allowed calls. -/
inductive History (U : MotId → Bool) : List (Call δ ρ κ) → Sys δ ρ κ → Prop
  | nil : History U [] Sys.init
  | snoc {cs : List (Call δ ρ κ)} {S S' : Sys δ ρ κ} {c : Call δ ρ κ} :
      History U cs S → S.Allowed U c → S.step c = some S' → History U (cs ++ [c]) S'

/-! ## What the calls mean

A matrix contains its operations, and an operations contains its child's values.  There are no addresses. -/

/-- An operation with the values of its child, if it has one. -/
structure NItem (δ κ : Type) where
  info : κ
  value : Option (ProcId × List δ)

/-- One dimension of a matrix. -/
structure NComp (δ ρ κ : Type) where
  result : ρ
  items : List (NItem δ κ)

/-- The processors, the motivators that stand alone, and the matrices. -/
@[ext] structure Nested (δ ρ κ : Type) where
  leafProcs : ProcId → Option Bool
  compProcs : ProcId → Option Bool
  user : MotId → Option (ProcId × List δ)
  comps : MotId → Option (ProcId × List (NComp δ ρ κ))

def Nested.empty : Nested δ ρ κ := ⟨fun _ => none, fun _ => none, fun _ => none, fun _ => none⟩

def Nested.set (N : Nested δ ρ κ) (m : MotId) (v : Option (ProcId × List (NComp δ ρ κ))) : Nested δ ρ κ :=
  { N with comps := fun x => if x = m then v else N.comps x }

/-- Change the value of every child. -/
def NComp.mapValues (f : Option (ProcId × List δ) → Option (ProcId × List δ)) (c : NComp δ ρ κ) : NComp δ ρ κ :=
  ⟨c.result, c.items.map fun i => ⟨i.info, f i.value⟩⟩

def Nested.mapComps (N : Nested δ ρ κ) (f : ProcId → NComp δ ρ κ → NComp δ ρ κ) : Nested δ ρ κ :=
  { N with comps := fun m => (N.comps m).map fun x => (x.1, x.2.map (f x.1)) }

/-- What a new child holds: nothing if its processor does not exist. -/
def made (procs : ProcId → Option Bool) (v : Option (ProcId × List δ)) : Option (ProcId × List δ) :=
  v.filter fun x => (procs x.1).isSome && decide (0 < x.2.length)

/-- What a copy of a child holds: nothing if its processor does not support cloning. -/
def copied (procs : ProcId → Option Bool) (v : Option (ProcId × List δ)) : Option (ProcId × List δ) :=
  v.filter fun x => procs x.1 == some true

/-- What a call on a child does to its values. -/
def Edit.apply (procs : ProcId → Option Bool) (v : Option (ProcId × List δ)) : Edit δ → Option (ProcId × List δ)
  | .keep => v
  | .write off x => v.map fun y => (y.1, y.2.set off x)
  | .init p vals => if (procs p).isSome ∧ 0 < vals.length then some (p, vals) else v
  | .drop => none

/-- Change one slot of a matrix. -/
def Nested.atSlot (N : Nested δ ρ κ) (m : MotId) (k : Nat) (f : List (NItem δ κ) → List (NItem δ κ)) : Nested δ ρ κ :=
  N.set m ((N.comps m).map fun x => (x.1, x.2.modify k fun c => ⟨c.result, f c.items⟩))

/-- A frame of processor `p`. -/
def frameOf (p : ProcId) (f : δ → δ) (v : Option (ProcId × List δ)) : Option (ProcId × List δ) :=
  v.map fun x => if x.1 = p then (x.1, x.2.map f) else x

/-- What is left when processor `p` is gone. -/
def without (p : ProcId) (v : Option (ProcId × List δ)) : Option (ProcId × List δ) := v.filter fun x => decide (x.1 ≠ p)

/-- What each call means. -/
def Nested.step (N : Nested δ ρ κ) : Call δ ρ κ → Nested δ ρ κ
  | .createLeaf p _ cl => if (N.leafProcs p).isSome then N else { N with leafProcs := fun q => if q = p then some cl else N.leafProcs q }
  | .createComp p _ cl => if (N.compProcs p).isSome then N else { N with compProcs := fun q => if q = p then some cl else N.compProcs q }
  | .leafFrame p f => if (N.leafProcs p).isSome then
      { N.mapComps (fun _ => NComp.mapValues (frameOf p f)) with user := fun m => frameOf p f (N.user m) } else N
  | .compFrame p g => N.mapComps fun q c => if q = p then ⟨g c.result (c.items.map fun i => (i.info, i.value)), c.items⟩ else c
  | .user op => { N with user := (absStep op ⟨N.leafProcs, N.user⟩).vals }
  | .init m p slots =>
      N.set m (some (p, slots.map fun s => ⟨s.1, s.2.map fun x => ⟨x.info, made N.leafProcs x.value⟩⟩))
  | .invalidate m => N.set m none
  | .moveAssign dst src => if dst = src then N.set dst none else (N.set dst (N.comps src)).set src none
  | .moveConstruct dst src => (N.set dst (N.comps src)).set src none
  | .clone dst src _ => N.set dst <|
      if dst = src then none
      else ((N.comps src).filter fun x => N.compProcs x.1 == some true).map fun x =>
        (x.1, x.2.map (NComp.mapValues (copied N.leafProcs)))
  | .child m k j info e => N.atSlot m k fun l => l.modify j fun i => ⟨info, e.apply N.leafProcs i.value⟩
  | .relocate .. => N
  | .insert m k j new => N.atSlot m k fun l => l.insertIdx j ⟨new.info, made N.leafProcs new.value⟩
  | .regrow p _ => N.mapComps fun q c => if q = p then c.mapValues (copied N.leafProcs) else c
  | .destroyLeaf p =>
      { N.mapComps (fun _ => NComp.mapValues (without p)) with
        leafProcs := fun q => if q = p then none else N.leafProcs q
        user := fun m => without p (N.user m) }
  | .destroyComp p =>
      { N with compProcs := fun q => if q = p then none else N.compProcs q
               comps := fun m => (N.comps m).filter fun x => decide (x.1 ≠ p) }

def Nested.run (cs : List (Call δ ρ κ)) : Nested δ ρ κ := cs.foldl Nested.step Nested.empty

/-- Reading the meaning off the code's state. -/
def Sys.nested (U : MotId → Bool) (S : Sys δ ρ κ) : Nested δ ρ κ where
  leafProcs := S.leaves.view.procs
  compProcs := S.comps.view.procs
  user := fun m => if U m then S.leaves.view.vals m else none
  comps := fun m => (S.comps.view.vals m).map fun x =>
    (x.1, x.2.map fun c => ⟨c.result, c.items.map fun i => ⟨i.info, S.leaves.view.vals i.addr⟩⟩)

end Motive.Owner
