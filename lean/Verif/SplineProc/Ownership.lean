import Verif.Proc.World
/-!
# Ownership of splines in the spline processor

Source: src/motive/processor/spline_processor.cpp, src/motive/processor/spline_data.h and the pointer part of
include/motive/math/bulk_spline_evaluator.h.

Only pointers are modelled here: which spline each slot owns (`data_[i].local_spline`), which one it plays
(`sources_[i].spline` of the evaluator), and the pool.  Slots, handles, allocation and compaction are those of `Verif.Proc`;
what the splines contain is in `Verif.Spline` and `Verif.SplineProc.SetTarget`.  Splines made by the processor are numbered in the
order of their creation; splines that the user passes in are `Source.ext`.  A `none` result is a null dereference or a failed
assert.
-/

namespace Motive.SplineProc

open Motive.Proc

/-- The spline that an index plays (bulk_spline_evaluator.h: `Source::spline`): one passed in by the user, with its
`max_nodes()` and `num_nodes()`, or one made by the processor. -/
inductive Source where
  | ext (id cap nodes : Nat)
  | own (s : Nat)
  deriving DecidableEq

/-- `data_[i]` (spline_data.h:24-29) and `sources_[i].spline` of the evaluator. -/
structure SSlot where
  loc : Option Nat
  src : Option Source
  deriving DecidableEq

/-- `SplineData()` and `Source()`: both pointers are null. -/
def SSlot.null : SSlot := ⟨none, none⟩

/-- The spline processor's id. -/
def sp : ProcId := 0

/-- A `CompactSpline` object made by the processor: `max_nodes_`, `num_nodes_`. -/
structure Obj where
  cap : Nat
  nodes : Nat
  deriving DecidableEq

/-- The processor with its pool (spline_processor.cpp:314-322) and every spline it has created so far. -/
structure State where
  w : World SSlot
  pool : List Nat
  objs : List Obj

/-- The processor after its creation. -/
def State.init : State := ⟨World.empty.setProc sp (some (Proc.new SSlot.null true)), [], []⟩

/-- `CompactSpline::kDefaultMaxNodes` (compact_spline.h:79). -/
def kDefaultMaxNodes : Nat := 7

/-- `max_nodes()` of a created spline. -/
def State.cap (st : State) (s : Nat) : Nat := ((st.objs[s]?).map Obj.cap).getD 0

/-- `AllocateSpline` (spline_processor.cpp:264-279): the first pool entry that is large enough is replaced by the last one. -/
def State.allocateSpline (st : State) (maxNodes : Nat) : Nat × State :=
  match st.pool.findIdx? (fun s => decide (maxNodes ≤ st.cap s)) with
  | some i => (st.pool.getD i 0, { st with pool := (st.pool.set i (st.pool.getLastD 0)).dropLast })
  | none => (st.objs.length, { st with objs := st.objs ++ [⟨maxNodes, 0⟩] })

/-- The slots of motivator `m`. -/
def State.slots (st : State) (m : MotId) : List SSlot :=
  match st.w.mots m with
  | none => []
  | some (p, i) =>
    match st.w.procs p with
    | none => []
    | some pr => ((pr.dimensions i).map fun n => (pr.data.drop i).take n).getD []

/-- `Motivator::Invalidate` (motivator.h:82-86) with `RemoveIndices` (spline_processor.cpp:227-237): the slots are cleared and
their local splines go back to the pool. -/
def State.invalidate (st : State) (m : MotId) : Option State :=
  match st.w.invalidate m with
  | none => none
  | some w => some { st with w := w, pool := st.pool ++ (st.slots m).filterMap SSlot.loc }

/-- `Motivator::Initialize` (motivator.cpp:20-32, processor.cpp:63-75). `InitializeIndices` (spline_processor.cpp:205-210) does not
touch either pointer, so the new slots keep what they held. -/
def State.initialize (st : State) (m : MotId) (n : Nat) : Option State :=
  match st.invalidate m with
  | none => none
  | some st =>
    match st.w.allocate sp m n with
    | none => none
    | some (w, _) => some { st with w := w }

/-- `operator=(Motivator&&)` (motivator.h:64-70). -/
def State.moveAssign (st : State) (dst src : MotId) : Option State :=
  match st.w.moveAssign dst src with
  | none => none
  | some w => some { st with w := w, pool := st.pool ++ (st.slots dst).filterMap SSlot.loc }

/-- `Motivator(Motivator&&)` (motivator.h:53-60). -/
def State.moveConstruct (st : State) (dst src : MotId) : Option State :=
  match st.w.moveConstruct dst src with
  | none => none
  | some w => some { st with w := w }

/-- `SetTarget` (spline_processor.cpp:149-202) of dimension `off`; `nodes` is the number of nodes that end up in the spline, and
`AddNodeVerbatim` asserts that there is room (compact_spline.h:535). -/
def State.setTarget (st : State) (m : MotId) (off nodes : Nat) : Option State :=
  match (st.slots m)[off]? with
  | none => none
  | some x =>
    match (match x.loc with
      | some s => (s, st)
      | none => st.allocateSpline kDefaultMaxNodes) with
    | (s, st) =>
      if nodes ≤ st.cap s then
        match st.w.write m off ⟨some s, some (.own s)⟩ with
        | none => none
        | some w => some { st with w := w, objs := st.objs.modify s (fun o => { o with nodes := nodes }) }
      else none

/-- `SetSplines` (spline_processor.cpp:89-101) of dimension `off`, with `FreeSplineForIndex` (283-287); `e = none` is a null
pointer (bulk_spline_evaluator.cpp:173-176). For several dimensions the code frees first and sets afterwards, to the same
effect. -/
def State.setSpline (st : State) (m : MotId) (off : Nat) (e : Option (Nat × Nat × Nat)) : Option State :=
  match (st.slots m)[off]? with
  | none => none
  | some x =>
    match st.w.write m off ⟨none, e.map fun e => .ext e.1 e.2.1 e.2.2⟩ with
    | none => none
    | some w => some { st with w := w, pool := st.pool ++ x.loc.toList }

/-- `max_nodes()`, `num_nodes()` of the spline behind a pointer. -/
def State.sizes (st : State) : Source → Nat × Nat
  | .ext _ c n => (c, n)
  | .own s => ((st.objs[s]?).map fun o => (o.cap, o.nodes)).getD (0, 0)

/-- One round of `CopyIndices` with the lambda of `CloneIndices` (bulk_spline_evaluator.h:79-84, spline_processor.cpp:214-225):
dimension `k` of `dst` gets a copy of the spline that `src` plays. The lambda dereferences the pointer; `CompactSpline::operator=`
asserts that the nodes fit (compact_spline.h:87-94). -/
def State.cloneDim (st : State) (dst src : MotId) (k : Nat) : Option State :=
  match (st.slots src)[k]? with
  | none => none
  | some x =>
    match x.src with
    | none => none
    | some e =>
      let (c, n) := st.sizes e
      match st.allocateSpline c with
      | (s, st) =>
        if n ≤ st.cap s then
          match st.w.write dst k ⟨some s, some (.own s)⟩ with
          | none => none
          | some w => some { st with w := w, objs := st.objs.modify s (fun o => { o with nodes := n }) }
        else none

/-- `CloneFrom` (motivator.h:121-126, processor.cpp:77-93) with `CloneIndices` (spline_processor.cpp:214-225). `MoveIndices`, the
first step of `CopyIndices`, also copies the pointer, but the loop overwrites it before it is read. -/
def State.cloneFrom (st : State) (dst src : MotId) : Option State :=
  match st.invalidate dst with
  | none => none
  | some st =>
    match st.w.mots src with
    | none => some st
    | some _ =>
      match st.w.allocate sp dst (st.slots src).length with
      | none => none
      | some (w, _) =>
        (List.range (st.slots src).length).foldlM (fun st k => st.cloneDim dst src k) { st with w := w }

/-- `AdvanceFrame` (spline_processor.cpp:35-38): compaction moves both pointers (238-246); the evaluator's own `AdvanceFrame` changes
neither. -/
def State.advance (st : State) : Option State :=
  match st.w.defragment sp with
  | none => none
  | some w => some { st with w := w }

/-- API calls. -/
inductive Op where
  | initialize (m : MotId) (n : Nat)
  | invalidate (m : MotId)
  | moveAssign (dst src : MotId)
  | moveConstruct (dst src : MotId)
  | cloneFrom (dst src : MotId)
  | setTarget (m : MotId) (off nodes : Nat)
  | setSpline (m : MotId) (off : Nat) (e : Option (Nat × Nat × Nat))
  | advance

/-- One API call. Calls that the API forbids are skipped: zero dimensions, a dimension that does not exist,
constructing over a live object, a spline with more nodes
than it can hold. -/
def step (op : Op) (st : State) : Option State :=
  match op with
  | .initialize m n => if 0 < n then st.initialize m n else some st
  | .invalidate m => st.invalidate m
  | .moveAssign d s => st.moveAssign d s
  | .moveConstruct d s => if d ≠ s ∧ st.w.valid d = false then st.moveConstruct d s else some st
  | .cloneFrom d s => st.cloneFrom d s
  | .setTarget m off nodes => if off < (st.slots m).length then st.setTarget m off nodes else some st
  | .setSpline m off e =>
    if off < (st.slots m).length ∧ (∀ x ∈ e, x.2.2 ≤ x.2.1) then st.setSpline m off e else some st
  | .advance => st.advance

/-- A history of calls. -/
def runFrom (st : State) : List Op → Option State
  | [] => some st
  | op :: ops =>
    match step op st with
    | none => none
    | some st => runFrom st ops

def run (ops : List Op) : Option State := runFrom .init ops

/-- `~SplineMotiveProcessor` (spline_processor.cpp:29-33) deletes the splines in the pool; then `~MotiveProcessor` removes the motivators
*without* notifying the derived class (processor.cpp:21-33), so `RemoveIndices` is not called. The result is the list of splines
that were deleted. -/
def State.destroy (st : State) : List Nat := st.pool

end Motive.SplineProc
