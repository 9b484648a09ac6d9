import Verif.Alloc.Lemmas

/-!
# Model of `MotiveProcessor` and `Motivator`

Sources: src/motive/processor.cpp, include/motive/processor.h, include/motive/motivator.h,
src/motive/motivator.cpp, include/motive/simple_processor_template.h.

Motivators and processors are identified by their addresses (natural numbers).  The heap of motivators
is a function from addresses to the pair `(processor_, index_)`, with `none` for
`(nullptr, kMotiveIndexInvalid)`; a destroyed or never constructed motivator is `none` as well.

The derived class is the slot-array class `SimpleProcessorTemplate<T>`: `δ` stands for the pair
`(T, float)` held in `data_[i]`, `values_[i]`.  `none` results mean undefined behaviour (dangling
pointer, out of range), a failed `assert`, or divergence.  Benchmarks and the debugging function
`VerifyInternalState` are not part of these definitions.
-/

namespace Motive.Proc

open Motive.Alloc

/-- Address of a `Motivator`. -/
abbrev MotId := Nat
/-- Address of a `MotiveProcessor`. -/
abbrev ProcId := Nat
/-- `processor_`, `index_` of every motivator (motivator.h:153-158). -/
abbrev Mots := MotId → Option (ProcId × Nat)

/-- `Motivator::Init` / `Motivator::Reset` (motivator.h:143-147). -/
def setMot (f : Mots) (m : MotId) (v : Option (ProcId × Nat)) : Mots := fun x => if x = m then v else f x

/-- What a processor's allocator callbacks can touch: `motivators_`, the slot arrays, and the
motivators themselves. -/
structure PState (δ : Type) where
  back : List (Option MotId)
  data : List δ
  mots : Mots

/-- An `assert`. -/
def check (b : Bool) : Option Unit := if b then some () else none

/-- A counted loop of writes `l[i+k] = vs[k]`. -/
def setRange {β : Type} (l : List β) (i : Nat) (vs : List β) : Option (List β) :=
  if i + vs.length ≤ l.length then some (l.take i ++ vs ++ l.drop (i + vs.length)) else none

/-- First loop of `MoveIndexRangeBase` (processor.cpp:203-206): re-`Init` the motivators of
`[i, fe)`. -/
def reinit (p : ProcId) (a : Alloc) (back : List (Option MotId)) (fs fe t : Nat) (i : Nat)
    (mots : Mots) : Option Mots :=
  if i < fe then
    match back[i]? with
    | some (some m) =>
      match _h : countFor a.counts i with
      | none => none
      | some n => reinit p a back fs fe t (i + n) (setMot mots m (some (p, i - fs + t)))
    | _ => none
  else some mots
termination_by fe - i
decreasing_by
  have := countFor_some _h
  omega

/-- `SimpleProcessorTemplate::MoveIndices` (simple_processor_template.h:101-109). -/
def copyLoop {δ : Type} (fs t len : Nat) (d : List δ) : Option (List δ) :=
  (List.range len).foldlM (fun d k =>
    match d[fs + k]? with
    | none => none
    | some v => if t + k < d.length then some (d.set (t + k) v) else none) d

/-- Last loop of `MoveIndexRangeBase` (processor.cpp:212-219), with its assertion. -/
def backLoop (fs t len : Nat) (b : List (Option MotId)) : Option (List (Option MotId)) :=
  (List.range len).foldlM (fun b k =>
    match b[fs + k]?, b[t + k]? with
    | some (some m), some none => some ((b.set (t + k) (some m)).set (fs + k) none)
    | _, _ => none) b

/-- `std::vector::resize`. -/
def vresize {β : Type} (d : β) (n : Nat) (l : List β) : List β :=
  l.take n ++ List.replicate (n - l.length) d

/-- The allocator callbacks of processor `p`: `SetNumIndicesBase` (processor.cpp:186-198) with
`SimpleProcessorTemplate::SetNumIndices` (simple_processor_template.h:111-114), and
`MoveIndexRangeBase` (processor.cpp:200-220). -/
def callbacks {δ : Type} (p : ProcId) (dflt : δ) : Callbacks (PState δ) where
  setNum := fun n s => some { s with back := vresize none n s.back, data := vresize dflt n s.data }
  move := fun a fs fe t s =>
    match reinit p a s.back fs fe t fs s.mots with
    | none => none
    | some mots =>
      match copyLoop fs t (fe - fs) s.data with
      | none => none
      | some data =>
        match backLoop fs t (fe - fs) s.back with
        | none => none
        | some back => some ⟨back, data, mots⟩

/-- A live processor.  `dflt` is `(T(), 0.0f)`; `cloning` is the result of `SupportsCloning()`. -/
structure Proc (δ : Type) where
  alloc : Alloc
  back : List (Option MotId)
  data : List δ
  dflt : δ
  cloning : Bool

/-- All live processors and all motivators. -/
structure World (δ : Type) where
  procs : ProcId → Option (Proc δ)
  mots : Mots

variable {δ : Type}

def Proc.pstate (pr : Proc δ) (mots : Mots) : PState δ := ⟨pr.back, pr.data, mots⟩

/-- Store processor `p` back. -/
def World.setProc (w : World δ) (p : ProcId) (pr : Option (Proc δ)) : World δ :=
  { w with procs := fun q => if q = p then pr else w.procs q }

/-- `MotiveProcessor::Dimensions` (processor.h:158-160). -/
def Proc.dimensions (pr : Proc δ) (i : Nat) : Option Nat := countFor pr.alloc.counts i

/-- `MotiveProcessor::ValidIndex` (processor.cpp:157-161). -/
def Proc.validIndex (pr : Proc δ) (p : ProcId) (mots : Mots) (i : Nat) : Bool :=
  decide (i < pr.alloc.numIndices) &&
    match pr.back[i]? with
    | some (some m) => (mots m).map Prod.fst == some p
    | _ => false

/-- `MotiveProcessor::IsMotivatorIndex` (processor.cpp:152-155). -/
def Proc.isMotivatorIndex (pr : Proc δ) (i : Nat) : Bool :=
  match pr.back[i]? with
  | some (some m) => i == 0 || pr.back[i-1]? != some (some m)
  | _ => false

/-- `MotiveProcessor::ValidMotivatorIndex` (processor.cpp:163-165). -/
def Proc.validMotivatorIndex (pr : Proc δ) (p : ProcId) (mots : Mots) (i : Nat) : Bool :=
  pr.validIndex p mots i && pr.isMotivatorIndex i

/-- `MotiveProcessor::ValidMotivator` (processor.h:133-135). -/
def Proc.validMotivator (pr : Proc δ) (p : ProcId) (mots : Mots) (i : Nat) (m : MotId) : Bool :=
  pr.validIndex p mots i && (pr.back[i]? == some (some m))

/-- `RemoveMotivatorWithoutNotifying` (processor.cpp:97-110). -/
def removeQuiet (i : Nat) (pr : Proc δ) (mots : Mots) : Option (Proc δ × Mots) := do
  let m ← (pr.back[i]?).join
  let n ← pr.dimensions i
  let back ← setRange pr.back i (List.replicate n none)
  let a ← free i pr.alloc
  pure ({ pr with back := back, alloc := a }, setMot mots m none)

/-- The accessor `Data(i)` asserts `ValidIndex(i)` (simple_processor_template.h:116-124). -/
def Proc.allValid (pr : Proc δ) (p : ProcId) (mots : Mots) (i n : Nat) : Bool :=
  (List.range n).all fun k => pr.validIndex p mots (i + k)

/-- `RemoveMotivator` (processor.cpp:112-123) with `SimpleProcessorTemplate::RemoveIndices`
(simple_processor_template.h:94-99). -/
def World.removeMotivator (w : World δ) (p : ProcId) (i : Nat) : Option (World δ) := do
  let pr ← w.procs p
  check (pr.validMotivatorIndex p w.mots i)
  let n ← pr.dimensions i
  check (pr.allValid p w.mots i n)
  let data ← setRange pr.data i (List.replicate n pr.dflt)
  let (pr', mots') ← removeQuiet i { pr with data := data } w.mots
  pure { (w.setProc p (some pr')) with mots := mots' }

/-- `Motivator::Invalidate` (motivator.h:82-86). -/
def World.invalidate (w : World δ) (m : MotId) : Option (World δ) :=
  match w.mots m with
  | none => some w
  | some (p, i) => w.removeMotivator p i

/-- `AllocateMotivatorIndices` (processor.cpp:167-184). -/
def World.allocate (w : World δ) (p : ProcId) (m : MotId) (n : Nat) : Option (World δ × Nat) := do
  let pr ← w.procs p
  let ((a, s), i) ← alloc (callbacks p pr.dflt) n pr.alloc (pr.pstate w.mots)
  let back ← setRange s.back i (List.replicate n (some m))
  pure (⟨(w.setProc p (some { pr with alloc := a, back := back, data := s.data })).procs,
    setMot s.mots m (some (p, i))⟩, i)

/-- `SimpleProcessorTemplate::InitializeIndices` (simple_processor_template.h:83-92): slot `i+k`
becomes `vals[k] = (T(init, k), start_values[k])`. -/
def World.initializeIndices (w : World δ) (p : ProcId) (i : Nat) (vals : List δ) :
    Option (World δ) := do
  let pr ← w.procs p
  check (pr.allValid p w.mots i vals.length)
  let data ← setRange pr.data i vals
  pure (w.setProc p (some { pr with data := data }))

/-- `Motivator::InitializeWithDimension` (motivator.cpp:20-32) followed by
`MotiveProcessor::InitializeMotivator` (processor.cpp:63-75), for a processor `p` that the engine
already has. -/
def World.initialize (w : World δ) (m : MotId) (p : ProcId) (vals : List δ) : Option (World δ) := do
  let w ← w.invalidate m
  let (w, i) ← w.allocate p m vals.length
  w.initializeIndices p i vals

/-- `TransferMotivator` (processor.cpp:125-144). -/
def World.transfer (w : World δ) (p : ProcId) (i : Nat) (m : MotId) : Option (World δ) := do
  let pr ← w.procs p
  check (pr.validMotivatorIndex p w.mots i)
  let old ← (pr.back[i]?).join
  let n ← pr.dimensions i
  let back ← setRange pr.back i (List.replicate n (some m))
  pure { (w.setProc p (some { pr with back := back })) with
    mots := setMot (setMot w.mots old none) m (some (p, i)) }

/-- `operator=(Motivator&&)` (motivator.h:64-70). -/
def World.moveAssign (w : World δ) (dst src : MotId) : Option (World δ) := do
  let w ← w.invalidate dst
  match w.mots src with
  | none => some w
  | some (p, i) => w.transfer p i dst

/-- `Motivator(Motivator&&)` (motivator.h:53-60); `dst` is raw storage. -/
def World.moveConstruct (w : World δ) (dst src : MotId) : Option (World δ) :=
  match w.mots src with
  | none => some { w with mots := setMot w.mots dst none }
  | some (p, i) => w.transfer p i dst

/-- `CloneMotivator` (processor.cpp:77-93).  `CloneIndices` copies the slots one by one (what the
processors that return `true` from `SupportsCloning` do with plain slot data). -/
def World.cloneMotivator (w : World δ) (p : ProcId) (dst : MotId) (src : Nat) : Option (World δ) := do
  let pr ← w.procs p
  if pr.cloning then
    let n ← pr.dimensions src
    let (w, i) ← w.allocate p dst n
    let pr ← w.procs p
    let data ← setRange pr.data i ((pr.data.drop src).take n)
    pure (w.setProc p (some { pr with data := data }))
  else
    pure w

/-- `Motivator::CloneFrom` (motivator.h:121-126); `src = none` is a null pointer. -/
def World.cloneFrom (w : World δ) (dst : MotId) (src : Option MotId) : Option (World δ) := do
  let w ← w.invalidate dst
  match src with
  | none => some w
  | some src =>
    match w.mots src with
    | none => some w
    | some (p, i) => w.cloneMotivator p dst i

/-- `MotiveProcessor::Defragment` (processor.h:229). -/
def World.defragment (w : World δ) (p : ProcId) : Option (World δ) := do
  let pr ← w.procs p
  let (a, s) ← Motive.Alloc.defragment (callbacks p pr.dflt) pr.alloc (pr.pstate w.mots)
  pure ⟨(w.setProc p (some { pr with alloc := a, back := s.back, data := s.data })).procs, s.mots⟩

/-- The `AdvanceFrame` of a slot-array processor: `Defragment()`, then update every slot. -/
def World.advance (w : World δ) (p : ProcId) (f : δ → δ) : Option (World δ) := do
  let w ← w.defragment p
  let pr ← w.procs p
  pure (w.setProc p (some { pr with data := pr.data.map f }))

/-- Any setter of a motivator that overwrites its `off`-th slot through `Data(index_ + off)`. -/
def World.write (w : World δ) (m : MotId) (off : Nat) (v : δ) : Option (World δ) := do
  let (p, i) ← w.mots m
  let pr ← w.procs p
  check (pr.validIndex p w.mots (i + off))
  let data ← setRange pr.data (i + off) [v]
  pure (w.setProc p (some { pr with data := data }))

/-- The loop of `~MotiveProcessor` (processor.cpp:24-29). -/
def destroyLoop (i : Nat) (pr : Proc δ) (mots : Mots) : Option (Proc δ × Mots) :=
  if i < pr.alloc.numIndices then
    match pr.back[i]? with
    | none => none
    | some b =>
      match (match b with
        | none => some (pr, mots)
        | some _ => removeQuiet i pr mots) with
      | none => none
      | some (pr', mots') =>
        match pr'.dimensions i with
        | none => none
        | some n => destroyLoop (i + n) pr' mots'
  else some (pr, mots)
partial_fixpoint

/-- `~MotiveProcessor` (processor.cpp:21-33) with its final assertion. -/
def World.destroyProc (w : World δ) (p : ProcId) : Option (World δ) := do
  let pr ← w.procs p
  let (pr', mots') ← destroyLoop 0 pr w.mots
  let e ← isEmpty pr'.alloc
  check e
  pure { (w.setProc p none) with mots := mots' }

/-- A freshly created processor. -/
def Proc.new (dflt : δ) (cloning : Bool) : Proc δ := ⟨Alloc.init, [], [], dflt, cloning⟩

/-- `Motivator::Sane` (motivator.h:95-98). -/
def World.sane (w : World δ) (m : MotId) : Bool :=
  match w.mots m with
  | none => true
  | some (p, i) =>
    match w.procs p with
    | none => false
    | some pr => pr.validMotivator p w.mots i m

/-- `Motivator::Valid` (motivator.h:90). -/
def World.valid (w : World δ) (m : MotId) : Bool := (w.mots m).isSome

/-- `Motivator::Dimensions` (motivator.h:111). -/
def World.dimensions (w : World δ) (m : MotId) : Option Nat := do
  let (p, i) ← w.mots m
  let pr ← w.procs p
  pr.dimensions i

end Motive.Proc
