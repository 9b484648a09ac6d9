import Verif.Proc.Model

/-!
# What users of motivators see

`Abs` is the intended reading of the API: every motivator is either invalid or bound to a processor and
owns a private list of values, one per dimension.  There are no slots, indices, holes or compaction.
`absStep` says what each API call does to it.  `step` is the same call on the model of the code.
-/

namespace Motive.Proc

variable {δ : Type}

/-- API calls. -/
inductive Op (δ : Type) where
  /-- the engine creates a processor (first use of a type) -/
  | create (p : ProcId) (dflt : δ) (cloning : Bool)
  /-- `Initialize(init, engine, ...)` with one initial value per dimension -/
  | initialize (m : MotId) (p : ProcId) (vals : List δ)
  /-- `Invalidate()` or the destructor -/
  | invalidate (m : MotId)
  /-- `dst = std::move(src)` -/
  | moveAssign (dst src : MotId)
  /-- `Motivator dst(std::move(src))` -/
  | moveConstruct (dst src : MotId)
  /-- `dst.CloneFrom(src)`, `none` for a null pointer -/
  | cloneFrom (dst : MotId) (src : Option MotId)
  /-- a setter that overwrites dimension `off` -/
  | write (m : MotId) (off : Nat) (v : δ)
  /-- `AdvanceFrame` of one processor -/
  | advance (p : ProcId) (f : δ → δ)
  /-- destruction of a processor (`MotiveEngine::Reset`, `~MotiveEngine`) -/
  | destroyProc (p : ProcId)

/-- One API call on the model of the code.  Calls that the API forbids are skipped: using a processor
that does not exist, zero dimensions, constructing over a live object, a dimension out of range. -/
def step (op : Op δ) (w : World δ) : Option (World δ) :=
  match op with
  | .create p dflt cl =>
    if (w.procs p).isSome then some w else some (w.setProc p (some (Proc.new dflt cl)))
  | .initialize m p vals =>
    if (w.procs p).isSome ∧ 0 < vals.length then w.initialize m p vals else some w
  | .invalidate m => w.invalidate m
  | .moveAssign dst src => w.moveAssign dst src
  | .moveConstruct dst src => if dst ≠ src ∧ w.valid dst = false then w.moveConstruct dst src else some w
  | .cloneFrom dst src => w.cloneFrom dst src
  | .write m off v =>
    if (w.dimensions m).any (fun n => decide (off < n)) then w.write m off v else some w
  | .advance p f => if (w.procs p).isSome then w.advance p f else some w
  | .destroyProc p => if (w.procs p).isSome then w.destroyProc p else some w

/-- A sequence of API calls from the empty program state. -/
def runFrom (w : World δ) : List (Op δ) → Option (World δ)
  | [] => some w
  | op :: ops => (step op w).bind fun w' => runFrom w' ops

def World.empty : World δ := ⟨fun _ => none, fun _ => none⟩

def run (ops : List (Op δ)) : Option (World δ) := runFrom World.empty ops

/-- The abstract state: which processors exist (and whether they support cloning); for each motivator,
its processor and its private values. -/
@[ext] structure Abs (δ : Type) where
  procs : ProcId → Option Bool
  vals : MotId → Option (ProcId × List δ)

def Abs.empty : Abs δ := ⟨fun _ => none, fun _ => none⟩

def Abs.set (s : Abs δ) (m : MotId) (v : Option (ProcId × List δ)) : Abs δ :=
  { s with vals := fun x => if x = m then v else s.vals x }

/-- What each API call means. -/
def absStep (op : Op δ) (s : Abs δ) : Abs δ :=
  match op with
  | .create p _ cl =>
    if (s.procs p).isSome then s else { s with procs := fun q => if q = p then some cl else s.procs q }
  | .initialize m p vals =>
    if (s.procs p).isSome ∧ 0 < vals.length then s.set m (some (p, vals)) else s
  | .invalidate m => s.set m none
  | .moveAssign dst src =>
    -- self-assignment leaves the motivator invalid
    if dst = src then s.set dst none else (s.set dst (s.vals src)).set src none
  | .moveConstruct dst src =>
    if dst ≠ src ∧ s.vals dst = none then (s.set dst (s.vals src)).set src none else s
  | .cloneFrom dst src =>
    match src with
    | none => s.set dst none
    | some src =>
      if dst = src then s.set dst none
      else
        match s.vals src with
        | none => s.set dst none
        | some (p, l) => if s.procs p = some true then s.set dst (some (p, l)) else s.set dst none
  | .write m off v =>
    match s.vals m with
    | none => s
    | some (p, l) => if off < l.length then s.set m (some (p, l.set off v)) else s
  | .advance p f =>
    if (s.procs p).isSome then
      { s with vals := fun m => (s.vals m).map fun x => if x.1 = p then (x.1, x.2.map f) else x }
    else s
  | .destroyProc p =>
    if (s.procs p).isSome then
      ⟨fun q => if q = p then none else s.procs q,
       fun m => (s.vals m).filter fun x => decide (x.1 ≠ p)⟩
    else s

def absRun (ops : List (Op δ)) : Abs δ := ops.foldl (fun s op => absStep op s) Abs.empty

/-- Reading the abstract state off the code's state: the values of a motivator are the slots
`[index, index + Dimensions(index))` of its processor. -/
def World.view (w : World δ) : Abs δ where
  procs := fun p => (w.procs p).map Proc.cloning
  vals := fun m =>
    match w.mots m with
    | none => none
    | some (p, i) =>
      match w.procs p with
      | none => none
      | some pr => (pr.dimensions i).map fun n => (p, (pr.data.drop i).take n)

end Motive.Proc
