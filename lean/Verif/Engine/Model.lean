/-!
# Model of `MotiveEngine` (src/motive/engine.cpp, include/motive/engine.h)

Processors are heap objects; an address is never reused (a fresh number per creation), so that a
dangling pointer is recognisable.  `heap p = some prio` means that `p` is alive and `Priority()` returns
`prio`.  A factory is represented by the priority of the processors it creates.  `none` results mean
that a destroyed processor was touched (undefined behaviour).  `SetEngine`, benchmarks and the version
string are not modelled.
-/

namespace Motive.Engine

structure Engine where
  /-- `function_map_` (engine.h:88; static, but only this engine is modelled) -/
  registry : List (Nat × Int)
  /-- `mapped_processors_` (engine.h:76) -/
  mapped : List (Nat × Nat)
  /-- `sorted_processors_` (engine.h:81) -/
  sorted : List Nat
  /-- live processors and their priorities -/
  heap : Nat → Option Int
  /-- next unused address -/
  next : Nat

def Engine.init : Engine := ⟨[], [], [], fun _ => none, 0⟩

/-- `std::map::find`. -/
def find {β : Type} (l : List (Nat × β)) (k : Nat) : Option β := (l.find? fun x => x.1 == k).map Prod.snd

/-- `std::map::insert`: keeps an existing entry. -/
def insert {β : Type} (l : List (Nat × β)) (k : Nat) (v : β) : List (Nat × β) :=
  match find l k with
  | some _ => l
  | none => l ++ [(k, v)]

/-- `RegisterProcessorFactory` (engine.cpp:26-29). -/
def register (t : Nat) (prio : Int) (e : Engine) : Engine :=
  { e with registry := insert e.registry t prio }

/-- `std::multiset::insert` with `ProcessorDetails::operator<` (engine.h:39-41): after the elements that
are not greater.  The comparison calls `Priority()` on the elements, which must be alive. -/
def insertSorted (heap : Nat → Option Int) (p : Nat) (prio : Int) : List Nat → Option (List Nat)
  | [] => some [p]
  | q :: qs =>
    match heap q with
    | none => none
    | some prioq => if prio < prioq then some (p :: q :: qs) else (insertSorted heap p prio qs).map (q :: ·)

/-- `fns.create()` (engine.cpp:64): a new object at a fresh address. -/
def newHeap (e : Engine) (prio : Int) : Nat → Option Int :=
  fun x => if x = e.next then some prio else e.heap x

/-- The engine after storing the new processor (engine.cpp:67-68); `s` is the new sorted set. -/
def remember (e : Engine) (t : Nat) (prio : Int) (s : List Nat) : Engine :=
  ⟨e.registry, insert e.mapped t e.next, s, newHeap e prio, e.next + 1⟩

/-- `Processor(type)` (engine.cpp:51-71).  The second component is the returned pointer. -/
def processor (t : Nat) (e : Engine) : Option (Engine × Option Nat) :=
  match find e.mapped t with
  | some p => some (e, some p)
  | none =>
    match find e.registry t with
    | none => some (e, none)
    | some prio =>
      match insertSorted (newHeap e prio) e.next prio e.sorted with
      | none => none
      | some s => some (remember e t prio s, some e.next)

/-- The loop of `Reset` (engine.cpp:36-45). -/
def destroyAll (registry : List (Nat × Int)) : List (Nat × Nat) → (Nat → Option Int) →
    Option (Nat → Option Int)
  | [], heap => some heap
  | (t, p) :: rest, heap =>
    match find registry t with
    | none => none
    | some _ =>
      match heap p with
      | none => none
      | some _ => destroyAll registry rest (fun x => if x = p then none else heap x)

/-- `Reset` (engine.cpp:35-49).  `sorted_processors_` is not touched by the code. -/
def reset (e : Engine) : Option Engine :=
  match destroyAll e.registry e.mapped e.heap with
  | none => none
  | some heap => some { e with mapped := [], heap := heap }

/-- `AdvanceFrame` (engine.cpp:73-85): returns the processors whose `AdvanceFrame` is called, in
order. -/
def advance (e : Engine) : Option (List Nat) :=
  e.sorted.mapM fun p => (e.heap p).map fun _ => p

/-- Calls on an engine. -/
inductive Call where
  | register (t : Nat) (prio : Int)
  | processor (t : Nat)
  | advance
  | reset
deriving Repr, DecidableEq

/-- One call. -/
def step (c : Call) (e : Engine) : Option Engine :=
  match c with
  | .register t prio => some (register t prio e)
  | .processor t => (processor t e).map Prod.fst
  | .advance => (advance e).map fun _ => e
  | .reset => reset e

def runFrom (e : Engine) : List Call → Option Engine
  | [] => some e
  | c :: cs => (step c e).bind fun e' => runFrom e' cs

def run (cs : List Call) : Option Engine := runFrom Engine.init cs

end Motive.Engine
