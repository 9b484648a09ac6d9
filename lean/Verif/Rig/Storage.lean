import Mathlib.Data.Finset.Basic
import Mathlib.Data.List.Nodup
import Verif.Proc.Swap
import Verif.Owner.Dflt

/-!
# The storage of rigs (C88)

A rig motivator owns one `RigData` on the heap per dimension, and `MotiveRigProcessor` (rig_processor.cpp) keeps the pointers
in the array `data_`.  Here slots are pointers, and the heap is explicit: deleting what is not on the heap, and following
null, are errors.  What is inside of `RigData` is left out.
-/

namespace Motive.Rig.Storage

open Motive.Proc
open Motive.Alloc (Callbacks Live countFor_block)

/-! ### Model -/

/-- Address of a `RigData`. -/
abbrev Obj := ℕ

/-- The processors of rigs, with `data_` of `RigData*` (rig_processor.cpp:179), and the objects on the heap. -/
structure State where
  w : World (Option Obj)
  heap : Finset Obj

/-- `RemoveIndices` (rig_processor.cpp:140-146) as far as the heap is concerned, over the slots given.  Deleting an object
that is not on the heap is an error. -/
def removeSlots (heap : Finset Obj) : List (Option Obj) → Option (Finset Obj)
  | [] => some heap
  | none :: l => removeSlots heap l
  | some x :: l => if x ∈ heap then removeSlots (heap.erase x) l else none

/-- The loop of `InitializeIndices` (rig_processor.cpp:135-137): `new` returned these addresses.  It returns none that is in
use. -/
def newObjs (heap : Finset Obj) : List Obj → Option (Finset Obj)
  | [] => some heap
  | x :: l => if x ∈ heap then none else newObjs (insert x heap) l

/-- `MotiveProcessor::RemoveMotivator` (processor.cpp:112-123) of this processor. -/
def State.removeMotivator (s : State) (p : ProcId) (i : Nat) : Option State := do
  let pr ← s.w.procs p
  let n ← pr.dimensions i
  let heap ← removeSlots s.heap ((pr.data.drop i).take n)
  let w ← s.w.removeMotivator p i
  pure ⟨w, heap⟩

/-- `Motivator::Invalidate` (motivator.h:82-86). -/
def State.invalidate (s : State) (m : MotId) : Option State :=
  match s.w.mots m with
  | none => some s
  | some (p, i) => s.removeMotivator p i

/-- `Motivator::InitializeWithDimension` (motivator.cpp:20-32) with `InitializeIndices` (rig_processor.cpp:129-138). -/
def State.initialize (s : State) (m : MotId) (p : ProcId) (addrs : List Obj) : Option State := do
  let s ← s.invalidate m
  let (w, i) ← s.w.allocate p m addrs.length
  let pr ← w.procs p
  let heap ← removeSlots s.heap ((pr.data.drop i).take addrs.length)
  let heap ← newObjs heap addrs
  let w ← w.initializeIndices p i (addrs.map some)
  pure ⟨w, heap⟩

/-- `operator=(Motivator&&)` (motivator.h:64-70). -/
def State.moveAssign (s : State) (dst src : MotId) : Option State := do
  let s ← s.invalidate dst
  match s.w.mots src with
  | none => some s
  | some (p, i) => (s.w.transfer p i dst).map fun w => ⟨w, s.heap⟩

/-- `Motivator(Motivator&&)` (motivator.h:53-60). -/
def State.moveConstruct (s : State) (dst src : MotId) : Option State :=
  (s.w.moveConstruct dst src).map fun w => ⟨w, s.heap⟩

/-- `Motivator::CloneFrom` (motivator.h:121-126).  Rigs do not support cloning, so `CloneMotivator` returns at once
(processor.cpp:80-82). -/
def State.cloneFrom (s : State) (dst : MotId) (src : Option MotId) : Option State := do
  let s ← s.invalidate dst
  match src with
  | none => some s
  | some src =>
    match s.w.mots src with
    | none => some s
    | some (p, i) => (s.w.cloneMotivator p dst i).map fun w => ⟨w, s.heap⟩

/-- The callbacks of defragmentation: `SetNumIndices` (rig_processor.cpp:158-167) deletes the objects in slots that are cut
off, and `MoveIndices` (rig_processor.cpp:148-156) moves a pointer and leaves null. -/
def rigCallbacks (p : ProcId) : Callbacks (PState (Option Obj) × Finset Obj) where
  setNum := fun n s =>
    (removeSlots s.2 (s.1.data.drop n)).map fun heap =>
      ({ s.1 with back := vresize none n s.1.back, data := vresize none n s.1.data }, heap)
  move := fun a fs fe t s =>
    match reinit p a s.1.back fs fe t fs s.1.mots with
    | none => none
    | some mots =>
      match shiftLoop (fun _ => none) fs t (fe - fs) s.1.data with
      | none => none
      | some data =>
        match backLoop fs t (fe - fs) s.1.back with
        | none => none
        | some back => some (⟨back, data, mots⟩, s.2)

/-- `MotiveProcessor::Defragment` (processor.h:229). -/
def State.defragment (s : State) (p : ProcId) : Option State := do
  let pr ← s.w.procs p
  let (a, c) ← Motive.Alloc.defragment (rigCallbacks p) pr.alloc (pr.pstate s.w.mots, s.heap)
  pure ⟨⟨(s.w.setProc p (some { pr with alloc := a, back := c.1.back, data := c.1.data })).procs, c.1.mots⟩, c.2⟩

/-- `AdvanceFrame` (rig_processor.cpp:38-51): for every index, `Data(index)` asserts `ValidIndex` and follows the pointer,
which must lead to an object. -/
def State.advance (s : State) (p : ProcId) : Option State := do
  let s ← s.defragment p
  let pr ← s.w.procs p
  check (pr.allValid p s.w.mots 0 pr.alloc.numIndices)
  check ((List.range pr.alloc.numIndices).all fun i => match pr.data[i]? with
    | some (some x) => decide (x ∈ s.heap)
    | _ => false)
  pure s

/-- `~MotiveRigProcessor` (rig_processor.cpp:34-36), then `~MotiveProcessor`. -/
def State.destroyProc (s : State) (p : ProcId) : Option State := do
  let pr ← s.w.procs p
  let heap ← removeSlots s.heap pr.data
  let w ← s.w.destroyProc p
  pure ⟨w, heap⟩

/-- What programs can do with rig motivators. -/
inductive Call where
  | create (p : ProcId)
  | initialize (m : MotId) (p : ProcId) (addrs : List Obj)
  | invalidate (m : MotId)
  | moveAssign (dst src : MotId)
  | moveConstruct (dst src : MotId)
  | cloneFrom (dst : MotId) (src : Option MotId)
  | advance (p : ProcId)
  | destroyProc (p : ProcId)

/-- Could `new` return these addresses, after the objects that `m` owned are deleted? -/
def State.canNew (s : State) (m : MotId) (addrs : List Obj) : Prop :=
  ∀ s', s.invalidate m = some s' → addrs.Nodup ∧ ∀ x ∈ addrs, x ∉ s'.heap

open Classical in
/-- One call.  Calls that the API forbids are skipped: using a processor that does not exist, zero dimensions, constructing
over a live object; and so are addresses that `new` cannot return. -/
noncomputable def step (c : Call) (s : State) : Option State :=
  match c with
  | .create p =>
    if (s.w.procs p).isSome then some s else some { s with w := s.w.setProc p (some (Proc.new none false)) }
  | .initialize m p addrs =>
    if (s.w.procs p).isSome ∧ 0 < addrs.length ∧ s.canNew m addrs then s.initialize m p addrs else some s
  | .invalidate m => s.invalidate m
  | .moveAssign dst src => s.moveAssign dst src
  | .moveConstruct dst src => if dst ≠ src ∧ s.w.valid dst = false then s.moveConstruct dst src else some s
  | .cloneFrom dst src => s.cloneFrom dst src
  | .advance p => if (s.w.procs p).isSome then s.advance p else some s
  | .destroyProc p => if (s.w.procs p).isSome then s.destroyProc p else some s

/-- A sequence of calls. -/
noncomputable def runFrom (s : State) : List Call → Option State
  | [] => some s
  | c :: cs => (step c s).bind fun s' => runFrom s' cs

/-- From the start of the program. -/
noncomputable def run (cs : List Call) : Option State := runFrom ⟨World.empty, ∅⟩ cs

/-! ### Specification -/

/-- The rig objects of motivator `m`, one for each dimension. -/
def State.Owns (s : State) (m : MotId) (x : Obj) : Prop := ∃ p l, s.w.view.vals m = some (p, l) ∧ some x ∈ l

/-- The slots of motivators, and the heap, fit together. -/
structure Fit (vals : MotId → Option (ProcId × List (Option Obj))) (heap : Finset Obj) : Prop where
  nonnull : ∀ m p l, vals m = some (p, l) → none ∉ l
  nodup : ∀ m p l, vals m = some (p, l) → l.Nodup
  disj : ∀ m m' p p' l l' x, vals m = some (p, l) → vals m' = some (p', l') → x ∈ l → x ∈ l' → m = m'
  heap : ∀ x, x ∈ heap ↔ ∃ m p l, vals m = some (p, l) ∧ some x ∈ l

/-! ### Proofs -/

theorem removeSlots_spec : ∀ (l : List (Option Obj)) (heap : Finset Obj), (∀ x, some x ∈ l → x ∈ heap) →
    (∀ (i j : ℕ) (x : Obj), l[i]? = some (some x) → l[j]? = some (some x) → i = j) →
    ∃ h', removeSlots heap l = some h' ∧ ∀ x, x ∈ h' ↔ x ∈ heap ∧ some x ∉ l := by
  intro l
  induction l with
  | nil => intro heap _ _; exact ⟨heap, rfl, by simp⟩
  | cons a l ih =>
    intro heap hin hinj
    have hinj' : ∀ (i j : ℕ) (x : Obj), l[i]? = some (some x) → l[j]? = some (some x) → i = j := by
      intro i j x h1 h2
      have := hinj (i + 1) (j + 1) x (by simpa using h1) (by simpa using h2)
      omega
    cases a with
    | none =>
      obtain ⟨h', e1, e2⟩ := ih heap (fun x hx => hin x (by simp [hx])) hinj'
      exact ⟨h', e1, fun x => by rw [e2 x]; simp⟩
    | some y =>
      have hy : y ∈ heap := hin y (by simp)
      have hny : some y ∉ l := by
        intro hmem
        obtain ⟨k, hk⟩ := List.mem_iff_getElem?.mp hmem
        have := hinj 0 (k + 1) y (by simp) (by simpa using hk)
        omega
      obtain ⟨h', e1, e2⟩ := ih (heap.erase y) (fun x hx => by
        refine Finset.mem_erase.mpr ⟨?_, hin x (by simp [hx])⟩
        rintro rfl; exact hny hx) hinj'
      refine ⟨h', by simp only [removeSlots, hy, if_true, e1], fun x => ?_⟩
      rw [e2 x, Finset.mem_erase, List.mem_cons]
      constructor
      · rintro ⟨⟨h1, h2⟩, h3⟩
        exact ⟨h2, by rintro (h | h); exacts [h1 (Option.some.inj h), h3 h]⟩
      · rintro ⟨h1, h2⟩
        push Not at h2
        exact ⟨⟨fun e => h2.1 (by rw [e]), h1⟩, h2.2⟩

theorem removeSlots_empty {l : List (Option Obj)} (heap : Finset Obj) (h : ∀ x ∈ l, x = none) : removeSlots heap l = some heap := by
  induction l with
  | nil => rfl
  | cons a l ih =>
    have : a = none := h a (by simp)
    subst this
    exact ih fun x hx => h x (by simp [hx])

theorem newObjs_spec : ∀ (l : List Obj) (heap : Finset Obj), l.Nodup → (∀ x ∈ l, x ∉ heap) →
    ∃ h', newObjs heap l = some h' ∧ ∀ x, x ∈ h' ↔ x ∈ heap ∨ x ∈ l := by
  intro l
  induction l with
  | nil => intro heap _ _; exact ⟨heap, rfl, by simp⟩
  | cons a l ih =>
    intro heap hn hf
    obtain ⟨h1, h2⟩ := List.nodup_cons.mp hn
    obtain ⟨h', e1, e2⟩ := ih (insert a heap) h2 (fun x hx hin => by
      rcases Finset.mem_insert.mp hin with rfl | hin
      · exact h1 hx
      · exact hf x (by simp [hx]) hin)
    refine ⟨h', by simp only [newObjs, hf a (by simp), if_false, e1], fun x => ?_⟩
    rw [e2 x, Finset.mem_insert, List.mem_cons]
    tauto

theorem nodup_inj {l : List (Option Obj)} (h : l.Nodup) :
    ∀ (i j : ℕ) (x : Obj), l[i]? = some (some x) → l[j]? = some (some x) → i = j := by
  intro i j x hi hj
  obtain ⟨h1, -⟩ := List.getElem?_eq_some_iff.mp hi
  exact (List.getElem?_inj h1 h).mp (hi.trans hj.symm)

section Fit

variable {vals : MotId → Option (ProcId × List (Option Obj))} {heap : Finset Obj}

theorem Fit.remove (h : Fit vals heap) {m : MotId} {p : ProcId} {l : List (Option Obj)} (hm : vals m = some (p, l)) :
    ∃ h', removeSlots heap l = some h' ∧ Fit (fun x => if x = m then none else vals x) h' := by
  obtain ⟨h', e1, e2⟩ := removeSlots_spec l heap (fun x hx => (h.heap x).mpr ⟨m, p, l, hm, hx⟩) (nodup_inj (h.nodup m p l hm))
  refine ⟨h', e1, ?_, ?_, ?_, ?_⟩
  · intro y q k hy
    split at hy
    · simp at hy
    · exact h.nonnull y q k hy
  · intro y q k hy
    split at hy
    · simp at hy
    · exact h.nodup y q k hy
  · intro y y' q q' k k' x hy hy'
    split at hy
    · simp at hy
    · split at hy'
      · simp at hy'
      · exact h.disj y y' q q' k k' x hy hy'
  · intro x
    rw [e2 x]
    constructor
    · rintro ⟨hx, hnx⟩
      obtain ⟨y, q, k, hy, hk⟩ := (h.heap x).mp hx
      refine ⟨y, q, k, ?_, hk⟩
      split
      · rename_i e; subst e
        rw [hm] at hy
        simp only [Option.some.injEq, Prod.mk.injEq] at hy
        exact absurd (hy.2 ▸ hk) hnx
      · exact hy
    · rintro ⟨y, q, k, hy, hk⟩
      split at hy
      · simp at hy
      · rename_i hne
        exact ⟨(h.heap x).mpr ⟨y, q, k, hy, hk⟩, fun hx => hne (h.disj y m q p k l (some x) hy hm hk hx)⟩

theorem Fit.add (h : Fit vals heap) {m : MotId} (p : ProcId) {addrs : List Obj} (hm : vals m = none) (hn : addrs.Nodup)
    (hf : ∀ x ∈ addrs, x ∉ heap) :
    ∃ h', newObjs heap addrs = some h' ∧ Fit (fun x => if x = m then some (p, addrs.map some) else vals x) h' := by
  obtain ⟨h', e1, e2⟩ := newObjs_spec addrs heap hn hf
  have hfresh : ∀ y q k o, vals y = some (q, k) → o ∈ k → o ∈ addrs.map some → False := by
    intro y q k o hy ho ha
    obtain ⟨x, hx, rfl⟩ := List.mem_map.mp ha
    exact hf x hx ((h.heap x).mpr ⟨y, q, k, hy, ho⟩)
  refine ⟨h', e1, ?_, ?_, ?_, ?_⟩
  · intro y q k hy
    split at hy
    · simp only [Option.some.injEq, Prod.mk.injEq] at hy
      rw [← hy.2]; simp
    · exact h.nonnull y q k hy
  · intro y q k hy
    split at hy
    · simp only [Option.some.injEq, Prod.mk.injEq] at hy
      rw [← hy.2]
      exact hn.map (Option.some_injective _)
    · exact h.nodup y q k hy
  · intro y y' q q' k k' x hy hy' hx hx'
    split at hy <;> split at hy'
    · rename_i e e'; rw [e, e']
    · simp only [Option.some.injEq, Prod.mk.injEq] at hy
      exact (hfresh y' q' k' x hy' hx' (hy.2 ▸ hx)).elim
    · simp only [Option.some.injEq, Prod.mk.injEq] at hy'
      exact (hfresh y q k x hy hx (hy'.2 ▸ hx')).elim
    · exact h.disj y y' q q' k k' x hy hy' hx hx'
  · intro x
    rw [e2 x]
    constructor
    · rintro (hx | hx)
      · obtain ⟨y, q, k, hy, hk⟩ := (h.heap x).mp hx
        refine ⟨y, q, k, ?_, hk⟩
        split
        · rename_i e; subst e; rw [hm] at hy; simp at hy
        · exact hy
      · exact ⟨m, p, addrs.map some, by simp, by simpa using hx⟩
    · rintro ⟨y, q, k, hy, hk⟩
      split at hy
      · simp only [Option.some.injEq, Prod.mk.injEq] at hy
        rw [← hy.2] at hk
        exact .inr (by simpa using hk)
      · exact .inl ((h.heap x).mpr ⟨y, q, k, hy, hk⟩)

theorem Fit.move (h : Fit vals heap) {dst src : MotId} (hd : vals dst = none) :
    Fit (fun x => if x = src then none else if x = dst then vals src else vals x) heap := by
  -- the motivator that held the slots before
  have back : ∀ {y q k}, (if y = src then none else if y = dst then vals src else vals y) = some (q, k) →
      ∃ z, vals z = some (q, k) ∧ (y = dst ∧ z = src ∨ y ≠ dst ∧ z = y) ∧ y ≠ src := by
    intro y q k hy
    split at hy
    · simp at hy
    · split at hy
      · exact ⟨src, hy, .inl ⟨‹_›, rfl⟩, ‹_›⟩
      · exact ⟨y, hy, .inr ⟨‹_›, rfl⟩, ‹_›⟩
  refine ⟨?_, ?_, ?_, ?_⟩
  · intro y q k hy
    obtain ⟨z, hz, -, -⟩ := back hy
    exact h.nonnull z q k hz
  · intro y q k hy
    obtain ⟨z, hz, -, -⟩ := back hy
    exact h.nodup z q k hz
  · intro y y' q q' k k' x hy hy' hx hx'
    obtain ⟨z, hz, hc, hs⟩ := back hy
    obtain ⟨z', hz', hc', hs'⟩ := back hy'
    have := h.disj z z' q q' k k' x hz hz' hx hx'
    subst this
    rcases hc with ⟨a, b⟩ | ⟨a, b⟩ <;> rcases hc' with ⟨a', b'⟩ | ⟨a', b'⟩
    · rw [a, a']
    · exact absurd (b'.symm.trans b) hs'
    · exact absurd (b.symm.trans b') hs
    · rw [← b, ← b']
  · intro x
    rw [h.heap x]
    constructor
    · rintro ⟨y, q, k, hy, hk⟩
      by_cases e : y = src
      · subst e
        by_cases e' : dst = y
        · subst e'; rw [hd] at hy; simp at hy
        · exact ⟨dst, q, k, by simp [e', hy], hk⟩
      · refine ⟨y, q, k, ?_, hk⟩
        rw [if_neg e, if_neg]
        · exact hy
        · rintro rfl; rw [hd] at hy; simp at hy
    · rintro ⟨y, q, k, hy, hk⟩
      obtain ⟨z, hz, -, -⟩ := back hy
      exact ⟨z, q, k, hz, hk⟩

theorem Fit.destroy (h : Fit vals heap) (p : ProcId) {heap' : Finset Obj}
    (hh : ∀ x, x ∈ heap' ↔ x ∈ heap ∧ ¬ ∃ m l, vals m = some (p, l) ∧ some x ∈ l) :
    Fit (fun m => (vals m).filter fun x => decide (x.1 ≠ p)) heap' := by
  have back : ∀ {y q k}, ((vals y).filter fun x => decide (x.1 ≠ p)) = some (q, k) ↔ vals y = some (q, k) ∧ q ≠ p := by
    intro y q k
    rw [Option.filter_eq_some_iff]
    simp
  refine ⟨?_, ?_, ?_, ?_⟩
  · intro y q k hy; exact h.nonnull y q k (back.mp hy).1
  · intro y q k hy; exact h.nodup y q k (back.mp hy).1
  · intro y y' q q' k k' x hy hy'
    exact h.disj y y' q q' k k' x (back.mp hy).1 (back.mp hy').1
  · intro x
    rw [hh x, h.heap x]
    constructor
    · rintro ⟨⟨y, q, k, hy, hk⟩, hno⟩
      exact ⟨y, q, k, back.mpr ⟨hy, by rintro rfl; exact hno ⟨y, k, hy, hk⟩⟩, hk⟩
    · rintro ⟨y, q, k, hy, hk⟩
      obtain ⟨h1, h2⟩ := back.mp hy
      refine ⟨⟨y, q, k, h1, hk⟩, ?_⟩
      rintro ⟨m, l, hm, hl⟩
      have := h.disj y m q p k l (some x) h1 hm hk hl
      subst this
      rw [hm] at h1
      simp only [Option.some.injEq, Prod.mk.injEq] at h1
      exact h2 h1.1.symm

end Fit

/-- The invariant of programs. -/
structure RInv (s : State) : Prop where
  winv : WInv s.w
  clean : s.w.Clean
  dflt : s.w.Dflt (· = none)
  noclone : ∀ p, s.w.view.procs p ≠ some true
  fit : Fit s.w.view.vals s.heap

/-- The same call in the model of all processors. -/
def Call.op : Call → Op (Option Obj)
  | .create p => .create p none false
  | .initialize m p addrs => .initialize m p (addrs.map some)
  | .invalidate m => .invalidate m
  | .moveAssign d s => .moveAssign d s
  | .moveConstruct d s => .moveConstruct d s
  | .cloneFrom d s => .cloneFrom d s
  | .advance p => .advance p id
  | .destroyProc p => .destroyProc p

/-- The rest of the invariant follows from the model of all processors. -/
theorem RInv.of_op {s s' : State} (h : RInv s) (c : Call) (hw : Motive.Proc.step c.op s.w = some s'.w) (hf : Fit s'.w.view.vals s'.heap) :
    RInv s' := by
  obtain ⟨w', e1, e2, e3⟩ := step_spec h.winv c.op
  rw [hw] at e1
  cases e1
  refine ⟨e2, step_clean h.winv h.clean c.op hw, step_dflt h.dflt c.op ?_ hw, ?_, hf⟩
  · intro p d cl he
    cases c <;> simp [Call.op] at he
    exact he.2.1.symm
  · intro p
    have hp := h.noclone p
    rw [e3]
    cases c <;> simp only [Call.op, absStep] <;> repeat' split
    all_goals first
      | exact hp
      | (simp only []; split <;> simp_all)

theorem invalidate_ok {s : State} (h : RInv s) (m : MotId) :
    ∃ s', s.invalidate m = some s' ∧ RInv s' ∧ s.w.invalidate m = some s'.w ∧ s'.w.mots m = none := by
  obtain ⟨w', e1, e2, e3, e4⟩ := invalidate_spec h.winv m
  have hmots : w'.mots m = none := by rw [e3]; exact setMot_self _ _ _
  unfold State.invalidate
  cases hm : s.w.mots m with
  | none =>
    have : w' = s.w := by
      unfold World.invalidate at e1; rw [hm] at e1; simpa using e1.symm
    subst this
    exact ⟨s, rfl, h, e1, hm⟩
  | some x =>
    obtain ⟨p, i⟩ := x
    obtain ⟨pr, hpr⟩ := h.winv.mots m p i hm
    obtain ⟨n, hl, -⟩ := (h.winv.procs p pr hpr).ref m i hm
    have hv := view_some hm hpr hl
    obtain ⟨h', r1, r2⟩ := h.fit.remove hv
    have hrm : s.w.removeMotivator p i = some w' := by
      unfold World.invalidate at e1; rw [hm] at e1; exact e1
    refine ⟨⟨w', h'⟩, ?_, h.of_op (.invalidate m) e1 ?_, e1, hmots⟩
    · simp only [State.removeMotivator, hpr, Proc.dimensions, countFor_block hl.1, Option.bind_eq_bind, Option.bind_some, r1, hrm,
        Option.pure_def]
    · rw [e4]; exact r2

theorem initialize_ok {s : State} (h : RInv s) {m : MotId} {p : ProcId} {addrs : List Obj} (hp : (s.w.procs p).isSome)
    (h0 : 0 < addrs.length) (hn : s.canNew m addrs) :
    ∃ s', s.initialize m p addrs = some s' ∧ RInv s' ∧ s.w.initialize m p (addrs.map some) = some s'.w := by
  obtain ⟨s1, i1, i2, i3, i4⟩ := invalidate_ok h m
  obtain ⟨hnd, hfr⟩ := hn s1 i1
  obtain ⟨w2, e1, e2, e3⟩ := initialize_spec (vals := addrs.map some) h.winv (m := m) hp (by simpa using h0)
  have hp1 : ∃ pr, s1.w.procs p = some pr := by
    obtain ⟨w', f1, -, -, f4⟩ := invalidate_spec h.winv m
    rw [i3] at f1; cases f1
    have : s1.w.view.procs p = s.w.view.procs p := by rw [f4]; rfl
    simp only [World.view] at this
    obtain ⟨pr, hpr⟩ := Option.isSome_iff_exists.mp hp
    rw [hpr] at this
    cases hq : s1.w.procs p with
    | none => rw [hq] at this; simp at this
    | some pr => exact ⟨pr, rfl⟩
  obtain ⟨pr1, hpr1⟩ := hp1
  obtain ⟨w', i, pr', a1, a2, a3, a4, a5, a6, a7, a8, a9⟩ := allocate_spec i2.winv i4 hpr1 h0
  obtain ⟨b1, b2, b3⟩ := allocate_clean i2.winv i2.clean i4 hpr1 h0 a1
  have hslots : (pr'.data.drop i).take addrs.length = List.replicate addrs.length none := by
    have hv : w'.view.vals m = some (p, (pr'.data.drop i).take addrs.length) :=
      view_some (by rw [a5]; exact setMot_self _ _ _) a3 a6
    rw [b3] at hv
    simp only [Abs.set, if_true, Option.some.injEq, Prod.mk.injEq, true_and] at hv
    rw [← hv, i2.dflt p pr1 hpr1]
  obtain ⟨h', r1, r2⟩ := i2.fit.add p ((view_none_iff i2.winv).mpr i4) hnd hfr
  have hwi : w'.initializeIndices p i (addrs.map some) = some w2 := by
    have := e1
    simp only [World.initialize, i3, Option.bind_eq_bind, Option.bind_some, List.length_map, a1] at this
    exact this
  refine ⟨⟨w2, h'⟩, ?_, ?_, e1⟩
  · simp only [State.initialize, i1, Option.bind_eq_bind, Option.bind_some, a1, a3, hslots, hwi, r1, Option.pure_def,
      removeSlots_empty s1.heap (l := List.replicate addrs.length none) (fun x hx => (List.mem_replicate.mp hx).2)]
  · refine h.of_op (.initialize m p addrs) ?_ ?_
    · simp only [Call.op, Motive.Proc.step]
      rw [if_pos ⟨hp, by simpa using h0⟩]
      exact e1
    · have hv : s1.w.view = s.w.view.set m none := by
        obtain ⟨w', f1, -, -, f4⟩ := invalidate_spec h.winv m
        rw [i3] at f1; cases f1
        exact f4
      have : w2.view.vals = fun x => if x = m then some (p, addrs.map some) else s1.w.view.vals x := by
        rw [e3, hv]
        funext x
        simp only [Abs.set]
        split <;> rfl
      rw [this]; exact r2

theorem transfer_ok {s : State} (h : RInv s) {dst src : MotId} {p : ProcId} {i : Nat} (hs : s.w.mots src = some (p, i))
    (hd : s.w.mots dst = none) :
    ∃ w', s.w.transfer p i dst = some w' ∧ Fit w'.view.vals s.heap := by
  obtain ⟨w', e1, e2, e3⟩ := transfer_spec h.winv hs hd
  refine ⟨w', e1, ?_⟩
  have := h.fit.move (dst := dst) (src := src) ((view_none_iff h.winv).mpr hd)
  rw [e3]
  exact this

theorem moveAssign_ok {s : State} (h : RInv s) (dst src : MotId) :
    ∃ s', s.moveAssign dst src = some s' ∧ RInv s' ∧ s.w.moveAssign dst src = some s'.w := by
  obtain ⟨s1, i1, i2, i3, i4⟩ := invalidate_ok h dst
  have hw : s.w.moveAssign dst src = (match s1.w.mots src with
    | none => some s1.w
    | some (p, i) => s1.w.transfer p i dst) := by
    simp only [World.moveAssign, i3, Option.bind_eq_bind, Option.bind_some]
    rfl
  simp only [State.moveAssign, i1, Option.bind_eq_bind, Option.bind_some]
  cases hm : s1.w.mots src with
  | none =>
    rw [hm] at hw
    exact ⟨s1, rfl, i2, hw⟩
  | some x =>
    obtain ⟨p, i⟩ := x
    rw [hm] at hw
    obtain ⟨w', e1, e2⟩ := transfer_ok i2 hm i4
    simp only [e1, Option.map_some]
    simp only [e1] at hw
    exact ⟨_, rfl, h.of_op (.moveAssign dst src) hw e2, hw⟩

theorem moveConstruct_ok {s : State} (h : RInv s) {dst src : MotId} (hne : dst ≠ src) (hv : s.w.valid dst = false) :
    ∃ s', s.moveConstruct dst src = some s' ∧ RInv s' ∧ s.w.moveConstruct dst src = some s'.w := by
  have hd : s.w.mots dst = none := by simpa [World.valid] using hv
  obtain ⟨w', e1, e2, e3⟩ := moveConstruct_spec h.winv (src := src) hd
  refine ⟨⟨w', s.heap⟩, by simp [State.moveConstruct, e1], h.of_op (.moveConstruct dst src) ?_ ?_, e1⟩
  · simp only [Call.op, Motive.Proc.step]
    rw [if_pos ⟨hne, hv⟩]; exact e1
  · have := h.fit.move (dst := dst) (src := src) ((view_none_iff h.winv).mpr hd)
    rw [e3]
    exact this

theorem cloneFrom_ok {s : State} (h : RInv s) (dst : MotId) (src : Option MotId) :
    ∃ s', s.cloneFrom dst src = some s' ∧ RInv s' ∧ s.w.cloneFrom dst src = some s'.w := by
  obtain ⟨s1, i1, i2, i3, i4⟩ := invalidate_ok h dst
  have key : s.cloneFrom dst src = some s1 ∧ s.w.cloneFrom dst src = some s1.w := by
    simp only [State.cloneFrom, World.cloneFrom, i1, i3, Option.bind_eq_bind, Option.bind_some]
    cases src with
    | none => exact ⟨rfl, rfl⟩
    | some src =>
      simp only
      cases hm : s1.w.mots src with
      | none => exact ⟨rfl, rfl⟩
      | some x =>
        obtain ⟨p, i⟩ := x
        obtain ⟨pr, hpr⟩ := i2.winv.mots src p i hm
        have hcl : pr.cloning = false := by
          have := i2.noclone p
          simp only [World.view, hpr, Option.map_some] at this
          cases hc : pr.cloning with
          | false => rfl
          | true => rw [hc] at this; exact absurd rfl this
        have : s1.w.cloneMotivator p dst i = some s1.w := by
          simp [World.cloneMotivator, hpr, hcl]
        dsimp only
        rw [this]
        exact ⟨rfl, rfl⟩
  exact ⟨s1, key.1, i2, key.2⟩

/-- Defragmentation deletes nothing. -/
theorem defragment_ok {s : State} (h : RInv s) {p : ProcId} {pr : Proc (Option Obj)} (hpr : s.w.procs p = some pr) :
    ∃ w', s.defragment p = some ⟨w', s.heap⟩ ∧ s.w.defragment p = some w' := by
  obtain ⟨w', pr', e1, e2, e3, e4, e5, e6⟩ := defragment_spec' h.winv hpr
  refine ⟨w', ?_, e1⟩
  have hd : pr.dflt = none := h.dflt p pr hpr
  have hsw := defragment_swap h.winv h.clean hpr (rest := fun _ => none) hd.symm
  rw [e1] at hsw
  simp only [World.defragmentR, hpr, Option.bind_eq_bind, Option.bind_some, hd] at hsw
  obtain ⟨⟨a, c⟩, f1, f2⟩ := Option.bind_eq_some_iff.mp hsw
  have hproj := defragment_proj (cb := callbacksR p none (fun _ => (none : Option Obj))) (cb' := rigCallbacks p)
    (f := fun c => (c, s.heap)) ?_ ?_ f1
  · simp only [State.defragment, hpr, Option.bind_eq_bind, Option.bind_some, hproj, Option.pure_def]
    simp only [Option.pure_def, Option.some.injEq] at f2
    rw [hd, f2]
  · intro n c c' hc
    simp only [callbacksR] at hc
    split at hc
    · rename_i hall
      simp only [Option.some.injEq] at hc
      subst hc
      simp only [rigCallbacks, removeSlots_empty s.heap hall, Option.map_some]
    · simp at hc
  · intro a fs fe t c c' hc
    simp only [callbacksR] at hc
    simp only [rigCallbacks]
    split at hc
    · simp at hc
    · rename_i mots hm
      rw [hm]
      simp only
      split at hc
      · simp at hc
      · rename_i data hdt
        rw [hdt]
        simp only
        split at hc
        · simp at hc
        · rename_i back hb
          rw [hb]
          simp only [Option.some.injEq] at hc ⊢
          rw [hc]

theorem advance_ok {s : State} (h : RInv s) {p : ProcId} (hp : (s.w.procs p).isSome) :
    ∃ s', s.advance p = some s' ∧ RInv s' ∧ s.w.advance p id = some s'.w ∧ s'.heap = s.heap := by
  obtain ⟨pr, hpr⟩ := Option.isSome_iff_exists.mp hp
  obtain ⟨w', d1, d2⟩ := defragment_ok h hpr
  obtain ⟨w2, pr', e1, e2, e3, e4, e5, e6⟩ := defragment_spec' h.winv hpr
  rw [d2] at e1; cases e1
  have hpi := e2.procs p pr' e4
  have hfit : Fit w'.view.vals s.heap := by rw [e3]; exact h.fit
  have hwadv : s.w.advance p id = some w' := by
    simp only [World.advance, d2, Option.bind_eq_bind, Option.bind_some, e4, List.map_id, Option.pure_def, Option.some.injEq]
    have hset : (fun q => if q = p then some pr' else w'.procs q) = w'.procs := by
      funext q
      split
      · rename_i e; rw [e, e4]
      · rfl
    simp only [World.setProc, hset]
  -- every index belongs to a motivator
  have hcover : ∀ k, k < pr'.alloc.numIndices → ∃ m i n, w'.mots m = some (p, i) ∧ Live pr'.alloc i n ∧ i ≤ k ∧ k < i + n := by
    intro k hk
    obtain ⟨i, n, hb, -, -, h1, h2⟩ := hpi.inv.tiled.cover (Nat.zero_le k) hk
    have hl : Live pr'.alloc i n := ⟨hb, by rw [e5]; simp⟩
    obtain ⟨m, hm, -⟩ := hpi.own i n hl
    exact ⟨m, i, n, hm, hl, h1, h2⟩
  have c1 : pr'.allValid p w'.mots 0 pr'.alloc.numIndices = true := by
    simp only [Proc.allValid, List.all_eq_true, List.mem_range, Nat.zero_add]
    intro k hk
    obtain ⟨m, i, n, hm, hl, h1, h2⟩ := hcover k hk
    have := hpi.validIndex hm hl (k := k - i) (by omega)
    rwa [show i + (k - i) = k by omega] at this
  have c2 : ((List.range pr'.alloc.numIndices).all fun i => match pr'.data[i]? with
      | some (some x) => decide (x ∈ s.heap)
      | _ => false) = true := by
    simp only [List.all_eq_true, List.mem_range]
    intro k hk
    obtain ⟨m, i, n, hm, hl, h1, h2⟩ := hcover k hk
    have hv := view_some hm e4 hl
    have hdl : pr'.data.length = pr'.alloc.numIndices := hpi.dlen
    have hin : pr'.data[k]'(by omega) ∈ (pr'.data.drop i).take n := by
      refine List.mem_iff_getElem?.mpr ⟨k - i, ?_⟩
      rw [List.getElem?_take, if_pos (by omega), List.getElem?_drop, show i + (k - i) = k by omega]
      exact List.getElem?_eq_getElem _
    rw [List.getElem?_eq_getElem (by omega)]
    cases hx : pr'.data[k]'(by omega) with
    | none => rw [hx] at hin; exact absurd hin (hfit.nonnull m _ _ hv)
    | some x =>
      rw [hx] at hin
      simp only [decide_eq_true_eq]
      exact (hfit.heap x).mpr ⟨m, _, _, hv, hin⟩
  refine ⟨⟨w', s.heap⟩, ?_, h.of_op (.advance p) ?_ hfit, hwadv, rfl⟩
  · simp only [State.advance, d1, Option.bind_eq_bind, Option.bind_some, e4, check_true c1, check_true c2, Option.pure_def]
  · simp only [Call.op, Motive.Proc.step]
    rw [if_pos hp]; exact hwadv

theorem destroyProc_ok {s : State} (h : RInv s) {p : ProcId} (hp : (s.w.procs p).isSome) :
    ∃ s', s.destroyProc p = some s' ∧ RInv s' ∧ s.w.destroyProc p = some s'.w := by
  obtain ⟨pr, hpr⟩ := Option.isSome_iff_exists.mp hp
  obtain ⟨w', e1, e2, e3⟩ := destroyProc_spec h.winv hp
  have hpi := h.winv.procs p pr hpr
  have hd : pr.dflt = none := h.dflt p pr hpr
  have hdl : pr.data.length = pr.alloc.numIndices := hpi.dlen
  -- the owner of an object in a slot
  have howner : ∀ (k : Nat) (x : Obj), pr.data[k]? = some (some x) → ∃ m i n, w'.mots = w'.mots ∧ s.w.mots m = some (p, i) ∧
      Live pr.alloc i n ∧ i ≤ k ∧ k < i + n := by
    intro k x hk
    have hlt : k < pr.alloc.numIndices := by rw [← hdl]; exact (List.getElem?_eq_some_iff.mp hk).1
    by_cases hex : ∃ i n, Live pr.alloc i n ∧ i ≤ k ∧ k < i + n
    · obtain ⟨i, n, hl, h1, h2⟩ := hex
      obtain ⟨m, hm, -⟩ := hpi.own i n hl
      exact ⟨m, i, n, rfl, hm, hl, h1, h2⟩
    · have := h.clean p pr hpr k hlt (fun i n hl hc => hex ⟨i, n, hl, hc⟩)
      rw [this, hd] at hk
      simp at hk
  have hslot : ∀ (k i n : Nat) (o : Option Obj), i ≤ k → k < i + n → pr.data[k]? = some o → ((pr.data.drop i).take n)[k - i]? = some o := by
    intro k i n o h1 h2 h3
    rw [List.getElem?_take, if_pos (by omega), List.getElem?_drop, show i + (k - i) = k by omega, h3]
  have hin : ∀ x, some x ∈ pr.data → x ∈ s.heap := by
    intro x hx
    obtain ⟨k, hk⟩ := List.mem_iff_getElem?.mp hx
    obtain ⟨m, i, n, -, hm, hl, h1, h2⟩ := howner k x hk
    exact (h.fit.heap x).mpr ⟨m, _, _, view_some hm hpr hl, List.mem_iff_getElem?.mpr ⟨k - i, hslot k i n _ h1 h2 hk⟩⟩
  have hinj : ∀ (i j : ℕ) (x : Obj), pr.data[i]? = some (some x) → pr.data[j]? = some (some x) → i = j := by
    intro k k' x hk hk'
    obtain ⟨m, i, n, -, hm, hl, h1, h2⟩ := howner k x hk
    obtain ⟨m', i', n', -, hm', hl', h1', h2'⟩ := howner k' x hk'
    have hs := hslot k i n _ h1 h2 hk
    have hs' := hslot k' i' n' _ h1' h2' hk'
    have hmm := h.fit.disj m m' _ _ _ _ (some x) (view_some hm hpr hl) (view_some hm' hpr hl')
      (List.mem_iff_getElem?.mpr ⟨_, hs⟩) (List.mem_iff_getElem?.mpr ⟨_, hs'⟩)
    subst hmm
    rw [hm] at hm'
    simp only [Option.some.injEq, Prod.mk.injEq, true_and] at hm'
    subst hm'
    have hnn : n = n' := hl.1.unique hl'.1
    subst hnn
    have := nodup_inj (h.fit.nodup m _ _ (view_some hm hpr hl)) _ _ x hs hs'
    omega
  obtain ⟨h', r1, r2⟩ := removeSlots_spec pr.data s.heap hin hinj
  refine ⟨⟨w', h'⟩, ?_, h.of_op (.destroyProc p) ?_ ?_, e1⟩
  · simp only [State.destroyProc, hpr, Option.bind_eq_bind, Option.bind_some, r1, e1, Option.pure_def]
  · simp only [Call.op, Motive.Proc.step]
    rw [if_pos hp]; exact e1
  · rw [e3]
    simp only [absStep]
    rw [if_pos (by simp [World.view, hpr])]
    refine h.fit.destroy p fun x => ?_
    rw [r2 x]
    refine and_congr_right fun _ => not_congr ⟨fun hx => ?_, ?_⟩
    · obtain ⟨k, hk⟩ := List.mem_iff_getElem?.mp hx
      obtain ⟨m, i, n, -, hm, hl, h1, h2⟩ := howner k x hk
      exact ⟨m, _, view_some hm hpr hl, List.mem_iff_getElem?.mpr ⟨k - i, hslot k i n _ h1 h2 hk⟩⟩
    · rintro ⟨m, l, hm, hl⟩
      obtain ⟨pr2, hp2, hall⟩ := slot_mem h.winv hm
      rw [hpr] at hp2; cases hp2
      exact hall _ hl

theorem step_ok {s : State} (h : RInv s) (c : Call) :
    ∃ s', step c s = some s' ∧ RInv s' ∧ (s' = s ∨ Motive.Proc.step c.op s.w = some s'.w) := by
  match c with
  | .create p =>
    simp only [step]
    split
    · exact ⟨s, rfl, h, .inl rfl⟩
    · rename_i hp
      have hw : Motive.Proc.step (Call.create p).op s.w = some (s.w.setProc p (some (Proc.new none false))) := by
        simp only [Call.op, Motive.Proc.step]; rw [if_neg hp]
      refine ⟨_, rfl, h.of_op (.create p) hw ?_, .inr hw⟩
      obtain ⟨w', e1, -, e3⟩ := step_spec h.winv (Call.create p).op
      rw [hw] at e1; cases e1
      rw [e3]
      simp only [Call.op, absStep]
      split <;> exact h.fit
  | .initialize m p addrs =>
    simp only [step]
    split
    · rename_i hc
      obtain ⟨s', e1, e2, e3⟩ := initialize_ok h hc.1 hc.2.1 hc.2.2
      refine ⟨s', e1, e2, .inr ?_⟩
      simp only [Call.op, Motive.Proc.step]
      rw [if_pos ⟨hc.1, by simpa using hc.2.1⟩]; exact e3
    · exact ⟨s, rfl, h, .inl rfl⟩
  | .invalidate m =>
    obtain ⟨s', e1, e2, e3, -⟩ := invalidate_ok h m
    exact ⟨s', e1, e2, .inr e3⟩
  | .moveAssign d x =>
    obtain ⟨s', e1, e2, e3⟩ := moveAssign_ok h d x
    exact ⟨s', e1, e2, .inr e3⟩
  | .moveConstruct d x =>
    simp only [step]
    split
    · rename_i hc
      obtain ⟨s', e1, e2, e3⟩ := moveConstruct_ok h hc.1 hc.2
      refine ⟨s', e1, e2, .inr ?_⟩
      simp only [Call.op, Motive.Proc.step]
      rw [if_pos hc]; exact e3
    · exact ⟨s, rfl, h, .inl rfl⟩
  | .cloneFrom d x =>
    obtain ⟨s', e1, e2, e3⟩ := cloneFrom_ok h d x
    exact ⟨s', e1, e2, .inr e3⟩
  | .advance p =>
    simp only [step]
    split
    · rename_i hp
      obtain ⟨s', e1, e2, e3, -⟩ := advance_ok h hp
      refine ⟨s', e1, e2, .inr ?_⟩
      simp only [Call.op, Motive.Proc.step]
      rw [if_pos hp]; exact e3
    · exact ⟨s, rfl, h, .inl rfl⟩
  | .destroyProc p =>
    simp only [step]
    split
    · rename_i hp
      obtain ⟨s', e1, e2, e3⟩ := destroyProc_ok h hp
      refine ⟨s', e1, e2, .inr ?_⟩
      simp only [Call.op, Motive.Proc.step]
      rw [if_pos hp]; exact e3
    · exact ⟨s, rfl, h, .inl rfl⟩

theorem start_ok : RInv ⟨World.empty, ∅⟩ := by
  refine ⟨winv_empty, ?_, ?_, ?_, ?_⟩
  · intro p pr hp; simp [World.empty] at hp
  · intro p pr hp; simp [World.empty] at hp
  · intro p; simp [World.view, World.empty]
  · rw [view_empty]
    refine ⟨?_, ?_, ?_, ?_⟩ <;> simp [Abs.empty]

theorem runFrom_ok : ∀ (cs : List Call) (s : State), RInv s → ∃ s', runFrom s cs = some s' ∧ RInv s' := by
  intro cs
  induction cs with
  | nil => intro s h; exact ⟨s, rfl, h⟩
  | cons c cs ih =>
    intro s h
    obtain ⟨s1, e1, e2, -⟩ := step_ok h c
    obtain ⟨s2, f1, f2⟩ := ih s1 e2
    exact ⟨s2, by simp only [runFrom, e1, Option.bind_some, f1], f2⟩

theorem run_ok {cs : List Call} {s : State} (h : run cs = some s) : RInv s := by
  obtain ⟨s', e1, e2⟩ := runFrom_ok cs _ start_ok
  unfold run at h
  rw [e1] at h; cases h
  exact e2

/-! ### Theorems -/

/-- **C88**: whatever is done with rig motivators, no object is deleted twice, and no null or dangling pointer is followed (the
run does not fail); every motivator has its own objects, one for each dimension, and there are no others on the heap. -/
theorem C88_rig_objects (cs : List Call) : ∃ s, run cs = some s ∧
    (∀ m p l, s.w.view.vals m = some (p, l) → none ∉ l ∧ l.Nodup) ∧
    (∀ m m' x, s.Owns m x → s.Owns m' x → m = m') ∧ ∀ x, x ∈ s.heap ↔ ∃ m, s.Owns m x := by
  obtain ⟨s, e1, e2⟩ := runFrom_ok cs _ start_ok
  refine ⟨s, e1, fun m p l hm => ⟨e2.fit.nonnull m p l hm, e2.fit.nodup m p l hm⟩, ?_, ?_⟩
  · rintro m m' x ⟨p, l, h1, h2⟩ ⟨p', l', h1', h2'⟩
    exact e2.fit.disj m m' p p' l l' _ h1 h1' h2 h2'
  · intro x
    rw [e2.fit.heap x]
    exact Iff.rfl

/-- **C88**: when no motivator is valid, nothing is left on the heap. -/
theorem C88_no_leak {cs : List Call} {s : State} (h : run cs = some s) (hv : ∀ m, s.w.valid m = false) : s.heap = ∅ := by
  have hr := run_ok h
  refine Finset.eq_empty_of_forall_notMem fun x hx => ?_
  obtain ⟨m, p, l, hm, -⟩ := (hr.fit.heap x).mp hx
  have := (view_none_iff hr.winv (m := m)).mpr (by simpa [World.valid] using hv m)
  rw [this] at hm; simp at hm

/-- `new` may return any addresses that no other motivator owns. -/
theorem canNew_iff {s : State} (h : RInv s) (m : MotId) (addrs : List Obj) :
    s.canNew m addrs ↔ addrs.Nodup ∧ ∀ x ∈ addrs, ∀ m', s.Owns m' x → m' = m := by
  obtain ⟨s', e1, e2, e3, -⟩ := invalidate_ok h m
  obtain ⟨w', f1, -, -, f4⟩ := invalidate_spec h.winv m
  rw [e3] at f1; cases f1
  have hh : ∀ x, x ∈ s'.heap ↔ ∃ m', m' ≠ m ∧ s.Owns m' x := by
    intro x
    rw [e2.fit.heap x, f4]
    constructor
    · rintro ⟨y, q, k, hy, hk⟩
      simp only [Abs.set] at hy
      split at hy
      · simp at hy
      · rename_i hne; exact ⟨y, hne, q, k, hy, hk⟩
    · rintro ⟨y, hne, q, k, hy, hk⟩
      exact ⟨y, q, k, by simp [Abs.set, hne, hy], hk⟩
  constructor
  · intro hc
    obtain ⟨h1, h2⟩ := hc s' e1
    refine ⟨h1, fun x hx m' ho => ?_⟩
    by_contra hne
    exact h2 x hx ((hh x).mpr ⟨m', hne, ho⟩)
  · rintro ⟨h1, h2⟩ s'' e
    rw [e1] at e; cases e
    refine ⟨h1, fun x hx hin => ?_⟩
    obtain ⟨m', hne, ho⟩ := (hh x).mp hin
    exact hne (h2 x hx m' ho)

/-- **C88**: initialising a motivator gives it the new objects in the order of its dimensions, and deletes those that it had.
The hypotheses say what `new` guarantees: distinct addresses, at which no other motivator has an object. -/
theorem C88_initialize {cs : List Call} {s : State} (h : run cs = some s) {m : MotId} {p : ProcId} {addrs : List Obj}
    (hp : (s.w.procs p).isSome) (h0 : 0 < addrs.length) (hd : addrs.Nodup)
    (hf : ∀ x ∈ addrs, ∀ m', s.Owns m' x → m' = m) :
    ∃ s', step (.initialize m p addrs) s = some s' ∧ s'.w.view.vals m = some (p, addrs.map some) ∧
      ∀ x, x ∈ s'.heap ↔ x ∈ addrs ∨ x ∈ s.heap ∧ ¬ s.Owns m x := by
  have hr := run_ok h
  have hn : s.canNew m addrs := (canNew_iff hr m addrs).mpr ⟨hd, hf⟩
  obtain ⟨s', e1, e2, e3⟩ := initialize_ok hr hp h0 hn
  obtain ⟨w2, f1, -, f3⟩ := initialize_spec (vals := addrs.map some) hr.winv (m := m) hp (by simpa using h0)
  rw [e3] at f1; cases f1
  refine ⟨s', ?_, by rw [f3]; simp [Abs.set], fun x => ?_⟩
  · simp only [step]; rw [if_pos ⟨hp, h0, hn⟩]; exact e1
  · rw [e2.fit.heap x, f3]
    constructor
    · rintro ⟨y, q, k, hy, hk⟩
      simp only [Abs.set] at hy
      split at hy
      · simp only [Option.some.injEq, Prod.mk.injEq] at hy
        rw [← hy.2] at hk
        exact .inl (by simpa using hk)
      · rename_i hne
        refine .inr ⟨(hr.fit.heap x).mpr ⟨y, q, k, hy, hk⟩, ?_⟩
        rintro ⟨q', l, hm, hl⟩
        exact hne (hr.fit.disj y m q q' k l _ hy hm hk hl)
    · rintro (hx | ⟨hx, hno⟩)
      · exact ⟨m, p, addrs.map some, by simp [Abs.set], by simpa using hx⟩
      · obtain ⟨y, q, k, hy, hk⟩ := (hr.fit.heap x).mp hx
        have hne : y ≠ m := by rintro rfl; exact hno ⟨q, k, hy, hk⟩
        exact ⟨y, q, k, by simp [Abs.set, hne, hy], hk⟩

/-- The motivators that a call mentions. -/
def Call.names : Call → List MotId
  | .initialize m _ _ | .invalidate m | .cloneFrom m _ => [m]
  | .moveAssign d s | .moveConstruct d s => [d, s]
  | _ => []

/-- **C88**: a motivator keeps its objects while others are initialised, moved and destroyed, and while frames are processed,
which may move the pointers to other slots.  Only the destruction of its processor deletes them. -/
theorem C88_kept {cs : List Call} {s s' : State} (h : run cs = some s) (c : Call) (hs : step c s = some s') {m : MotId}
    {p : ProcId} {l : List (Option Obj)} (hm : s.w.view.vals m = some (p, l)) (hn : m ∉ c.names) (hp : c ≠ .destroyProc p) :
    s'.w.view.vals m = some (p, l) ∧ ∀ x, some x ∈ l → x ∈ s'.heap := by
  have hr := run_ok h
  obtain ⟨s1, e1, e2, e3⟩ := step_ok hr c
  rw [hs] at e1; cases e1
  have key : s'.w.view.vals m = some (p, l) := by
    rcases e3 with rfl | e3
    · exact hm
    obtain ⟨w2, f1, -, f3⟩ := step_spec hr.winv c.op
    rw [e3] at f1; cases f1
    rw [f3]
    match c with
    | .create q => simp only [Call.op, absStep]; split <;> exact hm
    | .initialize y q a =>
      simp only [Call.names, List.mem_singleton] at hn
      simp only [Call.op, absStep]
      split <;> simp [Abs.set, hn, hm]
    | .invalidate y =>
      simp only [Call.names, List.mem_singleton] at hn
      simp [Call.op, absStep, Abs.set, hn, hm]
    | .moveAssign d y =>
      simp only [Call.names, List.mem_cons, List.not_mem_nil, or_false, not_or] at hn
      simp only [Call.op, absStep]
      split <;> simp [Abs.set, hn.1, hn.2, hm]
    | .moveConstruct d y =>
      simp only [Call.names, List.mem_cons, List.not_mem_nil, or_false, not_or] at hn
      simp only [Call.op, absStep]
      split <;> simp [Abs.set, hn.1, hn.2, hm]
    | .cloneFrom d y =>
      simp only [Call.names, List.mem_singleton] at hn
      simp only [Call.op, absStep]
      repeat' split
      all_goals simp [Abs.set, hn, hm]
    | .advance q =>
      simp only [Call.op, absStep]
      split
      · simp only [hm, Option.map_some, List.map_id]
        split <;> rfl
      · exact hm
    | .destroyProc q =>
      have hqp : p ≠ q := by rintro rfl; exact hp rfl
      simp only [Call.op, absStep]
      split
      · simp [hm, hqp]
      · exact hm
  exact ⟨key, fun x hx => (e2.fit.heap x).mpr ⟨m, p, l, key, hx⟩⟩

/-- **C88**: processing a frame creates and deletes nothing, and every motivator keeps the same objects in the same order, also
when defragmentation moves the pointers to other slots. -/
theorem C88_advance {cs : List Call} {s : State} (h : run cs = some s) (p : ProcId) :
    ∃ s', step (.advance p) s = some s' ∧ s'.heap = s.heap ∧ s'.w.view.vals = s.w.view.vals := by
  have hr := run_ok h
  by_cases hp : (s.w.procs p).isSome
  · obtain ⟨s', e1, -, e3, e4⟩ := advance_ok hr hp
    refine ⟨s', by simp only [step]; rw [if_pos hp]; exact e1, e4, ?_⟩
    obtain ⟨w2, f1, -, f3⟩ := step_spec hr.winv (.advance p id)
    simp only [Motive.Proc.step] at f1
    rw [if_pos hp, e3] at f1; cases f1
    rw [f3]
    funext m
    simp only [absStep]
    split
    · dsimp only
      cases hm : s.w.view.vals m with
      | none => rfl
      | some ql => simp only [Option.map_some, List.map_id]; split <;> rfl
    · rfl
  · exact ⟨s, by simp only [step]; rw [if_neg hp], rfl, rfl⟩

/-- **C88**: what a motivator owned is deleted when it is invalidated, and all that a processor's motivators owned when the
processor is destroyed. -/
theorem C88_deleted {cs : List Call} {s : State} (h : run cs = some s) :
    (∀ m, ∃ s', step (.invalidate m) s = some s' ∧ s'.w.valid m = false ∧
      ∀ x, x ∈ s'.heap ↔ x ∈ s.heap ∧ ¬ s.Owns m x) ∧
    ∀ p, (s.w.procs p).isSome → ∃ s', step (.destroyProc p) s = some s' ∧
      ∀ m x l, s.w.view.vals m = some (p, l) → some x ∈ l → s'.w.valid m = false ∧ x ∉ s'.heap := by
  have hr := run_ok h
  constructor
  · intro m
    obtain ⟨s', e1, e2, e3, e4⟩ := invalidate_ok hr m
    refine ⟨s', e1, by simp [World.valid, e4], fun x => ?_⟩
    obtain ⟨w', f1, -, -, f4⟩ := invalidate_spec hr.winv m
    rw [e3] at f1; cases f1
    rw [e2.fit.heap x, hr.fit.heap x, f4]
    constructor
    · rintro ⟨y, q, k, hy, hk⟩
      simp only [Abs.set] at hy
      split at hy
      · simp at hy
      · rename_i hne
        refine ⟨⟨y, q, k, hy, hk⟩, ?_⟩
        rintro ⟨p, l, hm, hl⟩
        exact hne (hr.fit.disj y m q p k l _ hy hm hk hl)
    · rintro ⟨⟨y, q, k, hy, hk⟩, hn⟩
      have hne : y ≠ m := by rintro rfl; exact hn ⟨q, k, hy, hk⟩
      exact ⟨y, q, k, by simp [Abs.set, hne, hy], hk⟩
  · intro p hp
    obtain ⟨s', e1, e2, e3⟩ := destroyProc_ok hr hp
    refine ⟨s', by simp only [step]; rw [if_pos hp]; exact e1, ?_⟩
    obtain ⟨w', f1, -, f3⟩ := destroyProc_spec hr.winv hp
    rw [e3] at f1; cases f1
    have hp' : (s.w.view.procs p).isSome := by simpa [World.view] using hp
    intro m x l hm hl
    constructor
    · have : s'.w.view.vals m = none := by
        rw [f3]
        simp only [absStep]
        rw [if_pos hp']
        simp [hm]
      simpa [World.valid] using (view_none_iff e2.winv).mp this
    · intro hx
      obtain ⟨y, q, k, hy, hk⟩ := (e2.fit.heap x).mp hx
      rw [f3] at hy
      simp only [absStep] at hy
      rw [if_pos hp', Option.filter_eq_some_iff] at hy
      have := hr.fit.disj y m q p k l _ hy.1 hm hk hl
      subst this
      rw [hm] at hy
      simp at hy
      exact hy.2 hy.1.1.symm

theorem runFrom_append (a b : List Call) (s : State) : runFrom s (a ++ b) = (runFrom s a).bind fun s' => runFrom s' b := by
  induction a generalizing s with
  | nil => rfl
  | cons c a ih =>
    simp only [List.cons_append, runFrom, Option.bind_assoc]
    congr 1; funext s'; exact ih s'

theorem run_snoc {cs : List Call} {s s' : State} (h : run cs = some s) {c : Call} (hs : step c s = some s') :
    run (cs ++ [c]) = some s' := by
  have h' : runFrom ⟨World.empty, ∅⟩ cs = some s := h
  simp [run, runFrom_append, h', runFrom, hs]

theorem procs_kept {cs : List Call} {s s' : State} (h : run cs = some s) {c : Call} (hs : step c s = some s') {p : ProcId}
    (hp : (s.w.procs p).isSome) (hc : c ≠ .destroyProc p) : (s'.w.procs p).isSome := by
  have hr := run_ok h
  obtain ⟨s1, e1, e2, e3⟩ := step_ok hr c
  rw [hs] at e1; cases e1
  rcases e3 with rfl | e3
  · exact hp
  obtain ⟨w2, f1, -, f3⟩ := step_spec hr.winv c.op
  rw [e3] at f1; cases f1
  have : (s'.w.view.procs p).isSome := by
    have hp' : (s.w.view.procs p).isSome := by simpa [World.view] using hp
    rw [f3]
    match c with
    | .destroyProc q =>
      have hqp : p ≠ q := by rintro rfl; exact hc rfl
      simp only [Call.op, absStep]
      split <;> simp [hqp, hp']
    | .create q =>
      simp only [Call.op, absStep]
      split
      · exact hp'
      · dsimp only; split
        · rfl
        · exact hp'
    | .initialize _ _ _ | .invalidate _ | .moveAssign _ _ | .moveConstruct _ _ | .cloneFrom _ _ | .advance _ =>
      simp only [Call.op, absStep]
      repeat' split
      all_goals exact hp'
  simpa [World.view] using this

/-- Two rigs of one processor; the first is destroyed, and `new` gives its address to the next. -/
example : ∃ s, run [.create 0, .initialize 1 0 [10], .initialize 2 0 [20], .invalidate 1, .advance 0, .initialize 3 0 [10]] = some s ∧
    s.Owns 3 10 ∧ s.Owns 2 20 ∧ s.heap = {10, 20} := by
  obtain ⟨s1, a1, -⟩ := C88_rig_objects [.create 0]
  have e : (⟨World.setProc World.empty 0 (some (Proc.new none false)), ∅⟩ : State) = s1 := by
    simpa [run, runFrom, step, World.empty] using a1
  have hp1 : (s1.w.procs 0).isSome := by rw [← e]; simp [World.setProc]
  have hh1 : s1.heap = ∅ := by rw [← e]
  have own {cs : List Call} {s : State} (h : run cs = some s) (x : Obj) : x ∈ s.heap ↔ ∃ m, s.Owns m x :=
    (run_ok h).fit.heap x
  obtain ⟨s2, a2, v2, b2⟩ := C88_initialize (m := 1) (addrs := [10]) a1 hp1 (by simp) (by simp) (by
    intro x hx m' ho
    have := (own a1 x).mpr ⟨m', ho⟩
    simp [hh1] at this)
  have r2 := run_snoc a1 a2
  have p2 := procs_kept a1 a2 hp1 (by simp)
  have hh2 : s2.heap = {10} := by ext x; simp [b2, hh1]
  obtain ⟨s3, a3, v3, b3⟩ := C88_initialize (m := 2) (addrs := [20]) r2 p2 (by simp) (by simp) (by
    intro x hx m' ho
    have := (own r2 x).mpr ⟨m', ho⟩
    simp only [List.mem_singleton] at hx
    simp [hh2, hx] at this)
  have r3 := run_snoc r2 a3
  have p3 := procs_kept r2 a3 p2 (by simp)
  obtain ⟨w3, -⟩ := C88_kept r2 _ a3 v2 (by simp [Call.names]) (by simp)
  obtain ⟨s4, a4, n4, b4⟩ := (C88_deleted r3).1 1
  have r4 := run_snoc r3 a4
  have p4 := procs_kept r3 a4 p3 (by simp)
  obtain ⟨w4, -⟩ := C88_kept r3 _ a4 v3 (by simp [Call.names]) (by simp)
  obtain ⟨s5, a5, h5, i5⟩ := C88_advance r4 0
  have r5 := run_snoc r4 a5
  have p5 := procs_kept r4 a5 p4 (by simp)
  obtain ⟨w5, -⟩ := C88_kept r4 _ a5 w4 (by simp [Call.names]) (by simp)
  have hh3 : ∀ x, x ∈ s3.heap ↔ x = 20 ∨ x = 10 := by
    intro x
    rw [b3 x, hh2]
    constructor
    · rintro (hx | ⟨hx, -⟩)
      · exact .inl (by simpa using hx)
      · exact .inr (by simpa using hx)
    · rintro (rfl | rfl)
      · simp
      · refine .inr ⟨by simp, fun ho => ?_⟩
        have := (run_ok r2).fit.disj 1 2 0 ho.choose [some 10] ho.choose_spec.choose (some 10) v2
          ho.choose_spec.choose_spec.1 (by simp) ho.choose_spec.choose_spec.2
        simp at this
  have hh4 : ∀ x, x ∈ s4.heap ↔ x = 20 := by
    intro x
    rw [b4 x, hh3]
    constructor
    · rintro ⟨rfl | rfl, hn⟩
      · rfl
      · exact absurd ⟨0, [some 10], w3, by simp⟩ hn
    · rintro rfl
      refine ⟨.inl rfl, fun ho => ?_⟩
      have := (run_ok r3).fit.disj 2 1 0 ho.choose [some 20] ho.choose_spec.choose (some 20) v3
        ho.choose_spec.choose_spec.1 (by simp) ho.choose_spec.choose_spec.2
      simp at this
  obtain ⟨s6, a6, v6, b6⟩ := C88_initialize (m := 3) (addrs := [10]) r5 p5 (by simp) (by simp) (by
    intro x hx m' ho
    have := (own r5 x).mpr ⟨m', ho⟩
    simp only [List.mem_singleton] at hx
    simp [h5, hh4, hx] at this)
  have r6 := run_snoc r5 a6
  obtain ⟨w6, u6⟩ := C88_kept r5 _ a6 w5 (by simp [Call.names]) (by simp)
  refine ⟨s6, by simpa using r6, ⟨0, _, v6, by simp⟩, ⟨0, _, w6, by simp⟩, ?_⟩
  ext x
  simp only [Finset.mem_insert, Finset.mem_singleton]
  constructor
  · intro hx
    rcases (b6 x).mp hx with hx | ⟨hx, -⟩
    · exact .inl (by simpa using hx)
    · exact .inr ((hh4 x).mp (h5 ▸ hx))
  · rintro (rfl | rfl)
    · exact (b6 10).mpr (.inl (by simp))
    · exact u6 20 (by simp)

end Motive.Rig.Storage
