/-!
# Model of `IndexAllocator` (include/motive/util/index_allocator.h)

Indices are `Nat` (the C++ type is a signed `Index`; negative indices never arise from the public
API, and overflow of `Index` is not modelled).  `none` means undefined behaviour, a failed `assert`,
or (for `defragLoop`) non-termination.

The client callbacks (`CallbackInterface`, lines 90-95) are a parameter: a client state `σ` with the
two functions.  `move` receives the allocator state at the moment of the call, because the one client
in the code base (`MotiveProcessor::MoveIndexRangeBase`) reads `CountForIndex` inside the callback.
-/

namespace Motive.Alloc

/-- The data members `counts_` and `unused_indices_` (index_allocator.h:503, 510). -/
structure Alloc where
  counts : List Int
  unused : List Nat
deriving Repr, DecidableEq

/-- A freshly constructed allocator (index_allocator.h:99-103). -/
def Alloc.init : Alloc := ⟨[], []⟩

/-- `num_indices()` (index_allocator.h:302). -/
def Alloc.numIndices (a : Alloc) : Nat := a.counts.length

/-- `CallbackInterface` (index_allocator.h:90-95): `SetNumIndices(num)` and
`MoveIndexRange(IndexRange(start, stop), target)`. -/
structure Callbacks (σ : Type) where
  setNum : Nat → σ → Option σ
  move : Alloc → Nat → Nat → Nat → σ → Option σ

/-- `counts_[i] = v`; out of range is UB. -/
def wr (l : List Int) (i : Nat) (v : Int) : Option (List Int) :=
  if i < l.length then some (l.set i v) else none

/-- `CountForIndex` (index_allocator.h:275-278): asserts `counts_[index] > 0`. -/
def countFor (c : List Int) (i : Nat) : Option Nat :=
  match c[i]? with
  | none => none
  | some v => if 0 < v then some v.toNat else none

/-- `NextIndex` (index_allocator.h:310-313), with its assertion. -/
def nextIndex (c : List Int) (i : Nat) : Option Nat :=
  match countFor c i with
  | none => none
  | some n => some (i + n)

/-- `PrevIndex` (index_allocator.h:317-323), with its assertion.  A negative result is UB here
(it would be used as an index). -/
def prevIndex (c : List Int) (i : Nat) : Option Nat :=
  if 0 < i ∧ i ≤ c.length then
    match c[i-1]? with
    | none => none
    | some p =>
      if i = c.length ∨ p = 1 ∨ p < 0 then
        if 0 < p then some (i-1)
        else if p.natAbs ≤ i - 1 then some (i - 1 - p.natAbs) else none
      else none
  else none

/-- `InitializeIndex` (index_allocator.h:328-334). -/
def initializeIndex (c : List Int) (index count : Nat) : Option (List Int) :=
  match wr c index count with
  | none => none
  | some c' => (List.range' 1 (count - 1)).foldlM (fun l i => wr l (index + i) (-(i : Int))) c'

/-- `std::vector<Index>::resize(n, 0)`. -/
def resize (c : List Int) (n : Nat) : List Int := c.take n ++ List.replicate (n - c.length) 0

/-- `SetNumIndices` (index_allocator.h:338-344): resize `counts_`, then notify the client. -/
def setNumIndices {σ : Type} (cb : Callbacks σ) (n : Nat) (a : Alloc) (s : σ) : Option (Alloc × σ) :=
  match cb.setNum n s with
  | none => none
  | some s' => some ({ a with counts := resize a.counts n }, s')

/-- Outcome of the search loop of `Alloc` (index_allocator.h:114-135). -/
inductive Scan where
  /-- a recycled block of exactly the right size at this position of `unused_indices_` -/
  | exact (pos : Nat)
  /-- the loop ended with `least_excess_it` (position and excess), or `end()` -/
  | best (b : Option (Nat × Nat))
deriving Repr, DecidableEq

/-- The search loop of `Alloc` (index_allocator.h:116-135).  `pos` is the position of the iterator.
`least_excess` starts at the maximal `Count`, which every excess is below; hence `none`. -/
def scan (c : List Int) (count : Nat) : Nat → List Nat → Option (Nat × Nat) → Option Scan
  | _, [], b => some (.best b)
  | pos, u :: us, b =>
    match countFor c u with
    | none => none
    | some n =>
      if n < count then scan c count (pos+1) us b
      else if n = count then some (.exact pos)
      else
        match b with
        | none => scan c count (pos+1) us (some (pos, n - count))
        | some (p, e) =>
          if n - count < e then scan c count (pos+1) us (some (pos, n - count))
          else scan c count (pos+1) us (some (p, e))

/-- `Alloc` (index_allocator.h:112-156). -/
def alloc {σ : Type} (cb : Callbacks σ) (count : Nat) (a : Alloc) (s : σ) :
    Option ((Alloc × σ) × Nat) :=
  match scan a.counts count 0 a.unused none with
  | none => none
  | some (.exact pos) =>
    match a.unused[pos]? with
    | none => none
    | some u => some (({ a with unused := a.unused.eraseIdx pos }, s), u)
  | some (.best (some (pos, excess))) =>
    match a.unused[pos]? with
    | none => none
    | some u =>
      match initializeIndex a.counts u count with
      | none => none
      | some c1 =>
        match initializeIndex c1 (u + count) excess with
        | none => none
        | some c2 => some ((⟨c2, a.unused.set pos (u + count)⟩, s), u)
  | some (.best none) =>
    match setNumIndices cb (a.numIndices + count) a s with
    | none => none
    | some (a', s') =>
      match initializeIndex a'.counts a.numIndices count with
      | none => none
      | some c' => some (({ a' with counts := c' }, s'), a.numIndices)

/-- `ValidIndex` (index_allocator.h:248-261). -/
def validIndex (a : Alloc) (i : Nat) : Bool :=
  match a.counts[i]? with
  | none => false
  | some v => if v = 0 then false else !(a.unused.contains i)

/-- `Free` (index_allocator.h:162-165): asserts `ValidIndex`. -/
def free (i : Nat) (a : Alloc) : Option Alloc :=
  if validIndex a i then some { a with unused := a.unused ++ [i] } else none

/-- `NumUnusedIndices` (index_allocator.h:265-271). -/
def numUnused (a : Alloc) : Option Nat :=
  a.unused.foldlM (fun n u => (countFor a.counts u).map (n + ·)) 0

/-- `Empty` (index_allocator.h:243-245). -/
def isEmpty (a : Alloc) : Option Bool := (numUnused a).map (fun n => decide (a.numIndices = n))

/-- `VerifyInternalState` (index_allocator.h:282-298), from position `i`: true iff no assertion
fails. -/
def verify (c : List Int) (i : Nat) : Bool :=
  if h : i < c.length then
    if hn : 0 < c[i] then
      ((List.range' 1 (c[i].toNat - 1)).all fun j => decide (c[i + j]? = some (-(j : Int))))
        && verify c (i + c[i].toNat)
    else false
  else true
termination_by c.length - i
decreasing_by omega

/-- The `while` loop of `ConsolidateUnusedIndices` (index_allocator.h:357-361): starting at hole
`prev`, swallow the holes of the list that directly follow each other.  Returns the last hole of the
run and the rest of the list. -/
def runEnd (c : List Int) (prev : Nat) : List Nat → Option (Nat × List Nat)
  | [] => some (prev, [])
  | u :: us =>
    match nextIndex c prev with
    | none => none
    | some n => if u = n then runEnd c u us else some (prev, u :: us)

theorem runEnd_length {c : List Int} : ∀ {us : List Nat} {prev last : Nat} {rest : List Nat},
    runEnd c prev us = some (last, rest) → rest.length ≤ us.length := by
  intro us
  induction us with
  | nil => intro prev last rest h; simp [runEnd] at h; simp [h.2.symm]
  | cons u us ih =>
    intro prev last rest h
    simp only [runEnd] at h
    split at h
    · exact absurd h (by simp)
    · split at h
      · have := ih h; simp; omega
      · simp at h; simp [h.2.symm]

/-- Re-initialise a run of holes that starts at `u` and whose last hole is `last` as one block, if it
has more than one member (index_allocator.h:364-369). -/
def mergeRun (c : List Int) (u last : Nat) (several : Bool) : Option (List Int) :=
  if several then
    match nextIndex c last with
    | none => none
    | some e => if u ≤ e then initializeIndex c u (e - u) else none
  else some c

/-- The `for` loop of `ConsolidateUnusedIndices` (index_allocator.h:352-380) over the sorted list. -/
def consolidateLoop (c : List Int) (l : List Nat) : Option (List Int × List Nat) :=
  match l with
  | [] => some (c, [])
  | u :: us =>
    match _h : runEnd c u us with
    | none => none
    | some (last, rest) =>
      match mergeRun c u last (decide (rest.length < us.length)) with
      | none => none
      | some c' =>
        match consolidateLoop c' rest with
        | none => none
        | some (c'', out) => some (c'', u :: out)
termination_by l.length
decreasing_by
  have := runEnd_length _h
  simp; omega

/-- `ConsolidateUnusedIndices` (index_allocator.h:347-381).  `std::sort` is modelled by Lean's
merge sort (for natural numbers the sorted permutation is unique). -/
def consolidate (a : Alloc) : Option Alloc :=
  match consolidateLoop a.counts (a.unused.mergeSort (fun x y => decide (x ≤ y))) with
  | none => none
  | some (c, u) => some ⟨c, u⟩

theorem prevIndex_lt {c : List Int} {i j : Nat} (h : prevIndex c i = some j) : j < i := by
  unfold prevIndex at h
  split at h
  · rename_i hi
    split at h
    · simp at h
    · split at h
      · split at h
        · simp at h; omega
        · split at h
          · simp at h; omega
          · simp at h
      · simp at h
  · simp at h

/-- The inner `for` loop of `LastIndexRangeSmallerThanHole` (index_allocator.h:473-478). -/
def innerLoop (c : List Int) (index endd count unusedStart : Nat) (j start : Nat) : Option Nat :=
  if index < j then
    if count < endd - j then some start
    else if j = unusedStart then some start
    else
      match _h : prevIndex c j with
      | none => none
      | some j' => innerLoop c index endd count unusedStart j' j
  else some start
termination_by j
decreasing_by exact prevIndex_lt _h

/-- The outer `for` loop of `LastIndexRangeSmallerThanHole` (index_allocator.h:462-482).  `rem` is
`unused_indices_[0..unused_i]` reversed: its head is `unused_indices_[unused_i]`, `unused_i--` is
`tail`, and reading it after an underflow is UB.  The result `some none` is the invalid range. -/
def outerLoop (c : List Int) (index count : Nat) (endd : Nat) (rem : List Nat) :
    Option (Option (Nat × Nat)) :=
  if index < endd then
    match rem with
    | [] => none
    | us :: rem' =>
      match nextIndex c us with
      | none => none
      | some ue =>
        if endd < ue then none
        else
          match _h : prevIndex c endd with
          | none => none
          | some p =>
            if endd = ue then outerLoop c index count p rem'
            else
              match innerLoop c index endd count us p endd with
              | none => none
              | some start =>
                if start < endd then some (some (start, endd))
                else outerLoop c index count p (us :: rem')
  else some none
termination_by endd
decreasing_by all_goals exact prevIndex_lt _h

/-- `LastIndexRangeSmallerThanHole` (index_allocator.h:455-486). -/
def lastRange (a : Alloc) (index : Nat) : Option (Option (Nat × Nat)) :=
  match countFor a.counts index with
  | none => none
  | some count => outerLoop a.counts index count a.numIndices a.unused.reverse

/-- `memmove(&counts_[dst], &counts_[src], len * sizeof)` (index_allocator.h:428-429). -/
def memmove (c : List Int) (dst src len : Nat) : Option (List Int) :=
  if src + len ≤ c.length ∧ dst + len ≤ c.length then
    some (c.take dst ++ (c.drop src).take len ++ c.drop (dst + len))
  else none

/-- End of the range that is shifted down in case 2 of `BackfillFirstUnused`: the second entry of
`unused_indices_`, or `num_indices()` (index_allocator.h:419-420). -/
def nextHole (a : Alloc) : Nat :=
  match a.unused with
  | _ :: u1 :: _ => u1
  | _ => a.numIndices

/-- `BackfillFirstUnused` (index_allocator.h:385-453). -/
def backfill {σ : Type} (cb : Callbacks σ) (a : Alloc) (s : σ) : Option (Alloc × σ) :=
  match a.unused with
  | [] => none
  | u0 :: us =>
    match countFor a.counts u0 with
    | none => none
    | some n0 =>
      match lastRange a u0 with
      | none => none
      | some (some (fs, fe)) =>
        -- Case 1. Fill
        match cb.move a fs fe u0 s with
        | none => none
        | some s' =>
          match memmove a.counts u0 fs (fe - fs) with
          | none => none
          | some c1 =>
            match initializeIndex c1 fs (fe - fs) with
            | none => none
            | some c2 =>
              if u0 + (fe - fs) < u0 + n0 then
                match initializeIndex c2 (u0 + (fe - fs)) (u0 + n0 - (u0 + (fe - fs))) with
                | none => none
                | some c3 =>
                  if verify c3 0 then some (⟨c3, fs :: us ++ [u0 + (fe - fs)]⟩, s') else none
              else if verify c2 0 then some (⟨c2, fs :: us⟩, s') else none
      | some none =>
        -- Case 2. Shift
        match nextIndex a.counts u0 with
        | none => none
        | some fs =>
          let fe := nextHole a
          if fe < fs then none
          else
          match cb.move a fs fe u0 s with
          | none => none
          | some s' =>
            match memmove a.counts u0 fs (fe - fs) with
            | none => none
            | some c1 =>
              match initializeIndex c1 (u0 + (fe - fs)) (fe - (u0 + (fe - fs))) with
              | none => none
              | some c2 =>
                if verify c2 0 then some (⟨c2, (u0 + (fe - fs)) :: us⟩, s') else none

/-- `unused_at_end` (index_allocator.h:169-172, 228-229). -/
def unusedAtEnd (a : Alloc) : Option Bool :=
  match a.unused with
  | [u] =>
    match nextIndex a.counts u with
    | none => none
    | some n => some (decide (n = a.numIndices))
  | _ => some false

/-- The `for (;;)` loop of `Defragment` (index_allocator.h:222-235).  Divergence is `none`. -/
def defragLoop {σ : Type} (cb : Callbacks σ) (a : Alloc) (s : σ) : Option (Alloc × σ) :=
  match consolidate a with
  | none => none
  | some a1 =>
    match unusedAtEnd a1 with
    | none => none
    | some true => some (a1, s)
    | some false =>
      match backfill cb a1 s with
      | none => none
      | some (a2, s2) => defragLoop cb a2 s2
partial_fixpoint

/-- `Defragment` (index_allocator.h:218-240). -/
def defragment {σ : Type} (cb : Callbacks σ) (a : Alloc) (s : σ) : Option (Alloc × σ) :=
  match a.unused with
  | [] => some (a, s)
  | _ :: _ =>
    match defragLoop cb a s with
    | none => none
    | some (a1, s1) =>
      match a1.unused with
      | [] => none
      | u :: _ =>
        match setNumIndices cb u a1 s1 with
        | none => none
        | some (a2, s2) => some ({ a2 with unused := [] }, s2)

end Motive.Alloc
