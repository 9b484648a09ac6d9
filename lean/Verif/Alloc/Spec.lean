import Verif.Alloc.Model

/-!
# Specification side for the allocator properties (C01-C05)

A client of the allocator that keeps, next to the allocator, the list of blocks it holds and a data
array indexed by allocator indices; histories of client operations; and an abstract machine with no
allocator in it at all (a list of independent buffers), against which the whole thing is compared.
Nothing here refers to helper notions of the proofs.
-/

namespace Motive.Alloc

/-- Client state: the blocks it holds as `(start, size)`, and its data array. -/
structure Client (α : Type) where
  blocks : List (Nat × Nat)
  data : List α
deriving Repr, DecidableEq

/-- Index `k` belongs to block `b`. -/
def Covers (b : Nat × Nat) (k : Nat) : Prop := b.1 ≤ k ∧ k < b.1 + b.2

instance (b : Nat × Nat) (k : Nat) : Decidable (Covers b k) := inferInstanceAs (Decidable (_ ∧ _))

/-- Two index blocks have no index in common. -/
def Apart (b c : Nat × Nat) : Prop := b.1 + b.2 ≤ c.1 ∨ c.1 + c.2 ≤ b.1

instance (b c : Nat × Nat) : Decidable (Apart b c) := inferInstanceAs (Decidable (_ ∨ _))

/-- Block `b` lies inside `[lo, hi)`. -/
def Within (lo hi : Nat) (b : Nat × Nat) : Prop := lo ≤ b.1 ∧ b.1 + b.2 ≤ hi

instance (lo hi : Nat) (b : Nat × Nat) : Decidable (Within lo hi b) :=
  inferInstanceAs (Decidable (_ ∧ _))

/-- The client's `SetNumIndices`: it refuses (`none`) to drop an index it still holds. -/
def Client.setNum {α : Type} (fill : α) (n : Nat) (s : Client α) : Option (Client α) :=
  if ∀ b ∈ s.blocks, Within 0 n b then
    some { s with data := s.data.take n ++ List.replicate (n - s.data.length) fill }
  else none

/-- New position of a block when `[fs, fe)` moves to `t`. -/
def relocate (fs fe t : Nat) (b : Nat × Nat) : Nat × Nat :=
  if Within fs fe b then (b.1 - fs + t, b.2) else b

/-- Copy `data[fs..fe)` to position `t`. -/
def copyRange {α : Type} (fs fe t : Nat) (d : List α) : List α :=
  d.take t ++ (d.drop fs).take (fe - fs) ++ d.drop (t + (fe - fs))

/-- The client's `MoveIndexRange([fs, fe), t)`: it refuses (`none`) any call that does not move whole
blocks it holds, downwards, onto indices it does not hold; otherwise it copies the data and updates
its list of blocks. -/
def Client.move {α : Type} (_ : Alloc) (fs fe t : Nat) (s : Client α) : Option (Client α) :=
  if t < fs ∧ fs < fe ∧ fe ≤ s.data.length ∧
      (∀ b ∈ s.blocks, Within fs fe b ∨ (Apart b (fs, fe - fs) ∧ Apart b (t, fe - fs))) ∧
      (∀ k ∈ List.range' fs (fe - fs), ∃ b ∈ s.blocks, Covers b k) then
    some ⟨s.blocks.map (relocate fs fe t), copyRange fs fe t s.data⟩
  else none

/-- The callbacks of this client. -/
def Client.callbacks {α : Type} (fill : α) : Callbacks (Client α) where
  setNum := Client.setNum fill
  move := Client.move

/-- What the client can do. -/
inductive Op (α : Type) where
  /-- allocate `n` indices and initialise their data with the fill value -/
  | alloc (n : Nat)
  /-- free the `k`-th block the client holds -/
  | free (k : Nat)
  /-- write `v` at offset `off` of the `k`-th block -/
  | write (k off : Nat) (v : α)
  | defragment
deriving Repr

/-- One operation.  Calls the API forbids (`Alloc(0)`, freeing a block that is not held) are skipped.
`none`: undefined behaviour, failed assertion, refused callback, or non-termination. -/
def step {α : Type} (fill : α) (op : Op α) (st : Alloc × Client α) : Option (Alloc × Client α) :=
  match op with
  | .alloc n =>
    if n = 0 then some st
    else
      match alloc (Client.callbacks fill) n st.1 st.2 with
      | none => none
      | some ((a, s), i) =>
        some (a, ⟨s.blocks ++ [(i, n)], (List.range' i n).foldl (fun d k => d.set k fill) s.data⟩)
  | .free k =>
    match st.2.blocks[k]? with
    | none => some st
    | some b =>
      match free b.1 st.1 with
      | none => none
      | some a => some (a, { st.2 with blocks := st.2.blocks.eraseIdx k })
  | .write k off v =>
    match st.2.blocks[k]? with
    | none => some st
    | some b => if off < b.2 then some (st.1, { st.2 with data := st.2.data.set (b.1 + off) v })
        else some st
  | .defragment => defragment (Client.callbacks fill) st.1 st.2

/-- A history, from the empty allocator. -/
def run {α : Type} (fill : α) (ops : List (Op α)) : Option (Alloc × Client α) :=
  ops.foldlM (fun st op => step fill op st) (Alloc.init, ⟨[], []⟩)

/-- What the client reads: the contents of each of its blocks, in the order it obtained them. -/
def Client.contents {α : Type} (s : Client α) : List (List α) :=
  s.blocks.map fun b => (s.data.drop b.1).take b.2

/-- The recycled blocks, as `(start, CountForIndex(start))`. -/
def recycled (a : Alloc) : List (Nat × Nat) :=
  a.unused.filterMap fun u => (countFor a.counts u).map fun n => (u, n)

/-- The same history on independent buffers: no allocator, no indices, no compaction. -/
def absStep {α : Type} (fill : α) (op : Op α) (l : List (List α)) : List (List α) :=
  match op with
  | .alloc n => if n = 0 then l else l ++ [List.replicate n fill]
  | .free k => l.eraseIdx k
  | .write k off v => l.modify k (·.set off v)
  | .defragment => l

def absRun {α : Type} (fill : α) (ops : List (Op α)) : List (List α) :=
  ops.foldl (fun l op => absStep fill op l) []

end Motive.Alloc
