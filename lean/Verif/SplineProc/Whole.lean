import Verif.SplineProc.OwnershipProps
import Verif.SplineProc.SetTargetProps
import Verif.SplineProc.Ahead
import Verif.Spline.BulkMove
import Verif.Proc.Lineage

/-!
# C111: the spline processor as a whole

src/motive/processor/spline_processor.cpp: every index has a record in the evaluator and may own a spline, which `SetTarget` writes and the
evaluator plays; splines that are not needed any more go to a pool and are handed out again. `Verif.SplineProc.Ownership` has the pointers
only, `Verif.SplineProc.Playing` splines of the caller only; here are all of it: pointers, contents of splines, records.

The specification is `solo`: each value by itself, with a spline of its own.
-/

namespace Motive.SplineProc.Whole

open Motive.Proc Motive.Proc.Vector Motive.Splines Motive.Splines.Evaluator Motive.Math Motive.Curve Motive.Targets

noncomputable section

/-! ### Model -/

/-- `data_[i].local_spline` (spline_data.h:24-29) and the record of the evaluator. -/
structure Cell where
  loc : Option ℕ
  slot : Slot

/-- The pool (spline_processor.cpp:319-322), and all splines that the processor has created, in order. -/
structure Mem where
  pool : List ℕ
  objs : List Spline

/-- Memory: at even addresses the splines `u` of the caller, at odd addresses those of the processor. (Addresses are a numbering only: nothing
is computed from them.) -/
def memory (u : ℕ → Option Spline) (objs : List Spline) : Heap := fun a => if a % 2 = 0 then u (a / 2) else objs[a / 2]?

/-- The processor and its motivators. -/
structure State where
  w : World Cell
  mem : Mem

/-- Big enough (spline_processor.cpp:270). -/
def Mem.fits (M : Mem) (n s : ℕ) : Bool := (M.objs[s]?).any fun o => decide (n ≤ o.maxNodes)

/-- `AllocateSpline` (spline_processor.cpp:264-281): the first spline of the pool that is large enough is replaced by the last one. -/
def Mem.allocate (M : Mem) (n : ℕ) : ℕ × Mem :=
  match M.pool.findIdx? (M.fits n) with
  | some i => (M.pool.getD i 0, ⟨(M.pool.set i (M.pool.getLastD 0)).dropLast, M.objs⟩)
  | none => (M.objs.length, ⟨M.pool, M.objs ++ [Spline.create n]⟩)

/-- The local spline in `SetTarget` (spline_processor.cpp:172-175). -/
def Mem.localSpline (M : Mem) (x : Cell) : ℕ × Mem :=
  match x.loc with
  | some s => (s, M)
  | none => M.allocate kDefaultMaxNodes

/-- Arguments of setters, for one dimension. `SetTargets` has targets only, `SetSplines` splines only, `SetSplinesAndTargets` a spline or a target
for each dimension (spline_processor.cpp:82-115). -/
inductive Arg where
  | target (t : Target ℝ)
  /-- the caller's spline `e` -/
  | play (e : ℕ) (p : Playback)
  /-- `SetSplines` with a null pointer (bulk_spline_evaluator.cpp:173-176) -/
  | clear
  /-- `SetSplineTime` -/
  | time (x : ℝ)
  /-- `SetSplinePlaybackRate` -/
  | rate (r : ℝ)
  /-- `SetSplineRepeating` -/
  | repeating (b : Bool)

/-- What a setter does to one index (spline_processor.cpp:82-142, 146-203). `SetSplines` frees the local splines of all dimensions before it
touches the evaluator; the evaluator does not look at them any more, so each dimension is done in one go here. -/
def setCell (u : ℕ → Option Spline) (M : Mem) (x : Cell) : Arg → Option (Cell × Mem)
  | .target t =>
    ((M.localSpline x).2.objs[(M.localSpline x).1]?).bind fun loc =>
      (targetSpline x.slot loc t).bind fun s =>
        (x.slot.setSpline (memory u ((M.localSpline x).2.objs.set (M.localSpline x).1 s)) (2 * (M.localSpline x).1 + 1) {}).map fun c =>
          (⟨some (M.localSpline x).1, c⟩, ⟨(M.localSpline x).2.pool, (M.localSpline x).2.objs.set (M.localSpline x).1 s⟩)
  | .play e p => (x.slot.setSpline (memory u M.objs) (2 * e) p).map fun c => (⟨none, c⟩, ⟨M.pool ++ x.loc.toList, M.objs⟩)
  | .clear => some (⟨none, x.slot.clearSpline⟩, ⟨M.pool ++ x.loc.toList, M.objs⟩)
  | .time t => (x.slot.setX (memory u M.objs) t).map fun c => (⟨x.loc, c⟩, M)
  | .rate r => some (⟨x.loc, { x.slot with rate := r }⟩, M)
  | .repeating b => some (⟨x.loc, { x.slot with rep := b }⟩, M)

/-- The loop over the dimensions. -/
def setCells (u : ℕ → Option Spline) : List Arg → List Cell → Mem → Option (List Cell × Mem)
  | [], [], M => some ([], M)
  | a :: as, x :: xs, M => (setCell u M x a).bind fun r => (setCells u as xs r.2).map fun q => (r.1 :: q.1, q.2)
  | _, _, _ => none

/-- The loop of `CloneIndices` (spline_processor.cpp:214-225, bulk_spline_evaluator.h:78-84): the record is copied, and the spline that it plays. A
null pointer is followed if there is none. -/
def cloneCell (u : ℕ → Option Spline) (M : Mem) (x : Cell) : Option (Cell × Mem) :=
  x.slot.spline.bind fun a =>
    (memory u M.objs a).bind fun s =>
      ((M.allocate s.maxNodes).2.objs[(M.allocate s.maxNodes).1]?).bind fun o =>
        (o.assign s).map fun t =>
          (⟨some (M.allocate s.maxNodes).1, { x.slot with spline := some (2 * (M.allocate s.maxNodes).1 + 1) }⟩,
            ⟨(M.allocate s.maxNodes).2.pool, (M.allocate s.maxNodes).2.objs.set (M.allocate s.maxNodes).1 t⟩)

/-- The loop over the dimensions. -/
def cloneCells (u : ℕ → Option Spline) : List Cell → Mem → Option (List Cell × Mem)
  | [], M => some ([], M)
  | x :: xs, M => (cloneCell u M x).bind fun r => (cloneCells u xs r.2).map fun q => (r.1 :: q.1, q.2)

/-- The indices of a motivator. -/
def State.cells (st : State) (m : MotId) : List Cell := (gather id st.w m).getD []

/-- `RemoveIndices` (spline_processor.cpp:229-241): local splines go to the pool. -/
def State.freed (st : State) (m : MotId) : Mem := ⟨st.mem.pool ++ (st.cells m).filterMap Cell.loc, st.mem.objs⟩

/-- The new values of a motivator are put into its indices. -/
def overwrite : Machine Cell Cell Unit := ⟨fun c _ => some c, fun _ c => some c⟩

/-- Calls. -/
inductive Act where
  /-- `Initialize` with a `SplineInit` of the range `r`, for `left.length` dimensions; `left` is what is left in the records of the indices -/
  | initialize (m : MotId) (r : Range ℝ) (left : List Slot)
  | invalidate (m : MotId)
  | moveAssign (dst src : MotId)
  | moveConstruct (dst src : MotId)
  | cloneFrom (dst : MotId) (src : Option MotId)
  | set (m : MotId) (args : List Arg)
  /-- `AdvanceFrame` of the processor -/
  | frame (dt : ℝ)

/-- The record of a new motivator: `InitializeIndices` sets the range (spline_processor.cpp:205-210); there is no spline, because the indices are
new or have been cleared (`RemoveIndices`, 229-233). The other fields are not reset. -/
def fresh (r : Range ℝ) (c : Slot) : Slot := { c with modRange := r, spline := none }

/-- One call. What the API forbids has no outcome, and so have failed assertions and null pointers that are followed. That the local spline of a new
index is null is C40. In `CloneFrom` the indices are allocated before the splines are copied; neither affects the other. -/
def step (u : ℕ → Option Spline) (st : State) : Act → Option State
  | .initialize m r left =>
    if 0 < left.length then (st.w.initialize m sp (left.map fun c => ⟨none, fresh r c⟩)).map fun w => ⟨w, st.freed m⟩ else none
  | .invalidate m => (st.w.invalidate m).map fun w => ⟨w, st.freed m⟩
  | .moveAssign dst src => (st.w.moveAssign dst src).map fun w => ⟨w, st.freed dst⟩
  | .moveConstruct dst src =>
    if dst ≠ src ∧ st.w.valid dst = false then (st.w.moveConstruct dst src).map fun w => ⟨w, st.mem⟩ else none
  | .cloneFrom dst src =>
    (st.w.invalidate dst).bind fun w =>
      match src.bind fun m => gather id w m with
      | none => some ⟨w, st.freed dst⟩
      | some l => (cloneCells u l (st.freed dst)).bind fun r => (w.initialize dst sp r.1).map fun w' => ⟨w', r.2⟩
  | .set m args =>
    (gather id st.w m).bind fun l =>
      (setCells u args l st.mem).bind fun r => (Motive.Proc.Vector.set overwrite st.w m r.1).map fun w => ⟨w, r.2⟩
  | .frame dt =>
    (st.w.advanceM sp fun x => (x.slot.advance (memory u st.mem.objs) dt).map fun c => ⟨x.loc, c⟩).map fun w => ⟨w, st.mem⟩

/-- A new processor. -/
def start : State := ⟨World.empty.setProc sp (some (Proc.new ⟨none, {}⟩ true)), ⟨[], []⟩⟩

/-- Any number of calls. -/
def run (u : ℕ → Option Spline) (acts : List Act) : Option State := acts.foldlM (step u) start

/-- All that can be read from one dimension: `Values`, `Velocities`, `Directions`, `TargetValues`, `TargetVelocities`, `Differences`, its part in
`TargetTime`, `SplineTime`, and whether it has a spline (spline_processor.cpp:44-80). -/
structure Reads where
  value : ℝ
  velocity : ℝ
  direction : ℝ
  targetValue : Option ℝ
  targetVelocity : Option ℝ
  difference : Option ℝ
  targetTime : Option ℤ
  splineTime : Option ℤ
  hasSpline : Bool

/-- Reading a record. -/
def reads (h : Heap) (c : Slot) : Reads :=
  ⟨c.y, c.derivative, c.rawDerivative, targetValue h c, targetVelocity h c, difference h c, SplineProc.targetTime h c, splineTime h c, c.spline.isSome⟩

/-- Reading all dimensions of a motivator. -/
def State.read (u : ℕ → Option Spline) (st : State) (m : MotId) : Option (List Reads) :=
  gather (fun x => reads (memory u st.mem.objs) x.slot) st.w m

/-! ### Specification: each value by itself -/

/-- A record and the spline made for it, if there is one. -/
structure Solo where
  slot : Slot
  own : Option Spline

/-- The splines of the caller, and the one made for the record. -/
def soloMem (u : ℕ → Option Spline) (own : Option Spline) : Heap := fun a => if a % 2 = 0 then u (a / 2) else own

/-- A single value: `target` makes a new spline with enough room, and plays it from its start. -/
def solo (u : ℕ → Option Spline) : Machine Solo Arg ℝ where
  cmd a d := match a with
    | .target t => (targetSpline d.slot (Spline.create (t.nodes.length + 1)) t).bind fun s =>
        (d.slot.setSpline (soloMem u (some s)) 1 {}).map fun c => ⟨c, some s⟩
    | .play e p => (d.slot.setSpline (soloMem u d.own) (2 * e) p).map fun c => ⟨c, none⟩
    | .clear => some ⟨d.slot.clearSpline, none⟩
    | .time t => (d.slot.setX (soloMem u d.own) t).map fun c => ⟨c, d.own⟩
    | .rate r => some ⟨{ d.slot with rate := r }, d.own⟩
    | .repeating b => some ⟨{ d.slot with rep := b }, d.own⟩
  frame dt d := (d.slot.advance (soloMem u d.own) dt).map fun c => ⟨c, d.own⟩

/-- The same call on values by themselves. -/
def Act.call : Act → Call Solo Arg ℝ
  | .initialize m r left => .initialize m sp (left.map fun c => ⟨fresh r c, none⟩)
  | .invalidate m => .invalidate m
  | .moveAssign dst src => .moveAssign dst src
  | .moveConstruct dst src => .moveConstruct dst src
  | .cloneFrom dst src => .cloneFrom dst src
  | .set m args => .set m args
  | .frame dt => .frame sp dt

/-- The program on values by themselves. -/
def calls (acts : List Act) : List (Call Solo Arg ℝ) := .create sp ⟨{}, none⟩ true :: acts.map Act.call

/-! ### Records with the same spline -/

theorem sameSpline_symm {h h' : Heap} {i j : Option ℕ} (H : SameSpline h h' i j) : SameSpline h' h j i := by
  cases i <;> cases j
  · trivial
  · exact H
  · exact H
  · obtain ⟨s, m, e1, e2⟩ := H
    exact ⟨_, s.maxNodes, e2, e1⟩

theorem same_symm {h h' : Heap} {c c' : Slot} (H : SameSlot h h' c c') : SameSlot h' h c' c := by
  refine ⟨sameSpline_symm H.1, ?_⟩
  have := H.2
  cases c; cases c'
  simp only [Slot.mk.injEq] at this ⊢
  obtain ⟨rfl, rfl, rfl, -, rfl, rfl, rfl, rfl, rfl, rfl, rfl⟩ := this
  simp

/-- Nothing but the number of the spline differs. -/
def SameBut (c c' : Slot) : Prop := c' = { c with spline := c'.spline } ∧ c'.spline.isSome = c.spline.isSome

theorem same_but {h h' : Heap} {c c' : Slot} (H : SameSlot h h' c c') : SameBut c c' := by
  refine ⟨H.2, ?_⟩
  have := H.1
  cases hi : c.spline <;> cases hj : c'.spline <;> rw [hi, hj] at this <;> first | rfl | exact absurd this (by simp [SameSpline])

theorem setSpline_same {h h' : Heap} {c c' : Slot} (H : SameBut c c') {i j : ℕ} {s : Spline} {m : ℕ} (hi : h i = some s)
    (hj : h' j = some { s with maxNodes := m }) (p : Playback) {d : Slot} (hd : c.setSpline h i p = some d) :
    ∃ d', c'.setSpline h' j p = some d' ∧ SameSlot h h' d d' ∧ d.spline = some i ∧ d'.spline = some j := by
  obtain ⟨h1, h2⟩ := H
  unfold Slot.setSpline at hd ⊢
  rw [h2]
  by_cases hb : c.spline.isSome = true ∧ 0 < p.blendX
  · rw [if_pos hb] at hd ⊢
    unfold Slot.blendTo at hd ⊢
    rw [hi] at hd
    rw [hj]
    simp only [Option.bind_some] at hd ⊢
    have a0 : c'.blendInit { s with maxNodes := m } p = c.blendInit s p := by rw [h1]; rfl
    have a1 : ∀ x g r, Spline.indexForXRepeat { s with maxNodes := m } x g r = s.indexForXRepeat x g r := fun _ _ _ => rfl
    have a2 : ∀ i, Spline.nodeX { s with maxNodes := m } i = s.nodeX i := fun _ => rfl
    rw [a0, a1]
    simp only [a2]
    simp only [Option.map_eq_some_iff, Option.bind_eq_some_iff] at hd
    obtain ⟨d1, ⟨ci, e1, st, e2, x0, e3, rfl⟩, rfl⟩ := hd
    rw [e1, e2]
    simp only [Option.bind_some, e3, Option.map_some]
    refine ⟨_, rfl, ⟨⟨s, m, hi, hj⟩, ?_⟩, rfl, rfl⟩
    rw [h1]
    rfl
  · rw [if_neg hb] at hd ⊢
    simp only [Slot.jumpTo, Option.map_eq_some_iff] at hd
    obtain ⟨d1, e1, rfl⟩ := hd
    have H1 : SameSlot h h' { c with rate := p.rate, yOffset := p.yOffset, yScale := p.yScale, spline := some i, xIndex := kInvalid, rep := p.rep }
        { c' with rate := p.rate, yOffset := p.yOffset, yScale := p.yScale, spline := some j, xIndex := kInvalid, rep := p.rep } := by
      refine ⟨⟨s, m, hi, hj⟩, ?_⟩
      rw [h1]
    obtain ⟨d', e2, e3⟩ := SameSlot.initCubic H1 p.startX e1
    refine ⟨d'.evaluate, by unfold Slot.jumpTo; rw [e2]; rfl, e3.evaluate, ?_, ?_⟩
    · exact (initCubic_source e1).1
    · exact (initCubic_source e2).1

theorem setX_same {h h' : Heap} {c c' : Slot} (H : SameSlot h h' c c') (x : ℝ) {d : Slot} (hd : c.setX h x = some d) :
    ∃ d', c'.setX h' x = some d' ∧ SameSlot h h' d d' := by
  simp only [Slot.setX, Option.map_eq_some_iff] at hd
  obtain ⟨d1, e1, rfl⟩ := hd
  obtain ⟨d', e2, e3⟩ := SameSlot.initCubic H x e1
  exact ⟨d'.evaluate, by unfold Slot.setX; rw [e2]; rfl, e3.evaluate⟩

/-! ### The spline made for a target -/

theorem nodeLoop_but {c c' : Slot} (H : SameBut c c') : ∀ (ns : List (MNode ℝ)) (s : Spline) (prev : ℝ), nodeLoop c' s prev ns = nodeLoop c s prev ns
  | [], _, _ => rfl
  | n :: ns, s, prev => by
    have e1 : wanted c' n.value = wanted c n.value := by rw [H.1]; rfl
    have e2 : ∀ v, c'.nextY prev v n.dir = c.nextY prev v n.dir := fun v => by rw [H.1]; rfl
    unfold nodeLoop
    rw [e1]
    congr 1
    funext v
    rw [e2]
    congr 1
    funext y
    congr 1
    funext s'
    exact nodeLoop_but H ns s' y

theorem targetSpline_but {c c' : Slot} (H : SameBut c c') (loc : Spline) (t : Target ℝ) : targetSpline c' loc t = targetSpline c loc t := by
  have hn : c'.spline.isNone = c.spline.isNone := by
    have := H.2
    cases h1 : c.spline <;> cases h2 : c'.spline <;> rw [h1, h2] at this <;> first | rfl | cases this
  have e0 : ∀ n0, overrides c' n0 = overrides c n0 := fun n0 => by unfold overrides; rw [hn]
  have e1 : ∀ n0, startY c' n0 = startY c n0 := fun n0 => by
    unfold startY; rw [e0, H.1]; rfl
  have e2 : ∀ n0, startD c' n0 = startD c n0 := fun n0 => by
    unfold startD; rw [e0, H.1]; rfl
  have e3 : ∀ n0, rest c' t n0 = rest c t n0 := fun n0 => by unfold rest; rw [e0]
  have e4 : ∀ y, yRange c' t y = yRange c t y := fun y => by rw [H.1]; rfl
  unfold targetSpline
  simp only [e1, e2, e3, e4, nodeLoop_but H]

/-- Adding a node at the end needs room for one node. -/
theorem addNode_room {s s1 : Spline} {x y d : ℝ} {m : AddMethod} (h : s.addNode x y d m = some s1) (hm : s.nodes = [] ∨ m = .withoutModification)
    {k : ℕ} (hk : s.nodes.length < k) :
    Spline.addNode { s with maxNodes := k } x y d m = some { s1 with maxNodes := k } ∧ s1.nodes.length ≤ s.nodes.length + 1 ∧
      s1.maxNodes = s.maxNodes := by
  unfold Spline.addNode at h ⊢
  simp only [Option.bind_eq_some_iff] at h ⊢
  obtain ⟨n, e1, e2⟩ := h
  cases hl : s.nodes.getLast? with
  | none =>
    rw [hl] at e2
    simp only [Spline.addVerbatim] at e2
    split at e2
    · cases e2
      refine ⟨⟨n, e1, ?_⟩, by simp, rfl⟩
      unfold Spline.addVerbatim
      rw [if_pos hk]
    · cases e2
  | some last =>
    rw [hl] at e2
    have hne : s.nodes ≠ [] := by intro h; rw [h] at hl; cases hl
    have hm : m = .withoutModification := hm.resolve_left hne
    subst hm
    simp only [reduceCtorEq, if_false] at e2
    split at e2
    · cases e2
    · rename_i h1
      split at e2
      · rename_i h2
        cases e2
        exact ⟨⟨n, e1, by simp only; rw [if_neg h1, if_pos h2]⟩, by omega, rfl⟩
      · rename_i h2
        split at e2
        · rename_i h3
          have hd : (s.dropMiddle n).nodes.length ≤ s.nodes.length ∧ (s.dropMiddle n).maxNodes = s.maxNodes := by
            unfold Spline.dropMiddle
            split
            · split <;> simp
            · simp
          have hd' : Spline.dropMiddle { s with maxNodes := k } n = { s.dropMiddle n with maxNodes := k } := by
            unfold Spline.dropMiddle
            simp only
            generalize s.nodes.reverse = l
            match l with
            | [] => rfl
            | [_] => rfl
            | b :: a :: _ => simp only; split <;> rfl
          unfold Spline.addVerbatim at e2
          split at e2
          · cases e2
            refine ⟨⟨n, e1, ?_⟩, by simp; omega, hd.2⟩
            simp only
            rw [if_neg h1, if_neg h2, if_pos h3, hd']
            unfold Spline.addVerbatim
            rw [if_pos (by simp only; omega)]
          · cases e2
        · rename_i h3
          unfold Spline.addVerbatim at e2
          split at e2
          · cases e2
            refine ⟨⟨n, e1, ?_⟩, by simp, rfl⟩
            simp only [reduceCtorEq, if_false]
            rw [if_neg h1, if_neg h2, if_neg h3]
            unfold Spline.addVerbatim
            rw [if_pos hk]
          · cases e2

theorem nodeLoop_room {c : Slot} : ∀ (ns : List (MNode ℝ)) {s s1 : Spline} {prev : ℝ}, nodeLoop c s prev ns = some s1 → ∀ {k : ℕ},
    s.nodes.length + ns.length ≤ k → nodeLoop c { s with maxNodes := k } prev ns = some { s1 with maxNodes := k } ∧ s1.maxNodes = s.maxNodes
  | [], s, s1, prev, h, k, _ => by cases h; exact ⟨rfl, rfl⟩
  | n :: ns, s, s1, prev, h, k, hk => by
    unfold nodeLoop at h ⊢
    simp only [Option.bind_eq_some_iff] at h ⊢
    obtain ⟨v, e1, y, e2, s2, e3, e4⟩ := h
    simp only [List.length_cons] at hk
    obtain ⟨f1, f2, f3⟩ := addNode_room e3 (Or.inr rfl) (k := k) (by omega)
    obtain ⟨g1, g2⟩ := nodeLoop_room ns e4 (k := k) (by omega)
    exact ⟨⟨v, e1, y, e2, _, f1, g1⟩, g2.trans f3⟩

theorem targetSpline_room {c : Slot} {loc s : Spline} {t : Target ℝ} (h : targetSpline c loc t = some s) (loc' : Spline)
    (hk : t.nodes.length + 1 ≤ loc'.maxNodes) : targetSpline c loc' t = some { s with maxNodes := loc'.maxNodes } ∧ s.maxNodes = loc.maxNodes := by
  unfold targetSpline at h ⊢
  simp only [Option.bind_eq_some_iff] at h ⊢
  obtain ⟨n0, e1, y0, e2, e, e3, r, e4, s0, e5, e6⟩ := h
  obtain ⟨f1, f2, f3⟩ := addNode_room e5 (Or.inl rfl) (k := loc'.maxNodes) (by simp [Spline.init]; omega)
  have hr : (rest c t n0).length ≤ t.nodes.length := by unfold rest; split <;> simp
  obtain ⟨g1, g2⟩ := nodeLoop_room _ e6 (k := loc'.maxNodes) (by simp [Spline.init] at f2; omega)
  exact ⟨⟨n0, e1, y0, e2, e, e3, r, e4, _, f1, g1⟩, g2.trans f3⟩

/-! ### Who owns what -/

/-- The splines `L` and those of the pool are different, and exist; splines hold no more nodes than there is room for. -/
structure Fine (L : List ℕ) (M : Mem) : Prop where
  nodup : (L ++ M.pool).Nodup
  made : ∀ s ∈ L ++ M.pool, s < M.objs.length
  room : ∀ o ∈ M.objs, o.nodes.length ≤ o.maxNodes

/-- From owning `L` to owning `L'`: only splines owned or pooled before are written to, all others are new. -/
structure Shift (L : List ℕ) (M : Mem) (L' : List ℕ) (M' : Mem) : Prop where
  fine : Fine L' M'
  old : ∀ s ∈ L' ++ M'.pool, s ∈ L ++ M.pool ∨ M.objs.length ≤ s
  grow : M.objs.length ≤ M'.objs.length
  keep : ∀ s < M.objs.length, s ∉ L ++ M.pool → M'.objs[s]? = M.objs[s]?

theorem Shift.refl {L : List ℕ} {M : Mem} (h : Fine L M) : Shift L M L M := ⟨h, fun _ h => Or.inl h, le_refl _, fun _ _ _ => rfl⟩

theorem Shift.trans {L L' L'' : List ℕ} {M M' M'' : Mem} (h : Shift L M L' M') (h' : Shift L' M' L'' M'') : Shift L M L'' M'' := by
  refine ⟨h'.fine, ?_, h.grow.trans h'.grow, ?_⟩
  · intro s hs
    rcases h'.old s hs with h1 | h1
    · exact h.old s h1
    · exact Or.inr (h.grow.trans h1)
  · intro s hs hn
    rw [h'.keep s (lt_of_lt_of_le hs h.grow) ?_, h.keep s hs hn]
    intro h1
    rcases h.old s h1 with h2 | h2
    · exact hn h2
    · omega

/-- Others own their splines still. -/
theorem Shift.frame {L L' : List ℕ} {M M' : Mem} (h : Shift L M L' M') {P Q : List ℕ} (hf : Fine (P ++ (L ++ Q)) M) :
    Shift (P ++ (L ++ Q)) M (P ++ (L' ++ Q)) M' := by
  have hd := hf.nodup
  have hm := hf.made
  have h1 := h.fine.nodup
  simp only [List.nodup_append, List.mem_append] at hd h1
  have key : ∀ s, s ∈ P ∨ s ∈ Q → s ∉ L' ∧ s ∉ M'.pool := by
    intro s hs
    have hlt : s < M.objs.length := hm s (by simp only [List.mem_append]; tauto)
    have hno : ¬ (s ∈ L ∨ s ∈ M.pool) := by
      rintro (h2 | h2) <;> rcases hs with h3 | h3
      · exact hd.1.2.2 s h3 s (Or.inl h2) rfl
      · exact hd.1.2.1.2.2 s h2 s h3 rfl
      · exact hd.2.2 s (Or.inl h3) s h2 rfl
      · exact hd.2.2 s (Or.inr (Or.inr h3)) s h2 rfl
    have : ∀ h : s ∈ L' ++ M'.pool, False := by
      intro h2
      rcases h.old s h2 with h3 | h3
      · exact hno (List.mem_append.mp h3)
      · omega
    exact ⟨fun h2 => this (List.mem_append.mpr (Or.inl h2)), fun h2 => this (List.mem_append.mpr (Or.inr h2))⟩
  refine ⟨⟨?_, ?_, h.fine.room⟩, ?_, h.grow, ?_⟩
  · simp only [List.nodup_append, List.mem_append]
    refine ⟨⟨hd.1.1, ⟨h1.1, hd.1.2.1.2.1, ?_⟩, ?_⟩, h1.2.1, ?_⟩
    · intro a ha b hb e
      subst e
      exact (key a (Or.inr hb)).1 ha
    · intro a ha b hb e
      subst e
      rcases hb with hb | hb
      · exact (key a (Or.inl ha)).1 hb
      · exact hd.1.2.2 a ha a (Or.inr hb) rfl
    · intro a ha b hb e
      subst e
      rcases ha with ha | ha | ha
      · exact (key a (Or.inl ha)).2 hb
      · exact h1.2.2 a ha a hb rfl
      · exact (key a (Or.inr ha)).2 hb
  · intro s hs
    simp only [List.mem_append] at hs
    rcases hs with (h2 | h2 | h2) | h2
    · exact lt_of_lt_of_le (hm s (by simp [h2])) h.grow
    · exact h.fine.made s (by simp [h2])
    · exact lt_of_lt_of_le (hm s (by simp [h2])) h.grow
    · exact h.fine.made s (by simp [h2])
  · intro s hs
    simp only [List.mem_append] at hs ⊢
    rcases hs with (h2 | h2 | h2) | h2
    · tauto
    · have := h.old s (by simp [h2]); simp only [List.mem_append] at this; tauto
    · tauto
    · have := h.old s (by simp [h2]); simp only [List.mem_append] at this; tauto
  · intro s hs hn
    refine h.keep s hs fun h2 => hn ?_
    simp only [List.mem_append] at h2 ⊢
    tauto

theorem memory_odd (u : ℕ → Option Spline) (objs : List Spline) (s : ℕ) : memory u objs (2 * s + 1) = objs[s]? := by
  unfold memory
  rw [if_neg (by omega), show (2 * s + 1) / 2 = s by omega]

theorem memory_even (u : ℕ → Option Spline) (objs : List Spline) (e : ℕ) : memory u objs (2 * e) = u e := by
  unfold memory
  rw [if_pos (by omega), show 2 * e / 2 = e by omega]

theorem soloMem_even (u : ℕ → Option Spline) (own : Option Spline) (e : ℕ) : soloMem u own (2 * e) = u e := by
  unfold soloMem
  rw [if_pos (by omega), show 2 * e / 2 = e by omega]

/-- `AllocateSpline` hands out a spline that nobody owns, with enough room. -/
theorem allocate_shift {L : List ℕ} {M : Mem} (hf : Fine L M) (n : ℕ) :
    Shift L M ((M.allocate n).1 :: L) (M.allocate n).2 ∧ (∃ o, (M.allocate n).2.objs[(M.allocate n).1]? = some o ∧ n ≤ o.maxNodes) ∧
      ∀ s < M.objs.length, (M.allocate n).2.objs[s]? = M.objs[s]? := by
  have hd := hf.nodup
  unfold Mem.allocate
  cases hi : M.pool.findIdx? (M.fits n) with
  | some i =>
    simp only
    obtain ⟨hlt, hfit, -⟩ := List.findIdx?_eq_some_iff_getElem.mp hi
    have hg : M.pool.getD i 0 = M.pool[i] := by simp [List.getD, List.getElem?_eq_getElem hlt]
    have hp := swapPop_perm (l := M.pool) (i := i) (s := M.pool[i]) (List.getElem?_eq_getElem hlt)
    rw [hg]
    have hq : (L ++ M.pool).Perm (M.pool[i] :: L ++ (M.pool.set i (M.pool.getLastD 0)).dropLast) :=
      (hp.append_left L).trans (by simp)
    unfold Mem.fits at hfit
    refine ⟨⟨⟨hq.nodup_iff.mp hd, fun s hs => hf.made s (hq.mem_iff.mpr hs), hf.room⟩, fun s hs => Or.inl (hq.mem_iff.mpr hs), le_refl _, fun _ _ _ => rfl⟩,
      ?_, by intros; trivial⟩
    cases ho : M.objs[M.pool[i]]? with
    | none => rw [ho] at hfit; simp at hfit
    | some o => rw [ho] at hfit; exact ⟨o, rfl, by simpa using hfit⟩
  | none =>
    simp only
    have hkeep : ∀ s < M.objs.length, (M.objs ++ [Spline.create n])[s]? = M.objs[s]? := fun s hs => List.getElem?_append_left hs
    refine ⟨⟨⟨?_, ?_, ?_⟩, ?_, by simp, fun s hs _ => hkeep s hs⟩, ⟨Spline.create n, by simp, le_refl _⟩, hkeep⟩
    · rw [List.cons_append, List.nodup_cons]
      exact ⟨fun h => absurd (hf.made _ h) (lt_irrefl _), hd⟩
    · intro s hs
      rw [List.cons_append, List.mem_cons] at hs
      rw [List.length_append]
      rcases hs with rfl | hs
      · simp
      · have := hf.made s hs; simp; omega
    · intro o ho
      rw [List.mem_append, List.mem_singleton] at ho
      rcases ho with ho | rfl
      · exact hf.room o ho
      · simp [Spline.create]
    · intro s hs
      rw [List.cons_append, List.mem_cons] at hs
      rcases hs with rfl | hs
      · exact Or.inr (le_refl _)
      · exact Or.inl hs

/-- Writing to a spline that is owned. -/
theorem write_shift {L : List ℕ} {M : Mem} (hf : Fine L M) {s : ℕ} (hs : s ∈ L) {o : Spline} (ho : o.nodes.length ≤ o.maxNodes) :
    Shift L M L ⟨M.pool, M.objs.set s o⟩ := by
  refine ⟨⟨hf.nodup, fun t ht => by simpa using hf.made t ht, ?_⟩, fun _ h => Or.inl h, by simp, ?_⟩
  · intro p hp
    rcases List.mem_or_eq_of_mem_set hp with h | rfl
    · exact hf.room p h
    · exact ho
  · intro t _ hn
    exact List.getElem?_set_ne (by rintro rfl; exact hn (by simp [hs]))

/-! ### One value -/

/-- What is played at an odd address is owned. -/
def Plays (x : Cell) : Prop := ∀ a, x.slot.spline = some a → a % 2 = 1 → x.loc = some (a / 2)

/-- The record is that of `y`, and plays a spline with the same nodes. -/
def Rel (u : ℕ → Option Spline) (objs : List Spline) (x : Cell) (y : Solo) : Prop :=
  SameSlot (memory u objs) (soloMem u y.own) x.slot y.slot

theorem same_heap {h1 h2 h' : Heap} {c c' : Slot} (he : ∀ a, c.spline = some a → h2 a = h1 a) (H : SameSlot h1 h' c c') : SameSlot h2 h' c c' := by
  refine ⟨?_, H.2⟩
  have := H.1
  cases hi : c.spline <;> cases hj : c'.spline <;> rw [hi, hj] at this <;> try exact this
  obtain ⟨s, m, e1, e2⟩ := this
  exact ⟨s, m, by rw [he _ hi]; exact e1, e2⟩

theorem Rel.keep {u : ℕ → Option Spline} {L L' : List ℕ} {M M' : Mem} (h : Shift L M L' M') {x : Cell} (hp : Plays x)
    (hx : ∀ s ∈ x.loc.toList, s < M.objs.length ∧ s ∉ L ++ M.pool) {y : Solo} (hr : Rel u M.objs x y) : Rel u M'.objs x y := by
  refine same_heap (fun a ha => ?_) hr
  unfold memory
  split
  · rfl
  · have := hp a ha (by omega)
    obtain ⟨h1, h2⟩ := hx (a / 2) (by rw [this]; simp)
    exact h.keep _ h1 h2

theorem addNode_fits {s s1 : Spline} {x y d : ℝ} {m : AddMethod} (hf : s.nodes.length ≤ s.maxNodes) (h : s.addNode x y d m = some s1) :
    s1.nodes.length ≤ s1.maxNodes := by
  have av : ∀ {t t1 : Spline} {n : Node}, t.addVerbatim n = some t1 → t1.nodes.length ≤ t1.maxNodes := by
    intro t t1 n h
    unfold Spline.addVerbatim at h
    split at h
    · cases h; simp; omega
    · cases h
  unfold Spline.addNode at h
  simp only [Option.bind_eq_some_iff] at h
  obtain ⟨n, -, h⟩ := h
  split at h
  · exact av h
  · split at h
    · cases h
    · split at h
      · cases h; exact hf
      · split at h
        · exact av h
        · split at h
          · rw [Option.bind_eq_some_iff] at h
            obtain ⟨s2, -, h⟩ := h
            exact av h
          · exact av h

theorem targetSpline_fits {c : Slot} {loc s : Spline} {t : Target ℝ} (h : targetSpline c loc t = some s) : s.nodes.length ≤ s.maxNodes := by
  have loop : ∀ (ns : List (MNode ℝ)) {s s1 : Spline} {prev : ℝ}, s.nodes.length ≤ s.maxNodes → nodeLoop c s prev ns = some s1 →
      s1.nodes.length ≤ s1.maxNodes := by
    intro ns
    induction ns with
    | nil => intro s s1 prev hf h; cases h; exact hf
    | cons n ns ih =>
      intro s s1 prev hf h
      unfold nodeLoop at h
      simp only [Option.bind_eq_some_iff] at h
      obtain ⟨v, -, y, -, s2, e3, e4⟩ := h
      exact ih (addNode_fits hf e3) e4
  unfold targetSpline at h
  simp only [Option.bind_eq_some_iff] at h
  obtain ⟨n0, -, y0, -, e, -, r, -, s0, e5, e6⟩ := h
  exact loop _ (addNode_fits (by simp [Spline.init]) e5) e6

theorem setSpline_some {h : Heap} {c d : Slot} {i : ℕ} {p : Playback} (e : c.setSpline h i p = some d) : ∃ s, h i = some s := by
  unfold Slot.setSpline at e
  rw [Option.map_eq_some_iff] at e
  obtain ⟨d1, e, -⟩ := e
  split at e
  · unfold Slot.blendTo at e
    rw [Option.bind_eq_some_iff] at e
    obtain ⟨s, e, -⟩ := e
    exact ⟨s, e⟩
  · unfold Slot.jumpTo Slot.initCubic at e
    simp only [Option.bind_eq_some_iff] at e
    obtain ⟨s, e, -⟩ := e
    exact ⟨s, e⟩

theorem local_shift {M : Mem} {x : Cell} (hf : Fine x.loc.toList M) :
    Shift x.loc.toList M [(M.localSpline x).1] (M.localSpline x).2 ∧
      ∃ o, (M.localSpline x).2.objs[(M.localSpline x).1]? = some o ∧ (x.loc = none → kDefaultMaxNodes ≤ o.maxNodes) := by
  unfold Mem.localSpline
  cases hl : x.loc with
  | none =>
    rw [hl] at hf
    obtain ⟨h1, ⟨o, h2, h3⟩, -⟩ := allocate_shift hf kDefaultMaxNodes
    exact ⟨h1, o, h2, fun _ => h3⟩
  | some s =>
    rw [hl] at hf
    exact ⟨Shift.refl hf, _, List.getElem?_eq_getElem (hf.made s (by simp)), by intro h; cases h⟩

theorem free_shift {L : List ℕ} {M : Mem} (hf : Fine L M) : Shift L M [] ⟨M.pool ++ L, M.objs⟩ := by
  have hq : (L ++ M.pool).Perm ([] ++ (M.pool ++ L)) := by rw [List.nil_append]; exact List.perm_append_comm
  exact ⟨⟨hq.nodup_iff.mp hf.nodup, fun s hs => hf.made s (hq.mem_iff.mpr hs), hf.room⟩, fun s hs => Or.inl (hq.mem_iff.mpr hs), le_refl _,
    fun _ _ _ => rfl⟩

theorem setCell_sim {u : ℕ → Option Spline} {M M' : Mem} {x x' : Cell} {y : Solo} {a : Arg} (hf : Fine x.loc.toList M) (hp : Plays x)
    (hr : Rel u M.objs x y) (h : setCell u M x a = some (x', M')) :
    Shift x.loc.toList M x'.loc.toList M' ∧ Plays x' ∧ ∃ y', (solo u).cmd a y = some y' ∧ Rel u M'.objs x' y' := by
  cases a with
  | target t =>
    obtain ⟨h1, o, h2, -⟩ := local_shift hf
    simp only [setCell, h2, Option.bind_some, Option.bind_eq_some_iff, Option.map_eq_some_iff, Prod.mk.injEq] at h
    obtain ⟨s, e1, c, e2, rfl, rfl⟩ := h
    generalize hb : M.localSpline x = b at *
    have hlt : b.1 < b.2.objs.length := h1.fine.made _ (by simp)
    have h3 := h1.trans (write_shift h1.fine (s := b.1) (by simp) (targetSpline_fits e1))
    have hm : memory u (b.2.objs.set b.1 s) (2 * b.1 + 1) = some s := by rw [memory_odd]; exact List.getElem?_set_self hlt
    have hbut := same_but hr
    obtain ⟨e3, -⟩ := targetSpline_room e1 (Spline.create (t.nodes.length + 1)) (le_refl _)
    rw [← targetSpline_but hbut] at e3
    obtain ⟨d', f1, f2, f3, f4⟩ := setSpline_same hbut (h' := soloMem u (some { s with maxNodes := (Spline.create (t.nodes.length + 1)).maxNodes }))
      (j := 1) hm rfl {} e2
    refine ⟨h3, ?_, ⟨d', some _⟩, ?_, f2⟩
    · intro a ha hodd
      have ha : c.spline = some a := ha
      rw [f3] at ha
      cases ha
      simp only [Option.some.injEq]
      omega
    · simp only [solo, e3, Option.bind_some, f1, Option.map_some]
  | play e p =>
    simp only [setCell, Option.map_eq_some_iff, Prod.mk.injEq] at h
    obtain ⟨c, e2, rfl, rfl⟩ := h
    obtain ⟨s, hs⟩ := setSpline_some e2
    have hs' : u e = some s := by rw [← memory_even u M.objs]; exact hs
    obtain ⟨d', f1, f2, f3, f4⟩ := setSpline_same (same_but hr) (h' := soloMem u y.own) (j := 2 * e) (m := s.maxNodes) hs
      (by rw [soloMem_even]; exact hs') p e2
    refine ⟨free_shift hf, ?_, ⟨d', none⟩, ?_, ?_⟩
    · intro a ha hodd
      have ha : c.spline = some a := ha
      rw [f3] at ha
      cases ha
      omega
    · simp only [solo, f1, Option.map_some]
    · refine same_symm (same_heap (fun a ha => ?_) (same_symm f2))
      have ha : d'.spline = some a := ha
      rw [f4] at ha
      cases ha
      rw [soloMem_even, soloMem_even]
  | clear =>
    simp only [setCell, Option.some.injEq, Prod.mk.injEq] at h
    obtain ⟨rfl, rfl⟩ := h
    refine ⟨free_shift hf, ?_, _, rfl, trivial, ?_⟩
    · intro a ha
      cases (show (none : Option ℕ) = some a from ha)
    · have := hr.2
      simp only [Slot.clearSpline]
      conv_lhs => rw [this]
  | time t =>
    simp only [setCell, Option.map_eq_some_iff, Prod.mk.injEq] at h
    obtain ⟨c, e2, rfl, rfl⟩ := h
    obtain ⟨d', f1, f2⟩ := setX_same hr t e2
    refine ⟨Shift.refl hf, ?_, ⟨d', y.own⟩, by simp only [solo, f1, Option.map_some], f2⟩
    intro a ha
    have ha : c.spline = some a := ha
    simp only [Slot.setX, Option.map_eq_some_iff] at e2
    obtain ⟨d1, g1, rfl⟩ := e2
    have : d1.spline = some a := ha
    rw [(initCubic_source g1).1] at this
    exact hp a this
  | rate r =>
    simp only [setCell, Option.some.injEq, Prod.mk.injEq] at h
    obtain ⟨rfl, rfl⟩ := h
    refine ⟨Shift.refl hf, hp, _, rfl, hr.1, ?_⟩
    have := hr.2
    simp only
    conv_lhs => rw [this]
  | repeating r =>
    simp only [setCell, Option.some.injEq, Prod.mk.injEq] at h
    obtain ⟨rfl, rfl⟩ := h
    refine ⟨Shift.refl hf, hp, _, rfl, hr.1, ?_⟩
    have := hr.2
    simp only
    conv_lhs => rw [this]

theorem cloneCell_sim {u : ℕ → Option Spline} {M M' : Mem} {x x' : Cell} {y : Solo} (hf : Fine [] M) (hr : Rel u M.objs x y)
    (h : cloneCell u M x = some (x', M')) :
    Shift [] M x'.loc.toList M' ∧ Plays x' ∧ Rel u M'.objs x' y := by
  simp only [cloneCell, Option.bind_eq_some_iff, Option.map_eq_some_iff, Prod.mk.injEq] at h
  obtain ⟨a, e1, s, e2, o, e3, t, e4, rfl, rfl⟩ := h
  obtain ⟨h1, -, -⟩ := allocate_shift hf s.maxNodes
  generalize M.allocate s.maxNodes = b at *
  have hlt : b.1 < b.2.objs.length := h1.fine.made _ (by simp)
  unfold Spline.assign at e4
  split at e4
  · rename_i hle
    cases e4
    refine ⟨h1.trans (write_shift h1.fine (s := b.1) (by simp) hle), ?_, ?_, ?_⟩
    · intro a ha _
      simp only [Option.some.injEq] at ha
      subst ha
      simp only [Option.some.injEq]
      omega
    · have := hr.1
      rw [e1] at this
      cases hj : y.slot.spline with
      | none => rw [hj] at this; exact absurd this (by simp [SameSpline])
      | some j =>
        rw [hj] at this
        obtain ⟨s', m, g1, g2⟩ := this
        rw [e2] at g1
        cases g1
        exact ⟨{ s with maxNodes := o.maxNodes }, m, by rw [memory_odd]; exact List.getElem?_set_self hlt, g2⟩
    · have := hr.2
      exact this
  · cases e4

/-! ### Several dimensions -/

/-- The splines that are owned. -/
def locs (xs : List Cell) : List ℕ := xs.filterMap Cell.loc

theorem locs_cons (x : Cell) (xs : List Cell) : locs (x :: xs) = x.loc.toList ++ locs xs := by
  unfold locs
  rw [List.filterMap_cons]
  cases x.loc <;> rfl

theorem mem_locs {xs : List Cell} {x : Cell} (hx : x ∈ xs) {s : ℕ} (hs : s ∈ x.loc.toList) : s ∈ locs xs :=
  List.mem_filterMap.mpr ⟨x, hx, by simpa using hs⟩

theorem Fine.left {L L' : List ℕ} {M : Mem} (h : Fine (L ++ L') M) : Fine L M := by
  have := h.nodup
  refine ⟨?_, fun s hs => h.made s (by simp only [List.mem_append] at hs ⊢; tauto), h.room⟩
  rw [List.append_assoc] at this
  exact this.sublist (List.Sublist.append_left (List.sublist_append_right _ _) _)

theorem Fine.right {L L' : List ℕ} {M : Mem} (h : Fine (L ++ L') M) : Fine L' M := by
  have := h.nodup
  refine ⟨?_, fun s hs => h.made s (by simp only [List.mem_append] at hs ⊢; tauto), h.room⟩
  rw [List.append_assoc] at this
  exact this.sublist (List.sublist_append_right _ _)

theorem Fine.apart {L L' : List ℕ} {M : Mem} (h : Fine (L ++ L') M) {s : ℕ} (hs : s ∈ L') : s < M.objs.length ∧ s ∉ L ++ M.pool := by
  have h1 := h.nodup
  refine ⟨h.made s (by simp [hs]), ?_⟩
  simp only [List.nodup_append, List.mem_append] at h1 ⊢
  rintro (h2 | h2)
  · exact h1.1.2.2 s h2 s hs rfl
  · exact h1.2.2 s (Or.inr hs) s h2 rfl

theorem Fine.apart' {L L' : List ℕ} {M : Mem} (h : Fine (L ++ L') M) {s : ℕ} (hs : s ∈ L) : s < M.objs.length ∧ s ∉ L' ++ M.pool := by
  have h1 := h.nodup
  refine ⟨h.made s (by simp [hs]), ?_⟩
  simp only [List.nodup_append, List.mem_append] at h1 ⊢
  rintro (h2 | h2)
  · exact h1.1.2.2 s hs s h2 rfl
  · exact h1.2.2 s (Or.inl hs) s h2 rfl

theorem setCells_sim {u : ℕ → Option Spline} : ∀ {as : List Arg} {xs xs' : List Cell} {ys : List Solo} {M M' : Mem}, Fine (locs xs) M →
    (∀ x ∈ xs, Plays x) → List.Forall₂ (Rel u M.objs) xs ys → setCells u as xs M = some (xs', M') →
    Shift (locs xs) M (locs xs') M' ∧ (∀ x ∈ xs', Plays x) ∧ ∃ ys', cmds (solo u) as ys = some ys' ∧ List.Forall₂ (Rel u M'.objs) xs' ys'
  | [], [], xs', ys, M, M', hf, hp, hr, h => by
    cases h
    cases hr
    exact ⟨Shift.refl hf, hp, [], rfl, .nil⟩
  | [], _ :: _, _, _, _, _, _, _, _, h => by cases h
  | _ :: _, [], _, _, _, _, _, _, _, h => by cases h
  | a :: as, x :: xs, xs'', ys, M, M', hf, hp, hr, h => by
    simp only [setCells, Option.bind_eq_some_iff, Option.map_eq_some_iff, Prod.mk.injEq] at h
    obtain ⟨⟨x', M1⟩, e1, ⟨xs', M2⟩, e2, rfl, rfl⟩ := h
    obtain ⟨y, ys, hxy, hrs, rfl⟩ : ∃ y ys', Rel u M.objs x y ∧ List.Forall₂ (Rel u M.objs) xs ys' ∧ ys = y :: ys' := by
      cases hr with
      | cons h1 h2 => exact ⟨_, _, h1, h2, rfl⟩
    rw [locs_cons] at hf
    obtain ⟨s1, p1, y', c1, r1⟩ := setCell_sim hf.left (hp x (by simp)) hxy e1
    have f1 := s1.frame (P := []) (Q := locs xs) hf
    simp only [List.nil_append] at f1
    have hrs1 : List.Forall₂ (Rel u M1.objs) xs ys := by
      have : ∀ z ∈ xs, ∀ w, Rel u M.objs z w → Rel u M1.objs z w := fun z hz w hzw =>
        hzw.keep s1 (hp z (by simp [hz])) fun s hs => hf.apart (mem_locs hz hs)
      exact (List.forall₂_iff_zip.mpr ⟨hrs.length_eq, fun {a b} hab =>
        this a (List.of_mem_zip hab).1 b ((List.forall₂_iff_zip.mp hrs).2 hab)⟩)
    obtain ⟨s2, p2, ys', c2, r2⟩ := setCells_sim f1.fine.right (fun z hz => hp z (by simp [hz])) hrs1 e2
    have f2 := s2.frame (P := x'.loc.toList) (Q := []) (by simpa using f1.fine)
    simp only [List.append_nil] at f2
    rw [locs_cons, locs_cons]
    refine ⟨f1.trans f2, ?_, y' :: ys', by simp [cmds, c1, c2], .cons ?_ r2⟩
    · intro z hz
      rcases List.mem_cons.mp hz with rfl | hz
      · exact p1
      · exact p2 z hz
    · exact r1.keep s2 p1 fun s hs => f1.fine.apart' hs

theorem cloneCells_sim {u : ℕ → Option Spline} : ∀ {xs xs' : List Cell} {ys : List Solo} {S : List ℕ} {M M' : Mem}, Fine S M →
    (∀ x ∈ xs, Plays x ∧ ∀ s ∈ x.loc.toList, s ∈ S) → List.Forall₂ (Rel u M.objs) xs ys → cloneCells u xs M = some (xs', M') →
    Shift [] M (locs xs') M' ∧ (∀ x ∈ xs', Plays x) ∧ List.Forall₂ (Rel u M'.objs) xs' ys
  | [], xs', ys, S, M, M', hf, hp, hr, h => by
    cases h
    cases hr
    exact ⟨Shift.refl (Fine.right (L := S) (by simpa using hf)), by simp, .nil⟩
  | x :: xs, xs'', ys, S, M, M', hf, hp, hr, h => by
    simp only [cloneCells, Option.bind_eq_some_iff, Option.map_eq_some_iff, Prod.mk.injEq] at h
    obtain ⟨⟨x', M1⟩, e1, ⟨xs', M2⟩, e2, rfl, rfl⟩ := h
    obtain ⟨y, ys, hxy, hrs, rfl⟩ : ∃ y ys', Rel u M.objs x y ∧ List.Forall₂ (Rel u M.objs) xs ys' ∧ ys = y :: ys' := by
      cases hr with
      | cons h1 h2 => exact ⟨_, _, h1, h2, rfl⟩
    obtain ⟨s1, p1, r1⟩ := cloneCell_sim (Fine.right (L := S) (by simpa using hf)) hxy e1
    have f1 := s1.frame (P := []) (Q := S) (by simpa using hf)
    simp only [List.nil_append] at f1
    have hrs1 : List.Forall₂ (Rel u M1.objs) xs ys := by
      have : ∀ z ∈ xs, ∀ w, Rel u M.objs z w → Rel u M1.objs z w := fun z hz w hzw =>
        hzw.keep s1 (hp z (by simp [hz])).1 fun s hs => Fine.apart (L := []) (L' := S) (by simpa using hf) ((hp z (by simp [hz])).2 s hs)
      exact (List.forall₂_iff_zip.mpr ⟨hrs.length_eq, fun {a b} hab =>
        this a (List.of_mem_zip hab).1 b ((List.forall₂_iff_zip.mp hrs).2 hab)⟩)
    obtain ⟨s2, p2, r2⟩ := cloneCells_sim f1.fine (fun z hz => ⟨(hp z (by simp [hz])).1, fun s hs => by
      simp [(hp z (by simp [hz])).2 s hs]⟩) hrs1 e2
    have f2 := s2.frame (P := x'.loc.toList) (Q := []) (by simpa using s1.fine)
    simp only [List.append_nil] at f2
    rw [locs_cons]
    refine ⟨s1.trans f2, ?_, .cons ?_ r2⟩
    · intro z hz
      rcases List.mem_cons.mp hz with rfl | hz
      · exact p1
      · exact p2 z hz
    · exact r1.keep s2 p1 fun s hs => Fine.apart (L := []) (by simpa using s1.fine) hs

/-! ### All motivators -/

/-- The indices. -/
def cellsOf (v : Option (ProcId × List Cell)) : List Cell := (v.map Prod.snd).getD []

/-- Dimension by dimension. -/
def Match (u : ℕ → Option Spline) (objs : List Spline) : Option (ProcId × List Cell) → Option (ProcId × List Solo) → Prop
  | none, none => True
  | some x, some y => x.1 = sp ∧ y.1 = sp ∧ List.Forall₂ (Rel u objs) x.2 y.2
  | _, _ => False

/-- Values with shared memory, and values by themselves. -/
structure SimV (u : ℕ → Option Spline) (v : MotId → Option (ProcId × List Cell)) (M : Mem) (t : MotId → Option (ProcId × List Solo)) : Prop where
  fine : ∀ m, Fine (locs (cellsOf (v m))) M
  apart : ∀ m m', m ≠ m' → ∀ s ∈ locs (cellsOf (v m)), s ∉ locs (cellsOf (v m'))
  plays : ∀ m, ∀ x ∈ cellsOf (v m), Plays x
  same : ∀ m, Match u M.objs (v m) (t m)

theorem Fine.join {A B : List ℕ} {M : Mem} (hA : Fine A M) (hB : Fine B M) (h : ∀ s ∈ A, s ∉ B) : Fine (A ++ B) M := by
  have h1 := hA.nodup
  have h2 := hB.nodup
  refine ⟨?_, ?_, hA.room⟩
  · simp only [List.nodup_append, List.mem_append] at h1 h2 ⊢
    refine ⟨⟨h1.1, h2.1, fun a ha b hb hab => h a ha (hab ▸ hb)⟩, h1.2.1, ?_⟩
    rintro a (ha | ha) b hb
    · exact h1.2.2 a ha b hb
    · exact h2.2.2 a ha b hb
  · intro s hs
    simp only [List.mem_append] at hs
    rcases hs with (hs | hs) | hs
    · exact hA.made s (by simp [hs])
    · exact hB.made s (by simp [hs])
    · exact hA.made s (by simp [hs])

theorem forall₂_keep {u : ℕ → Option Spline} {o o' : List Spline} {l : List Cell} {ys : List Solo} (h : List.Forall₂ (Rel u o) l ys)
    (hk : ∀ x ∈ l, ∀ y, Rel u o x y → Rel u o' x y) : List.Forall₂ (Rel u o') l ys :=
  List.forall₂_iff_zip.mpr ⟨h.length_eq, fun {a b} hab => hk a (List.of_mem_zip hab).1 b ((List.forall₂_iff_zip.mp h).2 hab)⟩

/-- One motivator is changed. -/
theorem SimV.update {u : ℕ → Option Spline} {v : MotId → Option (ProcId × List Cell)} {M M' : Mem} {t : MotId → Option (ProcId × List Solo)}
    (h : SimV u v M t) {m : MotId} {nv : Option (ProcId × List Cell)} {nt : Option (ProcId × List Solo)}
    (hs : Shift (locs (cellsOf (v m))) M (locs (cellsOf nv)) M') (hp : ∀ x ∈ cellsOf nv, Plays x) (hm : Match u M'.objs nv nt) :
    SimV u (fun x => if x = m then nv else v x) M' (fun x => if x = m then nt else t x) := by
  have hj : ∀ x, x ≠ m → Fine (locs (cellsOf (v m)) ++ locs (cellsOf (v x))) M := fun x hx =>
    (h.fine m).join (h.fine x) (h.apart m x (Ne.symm hx))
  have hf : ∀ x, x ≠ m → Fine (locs (cellsOf nv) ++ locs (cellsOf (v x))) M' := fun x hx => by
    have := hs.frame (P := []) (Q := locs (cellsOf (v x))) (by simpa using hj x hx)
    simpa using this.fine
  have hd : ∀ x, x ≠ m → ∀ s ∈ locs (cellsOf nv), s ∉ locs (cellsOf (v x)) := fun x hx s hs hs' => by
    have := ((hf x hx).apart' hs).2
    simp [hs'] at this
  refine ⟨fun x => ?_, fun x y hxy => ?_, fun x => ?_, fun x => ?_⟩
  · by_cases hx : x = m
    · simp only [if_pos hx]; exact hs.fine
    · simp only [if_neg hx]; exact (hf x hx).right
  · by_cases hx : x = m
    · have hy : y ≠ m := fun hy => hxy (hx.trans hy.symm)
      simp only [if_pos hx, if_neg hy]
      exact hd y hy
    · simp only [if_neg hx]
      by_cases hy : y = m
      · simp only [if_pos hy]
        exact fun s h1 h2 => hd x hx s h2 h1
      · simp only [if_neg hy]
        exact h.apart x y hxy
  · by_cases hx : x = m
    · simp only [if_pos hx]; exact hp
    · simp only [if_neg hx]; exact h.plays x
  · by_cases hx : x = m
    · simp only [if_pos hx]; exact hm
    · simp only [if_neg hx]
      have h1 := h.same x
      have h2 := h.plays x
      have h3 := fun s hs => (hj x hx).apart (s := s) hs
      cases hv : v x with
      | none => rw [hv] at h1; cases ht : t x <;> rw [ht] at h1 <;> exact h1
      | some a =>
        rw [hv] at h1 h2 h3
        cases ht : t x with
        | none => rw [ht] at h1; exact h1
        | some b =>
          rw [ht] at h1
          exact ⟨h1.1, h1.2.1, forall₂_keep h1.2.2 fun z hz y hzy => hzy.keep hs (h2 z hz) fun s hs => h3 s (mem_locs hz hs)⟩

/-- A motivator is moved. -/
theorem SimV.move {u : ℕ → Option Spline} {v : MotId → Option (ProcId × List Cell)} {M : Mem} {t : MotId → Option (ProcId × List Solo)}
    (h : SimV u v M t) (dst src : MotId) :
    SimV u (fun x => if x = src then none else if x = dst then v src else v x) M (fun x => if x = src then none else if x = dst then t src else t x) := by
  have hF : Fine [] M := Fine.right (L := locs (cellsOf (v dst))) (by simpa using h.fine dst)
  refine ⟨fun x => ?_, fun x y hxy => ?_, fun x => ?_, fun x => ?_⟩
  · by_cases hx : x = src
    · simp only [if_pos hx]; exact hF
    · by_cases hx' : x = dst
      · simp only [if_neg hx, if_pos hx']; exact h.fine src
      · simp only [if_neg hx, if_neg hx']; exact h.fine x
  · by_cases hx : x = src
    · simp only [if_pos hx]; intro s hs; cases hs
    · by_cases hy : y = src
      · simp only [if_pos hy]; intro s _ hs; cases hs
      · simp only [if_neg hx, if_neg hy]
        by_cases hx' : x = dst
        · have hy' : y ≠ dst := fun hy => hxy (hx'.trans hy.symm)
          simp only [if_pos hx', if_neg hy']
          exact h.apart src y (Ne.symm hy)
        · by_cases hy' : y = dst
          · simp only [if_neg hx', if_pos hy']
            exact h.apart x src hx
          · simp only [if_neg hx', if_neg hy']
            exact h.apart x y hxy
  · by_cases hx : x = src
    · simp only [if_pos hx]; intro z hz; cases hz
    · by_cases hx' : x = dst
      · simp only [if_neg hx, if_pos hx']; exact h.plays src
      · simp only [if_neg hx, if_neg hx']; exact h.plays x
  · by_cases hx : x = src
    · simp only [if_pos hx]; trivial
    · by_cases hx' : x = dst
      · simp only [if_neg hx, if_pos hx']; exact h.same src
      · simp only [if_neg hx, if_neg hx']; exact h.same x

/-- The whole processor, and values by themselves. -/
structure Sim (u : ℕ → Option Spline) (st : State) (s : Abs Solo) : Prop where
  inv : WInv st.w
  procs : st.w.view.procs = s.procs
  exist : s.procs sp = some true
  vals : SimV u st.w.view.vals st.mem s.vals

theorem Sim.proc {u : ℕ → Option Spline} {st : State} {s : Abs Solo} (h : Sim u st s) : (st.w.procs sp).isSome = true := by
  have h1 := h.exist
  rw [← h.procs] at h1
  simp only [World.view, Option.map_eq_some_iff] at h1
  obtain ⟨a, h1, -⟩ := h1
  rw [h1]; rfl

theorem gather_id {w : World Cell} (h : WInv w) (m : MotId) : gather id w m = (w.view.vals m).map Prod.snd := by
  rw [gather_eq h]
  simp

theorem cells_eq {st : State} (h : WInv st.w) (m : MotId) : st.cells m = cellsOf (st.w.view.vals m) := by
  unfold State.cells cellsOf
  rw [gather_id h]

/-- The motivator becomes invalid, and its splines go to the pool. -/
theorem SimV.free {u : ℕ → Option Spline} {st : State} {t : MotId → Option (ProcId × List Solo)} (hw : WInv st.w)
    (h : SimV u st.w.view.vals st.mem t) (m : MotId) :
    SimV u (fun x => if x = m then none else st.w.view.vals x) (st.freed m) (fun x => if x = m then none else t x) := by
  have : st.freed m = ⟨st.mem.pool ++ locs (cellsOf (st.w.view.vals m)), st.mem.objs⟩ := by
    unfold State.freed locs
    rw [cells_eq hw]
  rw [this]
  exact h.update (nv := none) (nt := none) (free_shift (h.fine m)) (by intro x hx; cases hx) trivial

theorem advance_sim {u : ℕ → Option Spline} {objs : List Spline} {x x' : Cell} {y : Solo} {dt : ℝ} (hr : Rel u objs x y)
    (h : ((x.slot.advance (memory u objs) dt).map fun c => (⟨x.loc, c⟩ : Cell)) = some x') :
    x'.loc = x.loc ∧ x'.slot.spline = x.slot.spline ∧ ∃ y', (solo u).frame dt y = some y' ∧ Rel u objs x' y' := by
  rw [Option.map_eq_some_iff] at h
  obtain ⟨c, e1, rfl⟩ := h
  obtain ⟨d', e2, e3⟩ := SameSlot.advance hr dt e1
  refine ⟨rfl, ?_, ⟨d', y.own⟩, by simp only [solo, e2, Option.map_some], e3⟩
  unfold Slot.advance at e1
  obtain ⟨c1, h1, rfl⟩ := Option.map_eq_some_iff.mp e1
  simp only at h1
  show c1.spline = _
  split_ifs at h1 with hpast
  · obtain ⟨x, hX, hi⟩ := Option.bind_eq_some_iff.mp h1
    exact (initCubic_source hi).1
  · cases h1; rfl

/-- The values in a frame. -/
theorem frame_list {u : ℕ → Option Spline} {objs : List Spline} {dt : ℝ} : ∀ {l : List Cell} {ys : List Solo}, List.Forall₂ (Rel u objs) l ys →
    (∀ x ∈ l, ((x.slot.advance (memory u objs) dt).map fun c => (⟨x.loc, c⟩ : Cell)).isSome) → (∀ x ∈ l, Plays x) →
    (∀ y ∈ ys, ((solo u).frame dt y).isSome) ∧
    locs (l.map fun x => ((x.slot.advance (memory u objs) dt).map fun c => (⟨x.loc, c⟩ : Cell)).getD x) = locs l ∧
    (∀ x ∈ l.map fun x => ((x.slot.advance (memory u objs) dt).map fun c => (⟨x.loc, c⟩ : Cell)).getD x, Plays x) ∧
    List.Forall₂ (Rel u objs) (l.map fun x => ((x.slot.advance (memory u objs) dt).map fun c => (⟨x.loc, c⟩ : Cell)).getD x)
      (ys.map fun y => ((solo u).frame dt y).getD y)
  | _, _, .nil, _, _ => by
    refine ⟨by simp, rfl, by simp, .nil⟩
  | x :: l, y :: ys, .cons h1 h2, hs, hp => by
    obtain ⟨i1, i2, i3, i4⟩ := frame_list h2 (fun z hz => hs z (by simp [hz])) (fun z hz => hp z (by simp [hz]))
    obtain ⟨x', hx⟩ := Option.isSome_iff_exists.mp (hs x (by simp))
    obtain ⟨a1, a2, y', a3, a4⟩ := advance_sim h1 hx
    refine ⟨?_, ?_, ?_, ?_⟩
    · intro z hz
      rcases List.mem_cons.mp hz with rfl | hz
      · rw [a3]; rfl
      · exact i1 z hz
    · rw [List.map_cons, locs_cons, locs_cons, i2, hx]
      show x'.loc.toList ++ _ = _
      rw [a1]
    · intro z hz
      rw [List.map_cons, List.mem_cons] at hz
      rcases hz with rfl | hz
      · rw [hx]
        intro a ha hodd
        show x'.loc = _
        rw [a1]
        exact hp x (by simp) a (by rw [← a2]; exact ha) hodd
      · exact i3 z hz
    · rw [List.map_cons, List.map_cons, hx, a3]
      exact .cons a4 i4

theorem overwrite_cmds : ∀ (ks l : List Cell), ks.length = l.length → cmds overwrite ks l = some ks
  | [], [], _ => rfl
  | k :: ks, d :: l, h => by
    have ih := overwrite_cmds ks l (by simpa using h)
    simp only [cmds, ih]
    rfl
  | [], _ :: _, h => by cases h
  | _ :: _, [], h => by cases h

theorem fresh_list (u : ℕ → Option Spline) (objs : List Spline) (r : Range ℝ) : ∀ left : List Slot,
    locs (left.map fun c => (⟨none, fresh r c⟩ : Cell)) = [] ∧ (∀ x ∈ left.map fun c => (⟨none, fresh r c⟩ : Cell), Plays x) ∧
    List.Forall₂ (Rel u objs) (left.map fun c => (⟨none, fresh r c⟩ : Cell)) (left.map fun c => (⟨fresh r c, none⟩ : Solo))
  | [] => ⟨rfl, by simp, .nil⟩
  | c :: left => by
    obtain ⟨h1, h2, h3⟩ := fresh_list u objs r left
    refine ⟨by rw [List.map_cons, locs_cons, h1]; rfl, ?_, ?_⟩
    · intro x hx
      rw [List.map_cons, List.mem_cons] at hx
      rcases hx with rfl | hx
      · intro a ha
        cases (show (none : Option ℕ) = some a from ha)
      · exact h2 x hx
    · rw [List.map_cons, List.map_cons]
      exact .cons ⟨trivial, rfl⟩ h3

theorem SimV.congr {u : ℕ → Option Spline} {v v' : MotId → Option (ProcId × List Cell)} {M : Mem} {t t' : MotId → Option (ProcId × List Solo)}
    (h : SimV u v M t) (hv : ∀ m, v' m = v m) (ht : ∀ m, t' m = t m) : SimV u v' M t' := by
  rw [show v' = v from funext hv, show t' = t from funext ht]
  exact h

/-- Every call on the processor is the same call on values by themselves. -/
theorem step_sim {u : ℕ → Option Spline} {st st' : State} {s : Abs Solo} {act : Act} (h : Sim u st s) (hs : step u st act = some st') :
    ∃ s', absCall (solo u) act.call s = some s' ∧ Sim u st' s' := by
  match act with
  | .initialize m r left =>
    simp only [step] at hs
    split_ifs at hs with hl
    rw [Option.map_eq_some_iff] at hs
    obtain ⟨w, e1, rfl⟩ := hs
    obtain ⟨w', f1, f2, f3⟩ := initialize_spec h.inv (m := m) (p := sp) (vals := left.map fun c => (⟨none, fresh r c⟩ : Cell)) h.proc (by simpa using hl)
    rw [e1] at f1
    cases f1
    refine ⟨s.set m (some (sp, left.map fun c => ⟨fresh r c, none⟩)), ?_, ⟨f2, by rw [f3]; exact h.procs, h.exist, ?_⟩⟩
    · show absCall _ (.initialize _ _ _) _ = _
      simp only [absCall]
      rw [if_pos ⟨by rw [h.exist]; rfl, by simpa using hl⟩]
    · have h1 := h.vals.free h.inv m
      obtain ⟨g1, g2, g3⟩ := fresh_list u (st.freed m).objs r left
      have h2 := h1.update (m := m) (nv := some (sp, left.map fun c => (⟨none, fresh r c⟩ : Cell)))
        (nt := some (sp, left.map fun c => ⟨fresh r c, none⟩)) (M' := st.freed m) (by
          have h3 := h1.fine m
          simp only [if_true] at h3 ⊢
          show Shift _ _ (locs (left.map _)) _
          rw [g1]
          exact Shift.refl h3) g2 ⟨rfl, rfl, g3⟩
      refine h2.congr (fun x => ?_) (fun x => ?_)
      · rw [f3]; simp only [Abs.set]; split_ifs <;> rfl
      · simp only [Abs.set]; split_ifs <;> rfl
  | .invalidate m =>
    simp only [step, Option.map_eq_some_iff] at hs
    obtain ⟨w, e1, rfl⟩ := hs
    obtain ⟨w', f1, f2, -, f3⟩ := invalidate_spec h.inv m
    rw [e1] at f1
    cases f1
    refine ⟨s.set m none, rfl, ⟨f2, by rw [f3]; exact h.procs, h.exist, ?_⟩⟩
    exact (h.vals.free h.inv m).congr (fun x => by rw [f3]; rfl) (fun x => rfl)
  | .moveAssign dst src =>
    simp only [step, Option.map_eq_some_iff] at hs
    obtain ⟨w, e1, rfl⟩ := hs
    obtain ⟨w', f1, f2, f3⟩ := moveAssign_spec h.inv dst src
    rw [e1] at f1
    cases f1
    have h1 := h.vals.free h.inv dst
    by_cases hds : dst = src
    · rw [if_pos hds] at f3
      refine ⟨s.set dst none, ?_, ⟨f2, by rw [f3]; exact h.procs, h.exist, h1.congr (fun x => by rw [f3]; rfl) (fun x => rfl)⟩⟩
      show some (absStep (.moveAssign dst src) s) = _
      simp only [absStep, if_pos hds]
    · rw [if_neg hds] at f3
      refine ⟨(s.set dst (s.vals src)).set src none, ?_, ⟨f2, by rw [f3]; exact h.procs, h.exist, ?_⟩⟩
      · show some (absStep (.moveAssign dst src) s) = _
        simp only [absStep, if_neg hds]
      · have hsd : src ≠ dst := Ne.symm hds
        refine (h1.move dst src).congr (fun x => ?_) (fun x => ?_)
        · rw [f3]; simp only [Abs.set, if_neg hsd]; split_ifs <;> rfl
        · simp only [Abs.set, if_neg hsd]; split_ifs <;> rfl
  | .moveConstruct dst src =>
    simp only [step] at hs
    split_ifs at hs with hc
    rw [Option.map_eq_some_iff] at hs
    obtain ⟨w, e1, rfl⟩ := hs
    have hd : st.w.mots dst = none := by simpa [World.valid] using hc.2
    obtain ⟨w', f1, f2, f3⟩ := moveConstruct_spec h.inv (dst := dst) (src := src) hd
    rw [e1] at f1
    cases f1
    have hsn : s.vals dst = none := by
      have := h.vals.same dst
      rw [view_none hd] at this
      cases ht : s.vals dst with
      | none => rfl
      | some _ => rw [ht] at this; cases this
    refine ⟨(s.set dst (s.vals src)).set src none, ?_, ⟨f2, by rw [f3]; exact h.procs, h.exist, ?_⟩⟩
    · show absCall _ (.moveConstruct dst src) s = _
      simp only [absCall]
      rw [if_pos ⟨hc.1, hsn⟩]
    · exact (h.vals.move dst src).congr (fun x => by rw [f3]; rfl) (fun x => rfl)
  | .cloneFrom dst src =>
    simp only [step, Option.bind_eq_some_iff] at hs
    obtain ⟨w1, e1, hs⟩ := hs
    obtain ⟨w', f1, f2, -, f3⟩ := invalidate_spec h.inv dst
    rw [e1] at f1
    cases f1
    have h1 : Sim u ⟨w1, st.freed dst⟩ (s.set dst none) :=
      ⟨f2, by rw [f3]; exact h.procs, h.exist, (h.vals.free h.inv dst).congr (fun x => by rw [f3]; rfl) (fun x => rfl)⟩
    cases src with
    | none =>
      cases hs
      exact ⟨s.set dst none, rfl, h1⟩
    | some src =>
      simp only [Option.bind_some] at hs
      rw [gather_id f2] at hs
      have hm := h1.vals.same src
      show ∃ s', some (absStep (.cloneFrom dst (some src)) s) = some s' ∧ _
      simp only [absStep]
      cases hv : w1.view.vals src with
      | none =>
        rw [hv] at hs hm
        cases hs
        refine ⟨s.set dst none, ?_, h1⟩
        by_cases hds : dst = src
        · rw [if_pos hds]
        · rw [if_neg hds]
          have : s.vals src = none := by
            have e : (s.set dst none).vals src = s.vals src := by simp only [Abs.set, if_neg (Ne.symm hds)]
            rw [e] at hm
            cases ht : s.vals src with
            | none => rfl
            | some _ => rw [ht] at hm; cases hm
          rw [this]
      | some x =>
        obtain ⟨p, l⟩ := x
        have hds : dst ≠ src := by
          rintro rfl
          rw [f3] at hv
          simp [Abs.set] at hv
        rw [hv] at hs
        simp only [Option.map_some, Option.bind_eq_some_iff, Option.map_eq_some_iff] at hs
        obtain ⟨⟨xs', M2⟩, e2, w2, e3, rfl⟩ := hs
        have e : (s.set dst none).vals src = s.vals src := by simp only [Abs.set, if_neg (Ne.symm hds)]
        rw [hv, e] at hm
        cases ht : s.vals src with
        | none => rw [ht] at hm; cases hm
        | some y =>
          obtain ⟨q, ys⟩ := y
          rw [ht] at hm
          obtain ⟨rfl, rfl, hm⟩ := hm
          have hfi := h1.vals.fine src
          have hpl := h1.vals.plays src
          rw [hv] at hfi hpl
          obtain ⟨c1, c2, c3⟩ := cloneCells_sim (S := locs l) hfi (fun x hx => ⟨hpl x hx, fun s hs => mem_locs hx hs⟩) hm e2
          have hlen : 0 < xs'.length := by
            rw [c3.length_eq, ← hm.length_eq]
            exact vals_pos f2 hv
          obtain ⟨w3, g1, g2, g3⟩ := initialize_spec f2 (m := dst) (p := sp) (vals := xs') h1.proc hlen
          rw [e3] at g1
          cases g1
          rw [if_neg hds]
          simp only [h.exist, if_true]
          refine ⟨_, rfl, ⟨g2, by rw [g3]; exact h1.procs, h.exist, ?_⟩⟩
          have h2 := h1.vals.update (m := dst) (nv := some (sp, xs')) (nt := some (sp, ys)) (M' := M2) (by
            rw [f3]
            simpa [Abs.set, cellsOf, locs] using c1) c2 ⟨rfl, rfl, c3⟩
          refine h2.congr (fun x => ?_) (fun x => ?_)
          · rw [g3]; rfl
          · simp only [Abs.set]; split_ifs <;> rfl
  | .set m args =>
    simp only [step, Option.bind_eq_some_iff, Option.map_eq_some_iff] at hs
    obtain ⟨l, e1, ⟨xs', M2⟩, e2, w, e3, rfl⟩ := hs
    rw [gather_id h.inv, Option.map_eq_some_iff] at e1
    obtain ⟨⟨p, l'⟩, hv, rfl⟩ := e1
    have hm := h.vals.same m
    have hfi := h.vals.fine m
    have hpl := h.vals.plays m
    rw [hv] at hm hfi hpl
    cases ht : s.vals m with
    | none => rw [ht] at hm; cases hm
    | some y =>
      obtain ⟨q, ys⟩ := y
      rw [ht] at hm
      obtain ⟨rfl, rfl, hm⟩ := hm
      obtain ⟨c1, c2, ys', c3, c4⟩ := setCells_sim hfi hpl hm e2
      have hlen : xs'.length = l'.length := by
        rw [c4.length_eq, (cmds_length c3).2, hm.length_eq]
      have g := set_spec overwrite h.inv hv hlen
      rw [overwrite_cmds xs' l' hlen] at g
      obtain ⟨w', g1, g2, g3⟩ := g
      rw [e3] at g1
      cases g1
      refine ⟨s.set m (some (sp, ys')), ?_, ⟨g2, by rw [g3]; exact h.procs, h.exist, ?_⟩⟩
      · show (s.vals m).bind _ = _
        rw [ht]
        simp only [Option.bind_some, c3, Option.map_some]
      · have h2 := h.vals.update (m := m) (nv := some (sp, xs')) (nt := some (sp, ys')) (M' := M2) (by rw [hv]; exact c1) c2 ⟨rfl, rfl, c4⟩
        exact h2.congr (fun x => by rw [g3]; rfl) (fun x => rfl)
  | .frame dt =>
    simp only [step, Option.map_eq_some_iff] at hs
    obtain ⟨w, e1, rfl⟩ := hs
    obtain ⟨a1, a2⟩ := advanceM_spec h.inv (p := sp) h.proc fun x : Cell => (x.slot.advance (memory u st.mem.objs) dt).map fun c => (⟨x.loc, c⟩ : Cell)
    have hall := a1.mp ⟨w, e1⟩
    obtain ⟨g2, g3⟩ := a2 w e1
    have key := fun (m : MotId) (x : ProcId × List Cell) (ys : ProcId × List Solo) (hx : st.w.view.vals m = some x) (hy : s.vals m = some ys) =>
      have hm : Match u st.mem.objs (some x) (some ys) := by rw [← hx, ← hy]; exact h.vals.same m
      And.intro hm.1 (And.intro hm.2.1 (frame_list (dt := dt) hm.2.2 (hall m x.2 (by rw [hx, ← hm.1]))
        (fun z hz => h.vals.plays m z (by rw [hx]; exact hz))))
    have hmn : ∀ m, s.vals m = none ↔ st.w.view.vals m = none := fun m => by
      have hm := h.vals.same m
      cases hx : st.w.view.vals m <;> cases hy : s.vals m <;> rw [hx, hy] at hm <;> first | exact hm.elim | simp
    refine ⟨absStep (.advance sp fun y => ((solo u).frame dt y).getD y) s, ?_, ⟨g2, ?_, ?_, ?_⟩⟩
    · show absCall _ (.frame sp dt) s = _
      simp only [absCall]
      rw [if_pos]
      refine ⟨by rw [h.exist]; rfl, fun m ys hy => ?_⟩
      cases hx : st.w.view.vals m with
      | none => rw [(hmn m).mpr hx] at hy; cases hy
      | some x => exact (key m x _ hx hy).2.2.1
    · rw [g3]
      have h1 : (st.w.view.procs sp).isSome = true := by rw [h.procs, h.exist]; rfl
      have h2 : (s.procs sp).isSome = true := by rw [h.exist]; rfl
      simp only [absStep, h1, h2, if_true]
      exact h.procs
    · have h2 : (s.procs sp).isSome = true := by rw [h.exist]; rfl
      simp only [absStep, h2, if_true]
      exact h.exist
    · have h1 : (st.w.view.procs sp).isSome = true := by rw [h.procs, h.exist]; rfl
      have h2 : (s.procs sp).isSome = true := by rw [h.exist]; rfl
      rw [g3]
      simp only [absStep, h1, h2, if_true]
      have hlo : ∀ m, locs (cellsOf ((st.w.view.vals m).map fun x => if x.1 = sp then (x.1, x.2.map fun x =>
          ((x.slot.advance (memory u st.mem.objs) dt).map fun c => (⟨x.loc, c⟩ : Cell)).getD x) else x)) = locs (cellsOf (st.w.view.vals m)) := by
        intro m
        cases hx : st.w.view.vals m with
        | none => rfl
        | some x =>
          cases hy : s.vals m with
          | none => rw [(hmn m).mp hy] at hx; cases hx
          | some ys =>
            obtain ⟨k1, k2, k3, k4, k5, k6⟩ := key m x ys hx hy
            simp only [Option.map_some, if_pos k1]
            exact k4
      refine ⟨fun m => by rw [hlo]; exact h.vals.fine m, fun m m' hmm => by rw [hlo, hlo]; exact h.vals.apart m m' hmm, fun m => ?_, fun m => ?_⟩
      · cases hx : st.w.view.vals m with
        | none => intro x hx; cases hx
        | some x =>
          cases hy : s.vals m with
          | none => rw [(hmn m).mp hy] at hx; cases hx
          | some ys =>
            obtain ⟨k1, k2, k3, k4, k5, k6⟩ := key m x ys hx hy
            simp only [Option.map_some, if_pos k1]
            exact k5
      · cases hx : st.w.view.vals m with
        | none => rw [(hmn m).mpr hx]; trivial
        | some x =>
          cases hy : s.vals m with
          | none => rw [(hmn m).mp hy] at hx; cases hx
          | some ys =>
            obtain ⟨k1, k2, k3, k4, k5, k6⟩ := key m x ys hx hy
            simp only [Option.map_some, if_pos k1, if_pos k2]
            exact ⟨k1, k2, k6⟩

theorem start_sim (u : ℕ → Option Spline) : ∃ s, absRunFrom (solo u) Abs.empty [.create sp ⟨{}, none⟩ true] = some s ∧ Sim u start s := by
  obtain ⟨w, h1, h2, h3⟩ := create_spec (winv_empty : WInv (World.empty : World Cell)) sp ⟨none, {}⟩ true
  have e : some w = some start.w := by
    rw [← h1]
    rfl
  cases e
  refine ⟨absStep (.create sp ⟨{}, none⟩ true) Abs.empty, rfl, ⟨h2, ?_, rfl, ?_⟩⟩
  · rw [h3]; rfl
  · rw [h3]
    refine ⟨fun m => ⟨.nil, (by intro s hs; cases hs), (by intro o ho; cases ho)⟩, ?_, ?_, ?_⟩
    · intro m m' _ s hs; cases hs
    · intro m x hx; cases hx
    · intro m; trivial

theorem run_sim {u : ℕ → Option Spline} : ∀ (acts : List Act) {st st' : State} {s : Abs Solo}, Sim u st s → acts.foldlM (step u) st = some st' →
    ∃ s', absRunFrom (solo u) s (acts.map Act.call) = some s' ∧ Sim u st' s'
  | [], st, st', s, h, hr => by
    cases hr
    exact ⟨s, rfl, h⟩
  | a :: acts, st, st', s, h, hr => by
    rw [List.foldlM_cons] at hr
    obtain ⟨st1, h1, h2⟩ := Option.bind_eq_some_iff.mp hr
    obtain ⟨s1, e1, e2⟩ := step_sim h h1
    obtain ⟨s2, e3, e4⟩ := run_sim acts e2 h2
    refine ⟨s2, ?_, e4⟩
    unfold absRunFrom at e3 ⊢
    rw [List.map_cons, List.foldlM_cons, e1]
    exact e3

/-- The processor simulates values by themselves. -/
theorem sim {u : ℕ → Option Spline} {acts : List Act} {st : State} (h : run u acts = some st) :
    ∃ s, absRunFrom (solo u) Abs.empty (calls acts) = some s ∧ Sim u st s := by
  obtain ⟨s0, h1, h2⟩ := start_sim u
  obtain ⟨s, h3, h4⟩ := run_sim acts h2 h
  refine ⟨s, ?_, h4⟩
  have := absRunFrom_append (solo u) Abs.empty [.create sp ⟨{}, none⟩ true] (acts.map Act.call)
  rw [h1] at this
  exact this.trans h3

theorem reads_same {h h' : Heap} {c c' : Slot} (H : SameSlot h h' c c') : reads h' c' = reads h c := by
  obtain ⟨r1, r2, r3, r4⟩ := SameSlot.reads H
  have h1 : ∀ {β : Type} (f : Spline → Option β), (∀ s m, f { s with maxNodes := m } = f s) →
      (c'.spline.bind fun id => (h' id).bind f) = c.spline.bind fun id => (h id).bind f := by
    intro β f hf
    have := H.1
    cases hi : c.spline with
    | none => cases hj : c'.spline with
      | none => rfl
      | some j => rw [hi, hj] at this; exact this.elim
    | some i => cases hj : c'.spline with
      | none => rw [hi, hj] at this; exact this.elim
      | some j =>
        rw [hi, hj] at this
        obtain ⟨s, m, e1, e2⟩ := this
        simp only [Option.bind_some, e1, e2, hf]
  have e1 : targetValue h' c' = targetValue h c := h1 _ fun _ _ => rfl
  have e2 : targetVelocity h' c' = targetVelocity h c := by
    unfold targetVelocity
    rw [r4]
    exact h1 _ fun _ _ => rfl
  have e3 : ∀ y, c'.normalizeY y = c.normalizeY y := fun y => by rw [H.2]; rfl
  have e4 : SplineProc.targetTime h' c' = SplineProc.targetTime h c := by
    unfold SplineProc.targetTime
    rw [r3, h1 (fun s => s.endX) fun _ _ => rfl]
  have e5 : c'.rawDerivative = c.rawDerivative := by rw [H.2]; rfl
  unfold reads
  simp only [Reads.mk.injEq]
  refine ⟨r1, r2, e5, e1, e2, ?_, e4, ?_, (same_but H).2⟩
  · unfold difference
    rw [e1, r1]
    simp only [e3]
  · unfold splineTime
    rw [r3]

/-- C111. After any calls, a motivator is valid exactly when its life says so, and all that can be read from each of its dimensions is what can be read
from a single value with a spline of its own to which the same things happened: recycled splines, other motivators and moves do not matter. -/
theorem C111_life (u : ℕ → Option Spline) {acts : List Act} {st : State} (h : run u acts = some st) (m : MotId) :
    (life (calls acts).reverse m = none → st.w.valid m = false ∧ st.read u m = none) ∧
    ∀ L, life (calls acts).reverse m = some L →
      st.w.valid m = true ∧ st.w.dimensions m = some L.start.length ∧
      ∃ l, st.read u m = some l ∧ l.length = L.start.length ∧
        ∀ k d, L.start[k]? = some d → ∃ d', replay (solo u) d (eventsOf k L.events) = some d' ∧ l[k]? = some (reads (soloMem u d'.own) d'.slot) := by
  obtain ⟨s, h1, h2⟩ := sim h
  have ht := (told_run (calls acts).reverse (by simpa using h1)).2 m
  have hm := h2.vals.same m
  have hval : st.w.valid m = (st.w.view.vals m).isSome := by
    cases hv : st.w.view.vals m with
    | none => simpa [World.valid] using (view_none_iff h2.inv).mp hv
    | some x =>
      obtain ⟨pr, pre, post, h1, -⟩ := slots h2.inv (p := x.1) (l := x.2) hv
      simp [World.valid, h1]
  constructor
  · intro hL
    rw [hL] at ht
    rw [Told.vals_none ht] at hm
    cases hv : st.w.view.vals m with
    | none => exact ⟨by rw [hval, hv]; rfl, by unfold State.read; rw [gather_eq h2.inv, hv]; rfl⟩
    | some _ => rw [hv] at hm; exact hm.elim
  · intro L hL
    rw [hL] at ht
    obtain ⟨ys, t1, t2, t3⟩ := ht
    rw [t1] at hm
    cases hv : st.w.view.vals m with
    | none => rw [hv] at hm; exact hm.elim
    | some x =>
      rw [hv] at hm
      obtain ⟨-, -, hm⟩ := hm
      have hlen : x.2.length = L.start.length := by rw [hm.length_eq, t2]
      refine ⟨by rw [hval, hv]; rfl, by rw [dimensions_eq h2.inv, hv]; simp [hlen], x.2.map fun x => reads (memory u st.mem.objs) x.slot, ?_,
        by simp [hlen], ?_⟩
      · unfold State.read
        rw [gather_eq h2.inv, hv]
        rfl
      · intro k d hd
        obtain ⟨d', e1, e2⟩ := t3 k d hd
        refine ⟨d', e1, ?_⟩
        have hk : k < x.2.length := by
          rw [hlen]
          exact (List.getElem?_eq_some_iff.mp hd).1
        have hk' : k < ys.length := by rw [← hm.length_eq]; exact hk
        have hr := (List.forall₂_iff_get.mp hm).2 k hk hk'
        rw [List.getElem?_eq_getElem hk', Option.some.injEq] at e2
        rw [List.getElem?_map, List.getElem?_eq_getElem hk]
        simp only [Option.map_some, Option.some.injEq]
        rw [← e2]
        exact (reads_same hr).symm

/-- C111. Two motivators with the same life read the same, in whatever programs they are. -/
theorem C111_same_life (u : ℕ → Option Spline) {acts acts' : List Act} {st st' : State} (h : run u acts = some st) (h' : run u acts' = some st')
    {m m' : MotId} {L L' : Life Solo Arg ℝ} (hL : life (calls acts).reverse m = some L) (hL' : life (calls acts').reverse m' = some L')
    (hs : L.start = L'.start) (he : L.events = L'.events) : st.read u m = st'.read u m' := by
  obtain ⟨-, -, l, a1, a2, a3⟩ := (C111_life u h m).2 L hL
  obtain ⟨-, -, l', b1, b2, b3⟩ := (C111_life u h' m').2 L' hL'
  rw [a1, b1]
  congr 1
  refine List.ext_getElem? fun k => ?_
  cases hk : L.start[k]? with
  | none =>
    rw [List.getElem?_eq_none_iff] at hk
    rw [List.getElem?_eq_none (by omega), List.getElem?_eq_none (by rw [b2, ← hs]; exact hk)]
  | some d =>
    obtain ⟨d', c1, c2⟩ := a3 k d hk
    obtain ⟨d'', f1, f2⟩ := b3 k d (hs ▸ hk)
    rw [he, f1] at c1
    cases c1
    rw [c2, f2]

/-! ### Failures -/

/-- The splines of the caller are in order, and have room for as many nodes as those of the processor. -/
def Roomy (u : ℕ → Option Spline) : Prop := ∀ e s, u e = some s → s.nodes.length ≤ s.maxNodes ∧ kDefaultMaxNodes ≤ s.maxNodes

/-- A `MotiveTarget1f` has at most three nodes (target.h:101, 174). -/
def Act.Small : Act → Prop
  | .set _ args => ∀ t, Arg.target t ∈ args → t.nodes.length ≤ 3
  | _ => True

/-- All splines of the processor are that large. -/
def Large (M : Mem) : Prop := ∀ o ∈ M.objs, kDefaultMaxNodes ≤ o.maxNodes

theorem allocate_large {M : Mem} (h : Large M) {n : ℕ} (hn : kDefaultMaxNodes ≤ n) : Large (M.allocate n).2 := by
  unfold Mem.allocate
  split
  · exact h
  · intro o ho
    rw [List.mem_append, List.mem_singleton] at ho
    rcases ho with ho | rfl
    · exact h o ho
    · exact hn

theorem local_large {M : Mem} (h : Large M) (x : Cell) : Large (M.localSpline x).2 := by
  unfold Mem.localSpline
  split
  · exact h
  · exact allocate_large h (le_refl _)

theorem write_large {M : Mem} (h : Large M) {o : Spline} (ho : kDefaultMaxNodes ≤ o.maxNodes) (s : ℕ) : Large ⟨M.pool, M.objs.set s o⟩ := by
  intro p hp
  rcases List.mem_or_eq_of_mem_set hp with h1 | rfl
  · exact h p h1
  · exact ho

theorem setCell_large {u : ℕ → Option Spline} {M M' : Mem} {x x' : Cell} {a : Arg} (h : Large M) (hs : setCell u M x a = some (x', M')) : Large M' := by
  cases a with
  | target t =>
    simp only [setCell, Option.bind_eq_some_iff, Option.map_eq_some_iff, Prod.mk.injEq] at hs
    obtain ⟨o, e0, s, e1, c, e2, rfl, rfl⟩ := hs
    have h1 := local_large h x
    refine write_large h1 ?_ _
    rw [(targetSpline_room e1 (Spline.create (t.nodes.length + 1)) (le_refl _)).2]
    exact h1 o (List.mem_of_getElem? e0)
  | play e p =>
    simp only [setCell, Option.map_eq_some_iff, Prod.mk.injEq] at hs
    obtain ⟨c, -, -, rfl⟩ := hs
    exact h
  | clear =>
    simp only [setCell, Option.some.injEq, Prod.mk.injEq] at hs
    obtain ⟨-, rfl⟩ := hs
    exact h
  | time t =>
    simp only [setCell, Option.map_eq_some_iff, Prod.mk.injEq] at hs
    obtain ⟨c, -, -, rfl⟩ := hs
    exact h
  | rate r =>
    simp only [setCell, Option.some.injEq, Prod.mk.injEq] at hs
    obtain ⟨-, rfl⟩ := hs
    exact h
  | repeating r =>
    simp only [setCell, Option.some.injEq, Prod.mk.injEq] at hs
    obtain ⟨-, rfl⟩ := hs
    exact h

theorem setCells_large {u : ℕ → Option Spline} : ∀ {as : List Arg} {xs xs' : List Cell} {M M' : Mem}, Large M → setCells u as xs M = some (xs', M') →
    Large M'
  | [], [], _, _, _, h, hs => by cases hs; exact h
  | [], _ :: _, _, _, _, _, h => by cases h
  | _ :: _, [], _, _, _, _, h => by cases h
  | a :: as, x :: xs, _, M, _, h, hs => by
    simp only [setCells, Option.bind_eq_some_iff, Option.map_eq_some_iff, Prod.mk.injEq] at hs
    obtain ⟨⟨x', M1⟩, e1, ⟨xs', M2⟩, e2, rfl, rfl⟩ := hs
    exact setCells_large (setCell_large h e1) e2

theorem memory_large {u : ℕ → Option Spline} (hu : Roomy u) {M : Mem} (h : Large M) {a : ℕ} {s : Spline} (e : memory u M.objs a = some s) :
    kDefaultMaxNodes ≤ s.maxNodes := by
  unfold memory at e
  split at e
  · exact (hu _ _ e).2
  · exact h s (List.mem_of_getElem? e)

theorem cloneCell_large {u : ℕ → Option Spline} (hu : Roomy u) {M M' : Mem} {x x' : Cell} (h : Large M) (hs : cloneCell u M x = some (x', M')) :
    Large M' := by
  simp only [cloneCell, Option.bind_eq_some_iff, Option.map_eq_some_iff, Prod.mk.injEq] at hs
  obtain ⟨a, e1, s, e2, o, e3, t, e4, -, rfl⟩ := hs
  have h1 := allocate_large h (memory_large hu h e2)
  refine write_large h1 ?_ _
  unfold Spline.assign at e4
  split at e4
  · cases e4
    exact h1 o (List.mem_of_getElem? e3)
  · cases e4

theorem cloneCells_large {u : ℕ → Option Spline} (hu : Roomy u) : ∀ {xs xs' : List Cell} {M M' : Mem}, Large M → cloneCells u xs M = some (xs', M') →
    Large M'
  | [], _, _, _, h, hs => by cases hs; exact h
  | x :: xs, _, M, _, h, hs => by
    simp only [cloneCells, Option.bind_eq_some_iff, Option.map_eq_some_iff, Prod.mk.injEq] at hs
    obtain ⟨⟨x', M1⟩, e1, ⟨xs', M2⟩, e2, rfl, rfl⟩ := hs
    exact cloneCells_large hu (cloneCell_large hu h e1) e2

theorem step_large {u : ℕ → Option Spline} (hu : Roomy u) {st st' : State} {act : Act} (h : Large st.mem) (hs : step u st act = some st') :
    Large st'.mem := by
  match act with
  | .initialize m r left =>
    simp only [step] at hs
    split_ifs at hs
    obtain ⟨w, -, rfl⟩ := Option.map_eq_some_iff.mp hs
    exact h
  | .invalidate m =>
    obtain ⟨w, -, rfl⟩ := Option.map_eq_some_iff.mp hs
    exact h
  | .moveAssign dst src =>
    obtain ⟨w, -, rfl⟩ := Option.map_eq_some_iff.mp hs
    exact h
  | .moveConstruct dst src =>
    simp only [step] at hs
    split_ifs at hs
    obtain ⟨w, -, rfl⟩ := Option.map_eq_some_iff.mp hs
    exact h
  | .cloneFrom dst src =>
    simp only [step, Option.bind_eq_some_iff] at hs
    obtain ⟨w1, -, hs⟩ := hs
    split at hs
    · cases hs; exact h
    · simp only [Option.bind_eq_some_iff, Option.map_eq_some_iff] at hs
      obtain ⟨⟨xs, M⟩, e1, w, -, rfl⟩ := hs
      exact cloneCells_large hu (M := st.freed dst) h e1
  | .set m args =>
    simp only [step, Option.bind_eq_some_iff, Option.map_eq_some_iff] at hs
    obtain ⟨l, -, ⟨xs', M2⟩, e2, w, -, rfl⟩ := hs
    exact setCells_large h e2
  | .frame dt =>
    obtain ⟨w, -, rfl⟩ := Option.map_eq_some_iff.mp hs
    exact h

theorem run_large {u : ℕ → Option Spline} (hu : Roomy u) {acts : List Act} {st : State} (h : run u acts = some st) : Large st.mem := by
  have key : ∀ (acts : List Act) {st st' : State}, Large st.mem → acts.foldlM (step u) st = some st' → Large st'.mem := by
    intro acts
    induction acts with
    | nil => intro st st' h hr; cases hr; exact h
    | cons a acts ih =>
      intro st st' h hr
      rw [List.foldlM_cons] at hr
      obtain ⟨st1, h1, h2⟩ := Option.bind_eq_some_iff.mp hr
      exact ih (step_large hu h h1) h2
  exact key acts (by intro o ho; cases ho) h

theorem setCell_total {u : ℕ → Option Spline} {M : Mem} {x : Cell} {y y' : Solo} {a : Arg} (hf : Fine x.loc.toList M) (hl : Large M)
    (ha : ∀ t, a = .target t → t.nodes.length ≤ 3) (hr : Rel u M.objs x y) (h : (solo u).cmd a y = some y') : ∃ r, setCell u M x a = some r := by
  have hr' := same_symm hr
  cases a with
  | target t =>
    obtain ⟨h1, o, h2, -⟩ := local_shift hf
    have ho : kDefaultMaxNodes ≤ o.maxNodes := local_large hl x o (List.mem_of_getElem? h2)
    simp only [solo, Option.bind_eq_some_iff, Option.map_eq_some_iff] at h
    obtain ⟨s, e1, c, e2, rfl⟩ := h
    have hb := same_but hr'
    obtain ⟨e3, -⟩ := targetSpline_room e1 o (by have := ha t rfl; unfold kDefaultMaxNodes at ho; omega)
    rw [← targetSpline_but hb] at e3
    have hlt : (M.localSpline x).1 < (M.localSpline x).2.objs.length := h1.fine.made _ (by simp)
    obtain ⟨d', f1, -⟩ := setSpline_same hb (h' := memory u ((M.localSpline x).2.objs.set (M.localSpline x).1 { s with maxNodes := o.maxNodes }))
      (j := 2 * (M.localSpline x).1 + 1) (m := o.maxNodes) (s := s) rfl (by rw [memory_odd]; exact List.getElem?_set_self hlt) {} e2
    exact Option.isSome_iff_exists.mp (by simp only [setCell, h2, Option.bind_some, e3, f1, Option.map_some, Option.isSome_some])
  | play e p =>
    simp only [solo, Option.map_eq_some_iff] at h
    obtain ⟨c, e2, rfl⟩ := h
    obtain ⟨s, hs⟩ := setSpline_some e2
    have hs' : u e = some s := by rw [← soloMem_even u y.own]; exact hs
    obtain ⟨d', f1, -⟩ := setSpline_same (same_but hr') (h' := memory u M.objs) (j := 2 * e) (m := s.maxNodes) hs (by rw [memory_even]; exact hs') p e2
    exact Option.isSome_iff_exists.mp (by simp only [setCell, f1, Option.map_some, Option.isSome_some])
  | clear => exact ⟨_, rfl⟩
  | time t =>
    simp only [solo, Option.map_eq_some_iff] at h
    obtain ⟨c, e2, rfl⟩ := h
    obtain ⟨d', f1, -⟩ := setX_same hr' t e2
    exact Option.isSome_iff_exists.mp (by simp only [setCell, f1, Option.map_some, Option.isSome_some])
  | rate r => exact ⟨_, rfl⟩
  | repeating r => exact ⟨_, rfl⟩

theorem setCells_total {u : ℕ → Option Spline} : ∀ {as : List Arg} {xs : List Cell} {ys ys' : List Solo} {M : Mem}, Fine (locs xs) M → Large M →
    (∀ x ∈ xs, Plays x) → (∀ t, Arg.target t ∈ as → t.nodes.length ≤ 3) → List.Forall₂ (Rel u M.objs) xs ys → cmds (solo u) as ys = some ys' →
    ∃ r, setCells u as xs M = some r
  | [], [], _, _, _, _, _, _, _, _, _ => ⟨_, rfl⟩
  | [], _ :: _, _, _, _, _, _, _, _, hr, h => by cases hr; cases h
  | _ :: _, [], _, _, _, _, _, _, _, hr, h => by cases hr; cases h
  | a :: as, x :: xs, ys, ys', M, hf, hl, hp, ha, hr, h => by
    obtain ⟨y, ys, hxy, hrs, rfl⟩ : ∃ y ys', Rel u M.objs x y ∧ List.Forall₂ (Rel u M.objs) xs ys' ∧ ys = y :: ys' := by
      cases hr with
      | cons h1 h2 => exact ⟨_, _, h1, h2, rfl⟩
    simp only [cmds, Option.bind_eq_some_iff, Option.map_eq_some_iff] at h
    obtain ⟨y', c1, ys', c2, rfl⟩ := h
    rw [locs_cons] at hf
    obtain ⟨⟨x', M1⟩, e1⟩ := setCell_total hf.left hl (by rintro t rfl; exact ha t (by simp)) hxy c1
    obtain ⟨s1, -, -⟩ := setCell_sim hf.left (hp x (by simp)) hxy e1
    have f1 := s1.frame (P := []) (Q := locs xs) hf
    simp only [List.nil_append] at f1
    obtain ⟨r, e2⟩ := setCells_total f1.fine.right (setCell_large hl e1) (fun z hz => hp z (by simp [hz])) (fun t ht => ha t (by simp [ht]))
      (forall₂_keep hrs fun z hz w hzw => hzw.keep s1 (hp z (by simp [hz])) fun s hs => hf.apart (mem_locs hz hs)) c2
    exact Option.isSome_iff_exists.mp (by simp only [setCells, e1, Option.bind_some, e2, Option.map_some, Option.isSome_some])

theorem cloneCell_total {u : ℕ → Option Spline} (hu : Roomy u) {M : Mem} {x : Cell} {y : Solo} (hf : Fine [] M) (hr : Rel u M.objs x y)
    (hx : x.slot.spline.isSome = true) : ∃ r, cloneCell u M x = some r := by
  obtain ⟨a, ha⟩ := Option.isSome_iff_exists.mp hx
  have h1 := hr.1
  rw [ha] at h1
  cases hj : y.slot.spline with
  | none => rw [hj] at h1; exact h1.elim
  | some j =>
    rw [hj] at h1
    obtain ⟨s, m, e1, -⟩ := h1
    have hs : s.nodes.length ≤ s.maxNodes := by
      unfold memory at e1
      split at e1
      · exact (hu _ _ e1).1
      · exact hf.room s (List.mem_of_getElem? e1)
    obtain ⟨-, ⟨o, h2, h3⟩, -⟩ := allocate_shift hf s.maxNodes
    exact Option.isSome_iff_exists.mp (by
      simp only [cloneCell, ha, Option.bind_some, e1, h2, Spline.assign, if_pos (hs.trans h3), Option.map_some, Option.isSome_some])

theorem cloneCells_total {u : ℕ → Option Spline} (hu : Roomy u) : ∀ {xs : List Cell} {ys : List Solo} {S : List ℕ} {M : Mem}, Fine S M →
    (∀ x ∈ xs, Plays x ∧ ∀ s ∈ x.loc.toList, s ∈ S) → List.Forall₂ (Rel u M.objs) xs ys → (∀ x ∈ xs, x.slot.spline.isSome = true) →
    ∃ r, cloneCells u xs M = some r
  | [], _, _, _, _, _, _, _ => ⟨_, rfl⟩
  | x :: xs, ys, S, M, hf, hp, hr, hx => by
    obtain ⟨y, ys, hxy, hrs, rfl⟩ : ∃ y ys', Rel u M.objs x y ∧ List.Forall₂ (Rel u M.objs) xs ys' ∧ ys = y :: ys' := by
      cases hr with
      | cons h1 h2 => exact ⟨_, _, h1, h2, rfl⟩
    have hf0 : Fine [] M := Fine.right (L := S) (by simpa using hf)
    obtain ⟨⟨x', M1⟩, e1⟩ := cloneCell_total hu hf0 hxy (hx x (by simp))
    obtain ⟨s1, -, -⟩ := cloneCell_sim hf0 hxy e1
    have f1 := s1.frame (P := []) (Q := S) (by simpa using hf)
    simp only [List.nil_append] at f1
    obtain ⟨r, e2⟩ := cloneCells_total hu f1.fine (fun z hz => ⟨(hp z (by simp [hz])).1, fun s hs => by
      simp [(hp z (by simp [hz])).2 s hs]⟩)
      (forall₂_keep hrs fun z hz w hzw => hzw.keep s1 (hp z (by simp [hz])).1 fun s hs =>
        Fine.apart (L := []) (L' := S) (by simpa using hf) ((hp z (by simp [hz])).2 s hs)) (fun z hz => hx z (by simp [hz]))
    exact Option.isSome_iff_exists.mp (by simp only [cloneCells, e1, Option.bind_some, e2, Option.map_some, Option.isSome_some])

theorem cloneCells_none {u : ℕ → Option Spline} : ∀ {xs : List Cell} {M : Mem} {x : Cell}, x ∈ xs → x.slot.spline = none → cloneCells u xs M = none
  | y :: xs, M, x, hx, hn => by
    rcases List.mem_cons.mp hx with rfl | hx
    · simp [cloneCells, cloneCell, hn]
    · simp only [cloneCells]
      cases cloneCell u M y with
      | none => rfl
      | some r => simp only [Option.bind_some, cloneCells_none hx hn, Option.map_none]

/-- A dimension of the motivator has no spline. -/
def State.Lacks (st : State) (m : MotId) : Prop := ∃ x ∈ st.cells m, x.slot.spline = none

theorem step_total {u : ℕ → Option Spline} (hu : Roomy u) {st : State} {s s' : Abs Solo} {act : Act} (h : Sim u st s) (hl : Large st.mem)
    (ha : act.Small) (hc : ∀ dst src, act = .cloneFrom dst (some src) → dst ≠ src → ¬ st.Lacks src)
    (hs : absCall (solo u) act.call s = some s') : ∃ st', step u st act = some st' := by
  match act with
  | .initialize m r left =>
    have hs : absCall (solo u) (.initialize m sp (left.map fun c => ⟨fresh r c, none⟩)) s = some s' := hs
    simp only [absCall] at hs
    split_ifs at hs with hq
    have hlen : 0 < left.length := by simpa using hq.2
    obtain ⟨w', f1, -⟩ := initialize_spec h.inv (m := m) (p := sp) (vals := left.map fun c => (⟨none, fresh r c⟩ : Cell)) h.proc (by simpa using hlen)
    exact Option.isSome_iff_exists.mp (by simp only [step, if_pos hlen, f1, Option.map_some, Option.isSome_some])
  | .invalidate m =>
    obtain ⟨w', f1, -⟩ := invalidate_spec h.inv m
    exact Option.isSome_iff_exists.mp (by simp only [step, f1, Option.map_some, Option.isSome_some])
  | .moveAssign dst src =>
    obtain ⟨w', f1, -⟩ := moveAssign_spec h.inv dst src
    exact Option.isSome_iff_exists.mp (by simp only [step, f1, Option.map_some, Option.isSome_some])
  | .moveConstruct dst src =>
    have hs : absCall (solo u) (.moveConstruct dst src) s = some s' := hs
    simp only [absCall] at hs
    split_ifs at hs with hq
    have hd : st.w.mots dst = none := by
      have := h.vals.same dst
      rw [hq.2] at this
      refine (view_none_iff h.inv).mp ?_
      cases hv : st.w.view.vals dst with
      | none => rfl
      | some _ => rw [hv] at this; exact this.elim
    obtain ⟨w', f1, -⟩ := moveConstruct_spec h.inv (dst := dst) (src := src) hd
    exact Option.isSome_iff_exists.mp (by simp only [step]; rw [if_pos ⟨hq.1, by simp [World.valid, hd]⟩, f1]; rfl)
  | .cloneFrom dst src =>
    obtain ⟨w1, f1, f2, -, f3⟩ := invalidate_spec h.inv dst
    have h1 : Sim u ⟨w1, st.freed dst⟩ (s.set dst none) :=
      ⟨f2, by rw [f3]; exact h.procs, h.exist, (h.vals.free h.inv dst).congr (fun x => by rw [f3]; rfl) (fun x => rfl)⟩
    simp only [step, f1, Option.bind_some]
    cases src with
    | none => exact ⟨_, rfl⟩
    | some src =>
      simp only [Option.bind_some]
      rw [gather_id f2]
      have hm := h1.vals.same src
      cases hv : w1.view.vals src with
      | none => exact ⟨_, rfl⟩
      | some x =>
        obtain ⟨p, l⟩ := x
        have hds : dst ≠ src := by
          rintro rfl
          rw [f3] at hv
          simp [Abs.set] at hv
        have hv0 : st.w.view.vals src = some (p, l) := by
          rw [f3] at hv
          simpa only [Abs.set, if_neg (Ne.symm hds)] using hv
        cases ht : (s.set dst none).vals src with
        | none => rw [hv, ht] at hm; exact hm.elim
        | some y =>
          rw [hv, ht] at hm
          obtain ⟨-, -, hm⟩ := hm
          have hfi := h1.vals.fine src
          have hpl := h1.vals.plays src
          rw [hv] at hfi hpl
          have hsp : ∀ x ∈ l, x.slot.spline.isSome = true := by
            intro x hx
            by_contra hno
            refine hc dst src rfl hds ⟨x, ?_, by simpa using hno⟩
            rw [cells_eq h.inv, hv0]
            exact hx
          obtain ⟨⟨xs', M2⟩, e2⟩ := cloneCells_total (xs := l) (M := st.freed dst) hu (S := locs l) hfi (fun x hx => ⟨hpl x hx, fun s hs => mem_locs hx hs⟩) hm hsp
          obtain ⟨-, -, c3⟩ := cloneCells_sim (S := locs l) hfi (fun x hx => ⟨hpl x hx, fun s hs => mem_locs hx hs⟩) hm e2
          have hlen : 0 < xs'.length := by
            rw [c3.length_eq, ← hm.length_eq]
            exact vals_pos f2 hv
          obtain ⟨w3, g1, -⟩ := initialize_spec f2 (m := dst) (p := sp) (vals := xs') h1.proc hlen
          simp only [Option.map_some]
          exact Option.isSome_iff_exists.mp (by rw [e2]; simp only [Option.bind_some, g1, Option.map_some, Option.isSome_some])
  | .set m args =>
    have hs : ((s.vals m).bind fun x => (cmds (solo u) args x.2).map fun l => s.set m (some (x.1, l))) = some s' := hs
    simp only [Option.bind_eq_some_iff, Option.map_eq_some_iff] at hs
    obtain ⟨y, ht, ys', hc3, -⟩ := hs
    have hm := h.vals.same m
    have hfi := h.vals.fine m
    have hpl := h.vals.plays m
    cases hv : st.w.view.vals m with
    | none => rw [hv, ht] at hm; exact hm.elim
    | some x =>
      rw [hv] at hfi hpl
      rw [hv, ht] at hm
      obtain ⟨-, -, hm⟩ := hm
      obtain ⟨⟨xs', M2⟩, e2⟩ := setCells_total (xs := x.2) hfi hl hpl ha hm hc3
      obtain ⟨-, -, ys'', c3, c4⟩ := setCells_sim hfi hpl hm e2
      have hlen : xs'.length = x.2.length := by
        rw [c4.length_eq, (cmds_length c3).2, hm.length_eq]
      have g := set_spec overwrite h.inv (p := x.1) (l := x.2) hv hlen
      rw [overwrite_cmds xs' x.2 hlen] at g
      obtain ⟨w', g1, -⟩ := g
      exact Option.isSome_iff_exists.mp (by
        simp only [step, gather_id h.inv, hv, Option.map_some, Option.bind_some, e2, g1, Option.isSome_some])
  | .frame dt =>
    have hs : absCall (solo u) (.frame sp dt) s = some s' := hs
    simp only [absCall] at hs
    split_ifs at hs with hq
    obtain ⟨a1, -⟩ := advanceM_spec h.inv (p := sp) h.proc fun x : Cell => (x.slot.advance (memory u st.mem.objs) dt).map fun c => (⟨x.loc, c⟩ : Cell)
    obtain ⟨w, hw⟩ := a1.mpr (by
      intro m l hv x hx
      have hm := h.vals.same m
      cases ht : s.vals m with
      | none => rw [hv, ht] at hm; exact hm.elim
      | some y =>
        rw [hv, ht] at hm
        obtain ⟨-, hy, hm⟩ := hm
        obtain ⟨k, hk, rfl⟩ := List.getElem_of_mem hx
        have hk' : k < y.2.length := by rw [← hm.length_eq]; exact hk
        have hr := (List.forall₂_iff_get.mp hm).2 k hk hk'
        have hq2 := hq.2 m y.2 (by rw [ht, ← hy]) y.2[k] (List.getElem_mem hk')
        obtain ⟨y', hy'⟩ := Option.isSome_iff_exists.mp hq2
        simp only [solo, Option.map_eq_some_iff] at hy'
        obtain ⟨c, hc1, -⟩ := hy'
        obtain ⟨d', e2, -⟩ := SameSlot.advance (same_symm hr) dt hc1
        have e2 : Slot.advance (memory u st.mem.objs) dt l[k].slot = some d' := e2
        rw [e2]; rfl)
    exact Option.isSome_iff_exists.mp (by simp only [step, hw, Option.map_some, Option.isSome_some])

/-- C111. If the caller's splines hold at least seven nodes, a call fails in the processor exactly when it fails on single values, or it copies a motivator
with a dimension that has no spline. -/
theorem C111_failures {u : ℕ → Option Spline} (hu : Roomy u) {acts : List Act} {st : State} (h : run u acts = some st) {act : Act} (ha : act.Small) :
    step u st act = none ↔ absRunFrom (solo u) Abs.empty (calls (acts ++ [act])) = none ∨
      ∃ dst src, act = .cloneFrom dst (some src) ∧ dst ≠ src ∧ st.Lacks src := by
  obtain ⟨s, h1, h2⟩ := sim h
  have hcalls : absRunFrom (solo u) Abs.empty (calls (acts ++ [act])) = absCall (solo u) act.call s := by
    have : calls (acts ++ [act]) = calls acts ++ [act.call] := by simp [calls]
    rw [this, absRunFrom_append, h1]
    simp [absRunFrom]
  rw [hcalls]
  constructor
  · intro hn
    by_contra hno
    push Not at hno
    obtain ⟨s', hs'⟩ := Option.ne_none_iff_exists'.mp hno.1
    obtain ⟨st', e⟩ := step_total hu h2 (run_large hu h) ha hno.2 hs'
    rw [hn] at e
    cases e
  · rintro (hn | ⟨dst, src, rfl, hds, x, hx, hxs⟩)
    · cases hst : step u st act with
      | none => rfl
      | some st' =>
        obtain ⟨s', e, -⟩ := step_sim h2 hst
        rw [hn] at e
        cases e
    · obtain ⟨w1, f1, f2, -, f3⟩ := invalidate_spec h2.inv dst
      simp only [step, f1, Option.bind_some]
      rw [gather_id f2, f3]
      simp only [Abs.set, if_neg (Ne.symm hds)]
      rw [cells_eq h2.inv] at hx
      cases hv : st.w.view.vals src with
      | none => rw [hv] at hx; cases hx
      | some y =>
        rw [hv] at hx
        simp only [Option.map_some]
        rw [cloneCells_none (xs := y.2) hx hxs]
        rfl

/-! ### Targets are followed -/

theorem solo_range {u : ℕ → Option Spline} {y y' : Solo} {v : Arg ⊕ ℝ} (h : event (solo u) y v = some y') : y'.slot.modRange = y.slot.modRange := by
  match v with
  | .inl (.target t) =>
    have h : (solo u).cmd (.target t) y = some y' := h
    simp only [solo, Option.bind_eq_some_iff, Option.map_eq_some_iff] at h
    obtain ⟨s, -, c, e, rfl⟩ := h
    exact event_range (hp := soloMem u (some s)) (.inl (.play 1 {})) e
  | .inl (.play e p) =>
    have h : (solo u).cmd (.play e p) y = some y' := h
    simp only [solo, Option.map_eq_some_iff] at h
    obtain ⟨c, e, rfl⟩ := h
    exact event_range (hp := soloMem u y.own) (.inl (.play _ p)) e
  | .inl .clear => cases h; rfl
  | .inl (.time t) =>
    have h : (solo u).cmd (.time t) y = some y' := h
    simp only [solo, Option.map_eq_some_iff] at h
    obtain ⟨c, e, rfl⟩ := h
    exact event_range (hp := soloMem u y.own) (.inl (.time t)) e
  | .inl (.rate r) => cases h; rfl
  | .inl (.repeating b) => cases h; rfl
  | .inr dt =>
    have h : (solo u).frame dt y = some y' := h
    simp only [solo, Option.map_eq_some_iff] at h
    obtain ⟨c, e, rfl⟩ := h
    exact event_range (hp := soloMem u y.own) (.inr dt) e

theorem solo_ranges {u : ℕ → Option Spline} : ∀ (evs : List (Arg ⊕ ℝ)) {y y' : Solo}, replay (solo u) y evs = some y' →
    y'.slot.modRange = y.slot.modRange
  | [], y, y', h => by cases h; rfl
  | v :: evs, y, y', h => by
    unfold replay at h
    rw [List.foldlM_cons] at h
    obtain ⟨y1, h1, h2⟩ := Option.bind_eq_some_iff.mp h
    rw [solo_ranges evs h2, solo_range h1]

theorem solo_frames {u : ℕ → Option Spline} : ∀ (dxs : List ℝ) {y y' : Solo}, replay (solo u) y (dxs.map .inr) = some y' →
    y'.own = y.own ∧ frames (soloMem u y.own) y.slot dxs = some y'.slot
  | [], y, y', h => by cases h; exact ⟨rfl, rfl⟩
  | dx :: dxs, y, y', h => by
    unfold replay at h
    rw [List.map_cons, List.foldlM_cons] at h
    obtain ⟨y1, h1, h2⟩ := Option.bind_eq_some_iff.mp h
    have h1 : (solo u).frame dx y = some y1 := h1
    simp only [solo, Option.map_eq_some_iff] at h1
    obtain ⟨c, e, rfl⟩ := h1
    obtain ⟨g1, g2⟩ := solo_frames dxs h2
    refine ⟨g1, ?_⟩
    unfold frames at g2 ⊢
    rw [List.foldlM_cons, e]
    exact g2

/-- `SetTarget` on a single value is `setTarget` on a new spline of its own. -/
theorem solo_target {u : ℕ → Option Spline} {y y' : Solo} {t : Target ℝ} (h : (solo u).cmd (.target t) y = some y') :
    setTarget (fun a => if a = 1 then some (Spline.create (t.nodes.length + 1)) else soloMem u y'.own a) y.slot 1 t = some (soloMem u y'.own, y'.slot) := by
  simp only [solo, Option.bind_eq_some_iff, Option.map_eq_some_iff] at h
  obtain ⟨s, e1, c, e2, rfl⟩ := h
  have hh : (fun j => if j = 1 then some s else if j = 1 then some (Spline.create (t.nodes.length + 1)) else soloMem u (some s) j) = soloMem u (some s) := by
    funext j
    by_cases hj : j = 1
    · rw [if_pos hj, hj]; rfl
    · rw [if_neg hj, if_neg hj]
  simp only [setTarget, if_true, Option.bind_some, e1, hh, e2, Option.map_some]

/-- The range that motivator `m` was initialised with, after the calls `h`, latest first; a clone has that of its source. -/
def rangeOf : List Act → MotId → Option (Range ℝ)
  | [], _ => none
  | .initialize m' r _ :: h, m => if m' = m then some r else rangeOf h m
  | .invalidate m' :: h, m => if m' = m then none else rangeOf h m
  | .moveAssign dst src :: h, m => if src = m then none else if dst = m then rangeOf h src else rangeOf h m
  | .moveConstruct dst src :: h, m => if src = m then none else if dst = m then rangeOf h src else rangeOf h m
  | .cloneFrom dst src :: h, m => if dst = m then src.bind fun src => if src = m then none else rangeOf h src else rangeOf h m
  | .set _ _ :: h, m => rangeOf h m
  | .frame _ :: h, m => rangeOf h m

theorem life_range : ∀ (h : List Act) (m : MotId) (L : Life Solo Arg ℝ), life (h.map Act.call ++ [.create sp ⟨{}, none⟩ true]) m = some L →
    ∃ r, rangeOf h m = some r ∧ ∀ d ∈ L.start, d.slot.modRange = r
  | [], m, L, hL => by cases hL
  | .initialize m' r left :: h, m, L, hL => by
    simp only [List.map_cons, List.cons_append, Act.call, life] at hL
    simp only [rangeOf]
    split_ifs at hL ⊢ with hm
    · cases hL
      refine ⟨r, rfl, fun d hd => ?_⟩
      obtain ⟨c, -, rfl⟩ := List.mem_map.mp hd
      rfl
    · exact life_range h m L hL
  | .invalidate m' :: h, m, L, hL => by
    simp only [List.map_cons, List.cons_append, Act.call, life] at hL
    simp only [rangeOf]
    split_ifs at hL ⊢ with hm
    exact life_range h m L hL
  | .moveAssign dst src :: h, m, L, hL => by
    simp only [List.map_cons, List.cons_append, Act.call, life] at hL
    simp only [rangeOf]
    split_ifs at hL ⊢ <;> exact life_range h _ L hL
  | .moveConstruct dst src :: h, m, L, hL => by
    simp only [List.map_cons, List.cons_append, Act.call, life] at hL
    simp only [rangeOf]
    split_ifs at hL ⊢ <;> exact life_range h _ L hL
  | .cloneFrom dst src :: h, m, L, hL => by
    simp only [List.map_cons, List.cons_append, Act.call, life] at hL
    simp only [rangeOf]
    split_ifs at hL ⊢ with hm
    · cases src with
      | none => cases hL
      | some src =>
        simp only [Option.bind_some] at hL ⊢
        split_ifs at hL ⊢
        exact life_range h _ L (Option.filter_eq_some_iff.mp hL).1
    · exact life_range h m L hL
  | .set m' args :: h, m, L, hL => by
    simp only [List.map_cons, List.cons_append, Act.call, life] at hL
    simp only [rangeOf]
    split_ifs at hL with hm
    · obtain ⟨L', h1, rfl⟩ := Option.map_eq_some_iff.mp hL
      exact life_range h m L' h1
    · exact life_range h m L hL
  | .frame dt :: h, m, L, hL => by
    simp only [List.map_cons, List.cons_append, Act.call, life] at hL
    simp only [rangeOf]
    obtain ⟨L', h1, rfl⟩ := Option.map_eq_some_iff.mp hL
    obtain ⟨r, h2, h3⟩ := life_range h m L' h1
    refine ⟨r, h2, ?_⟩
    split_ifs <;> exact h3

theorem start_range {acts : List Act} {m : MotId} {L : Life Solo Arg ℝ} (hL : life (calls acts).reverse m = some L) {r : Range ℝ}
    (hr : rangeOf acts.reverse m = some r) {k : ℕ} {d : Solo} (hd : L.start[k]? = some d) : d.slot.modRange = r := by
  obtain ⟨r', h1, h2⟩ := life_range acts.reverse m L (by rw [← hL]; simp [calls])
  rw [hr] at h1
  cases h1
  exact h2 d (List.mem_of_getElem? hd)

/-- What happens to a dimension up to the time when it gets a target, and then. -/
theorem target_point {u : ℕ → Option Spline} {acts : List Act} {st : State} (h : run u acts = some st) {m : MotId} {L : Life Solo Arg ℝ}
    (hL : life (calls acts).reverse m = some L) {r : Range ℝ} (hr : rangeOf acts.reverse m = some r) {k : ℕ} {d : Solo} (hd : L.start[k]? = some d)
    {pre : List (Arg ⊕ ℝ)} {t : Target ℝ} {dxs : List ℝ} (he : eventsOf k L.events = pre ++ .inl (.target t) :: dxs.map .inr) :
    ∃ y0 y1 : Solo, replay (solo u) d pre = some y0 ∧ y0.slot.modRange = r ∧
      setTarget (fun a => if a = 1 then some (Spline.create (t.nodes.length + 1)) else soloMem u y1.own a) y0.slot 1 t = some (soloMem u y1.own, y1.slot) ∧
      ∃ c' l, frames (soloMem u y1.own) y1.slot dxs = some c' ∧ st.read u m = some l ∧ l[k]? = some (reads (soloMem u y1.own) c') := by
  obtain ⟨-, -, l, h1, -, h3⟩ := (C111_life u h m).2 L hL
  obtain ⟨y2, h4, h5⟩ := h3 k d hd
  rw [he, replay_append] at h4
  obtain ⟨y0, g1, h4⟩ := Option.bind_eq_some_iff.mp h4
  unfold replay at h4
  rw [List.foldlM_cons] at h4
  obtain ⟨y1, g2, g3⟩ := Option.bind_eq_some_iff.mp h4
  obtain ⟨k1, k2⟩ := solo_frames dxs g3
  rw [k1] at h5
  exact ⟨y0, y1, g1, by rw [solo_ranges pre g1]; exact start_range hL hr hd, solo_target g2, y2.slot, l, k2, h1, h5⟩

/-- C111. In any program, a dimension of a motivator that was initialised with no modular range and that is given a target follows it in the frames after that: what is
read from it is read from a record that plays a spline which nobody else changes and which meets all waypoints (`Follows`, C41). -/
theorem C111_targets_are_followed {u : ℕ → Option Spline} {acts : List Act} {st : State} (h : run u acts = some st) {m : MotId} {L : Life Solo Arg ℝ}
    (hL : life (calls acts).reverse m = some L) {r₀ : Range ℝ} (hr : rangeOf acts.reverse m = some r₀) (hm : ¬ r₀.valid) {k : ℕ} {d : Solo} (hd : L.start[k]? = some d)
    {pre : List (Arg ⊕ ℝ)} {t : Target ℝ} {dxs : List ℝ} (he : eventsOf k L.events = pre ++ .inl (.target t) :: dxs.map .inr)
    (hwf : t.WF) (hsp : Spaced t) {e : ℤ} (hend : t.endTime = some e) :
    ∃ y0, replay (solo u) d pre = some y0 ∧ ∀ ns v0 d0, Ahead y0.slot t ns → Initial y0.slot t v0 d0 →
      ∃ hp c r, Follows hp c e r v0 d0 ns (ns.map (·.value)) ∧
        ∃ c' l, frames hp c dxs = some c' ∧ st.read u m = some l ∧ l[k]? = some (reads hp c') := by
  obtain ⟨y0, y1, g1, g2, g3, g4⟩ := target_point h hL hr hd he
  refine ⟨y0, g1, fun ns v0 d0 hns hi => ?_⟩
  obtain ⟨h', c', r, f1, f2, -⟩ := C41_plain (h := fun a => if a = 1 then some (Spline.create (t.nodes.length + 1)) else soloMem u y1.own a)
    (id := 1) (loc := Spline.create (t.nodes.length + 1)) (c := y0.slot) (by simp) (le_refl _) (by rw [g2]; exact hm) hwf hsp hend hns hi
  rw [g3] at f1
  cases f1
  exact ⟨_, _, r, f2, g4⟩

/-- C111. The same for a motivator that was initialised with a modular range: it meets the waypoints up to multiples of the range, in the directions they ask for (`Steps`),
under the conditions of C41. -/
theorem C111_modular_targets_are_followed {u : ℕ → Option Spline} {acts : List Act} {st : State} (h : run u acts = some st) {m : MotId} {L : Life Solo Arg ℝ}
    (hL : life (calls acts).reverse m = some L) {r₀ : Range ℝ} (hr : rangeOf acts.reverse m = some r₀) (h0 : 0 < r₀.stop) (hs : r₀.start = -r₀.stop)
    {k : ℕ} {d : Solo} (hd : L.start[k]? = some d)
    {pre : List (Arg ⊕ ℝ)} {t : Target ℝ} {dxs : List ℝ} (he : eventsOf k L.events = pre ++ .inl (.target t) :: dxs.map .inr)
    (hwf : t.WF) (hsp : Spaced t) {e : ℤ} (hend : t.endTime = some e) :
    ∃ y0, replay (solo u) d pre = some y0 ∧ ∀ ns v0 d0, Ahead y0.slot t ns → Initial y0.slot t v0 d0 →
      (ns.length ≤ 2 ∧ (∀ n ∈ ns, n.dir = .closest ∨ n.dir = .direct) ∨ ns.length = 1 ∧ t.numNodes = 2) →
      ∃ hp c r z ys, Follows hp c e r z d0 ns ys ∧ (r₀.start < z ∧ z ≤ r₀.stop ∧ ∃ j : ℤ, z = v0 + j * (r₀.stop - r₀.start)) ∧
        Steps r₀ z ns ys ∧ r.length ≤ 4 * (r₀.stop - r₀.start) ∧
        ∃ c' l, frames hp c dxs = some c' ∧ st.read u m = some l ∧ l[k]? = some (reads hp c') := by
  obtain ⟨y0, y1, g1, g2, g3, g4⟩ := target_point h hL hr hd he
  refine ⟨y0, g1, fun ns v0 d0 hns hi hd => ?_⟩
  obtain ⟨h', c', r, z, ys, f1, f2, f3, f4, f5⟩ := C41_modular (h := fun a => if a = 1 then some (Spline.create (t.nodes.length + 1)) else soloMem u y1.own a)
    (id := 1) (loc := Spline.create (t.nodes.length + 1)) (c := y0.slot) (by simp) (le_refl _) (by rw [g2]; exact h0) (by rw [g2]; exact hs) hwf hsp hend hns hi hd
  rw [g2] at f3 f4 f5
  rw [g3] at f1
  cases f1
  exact ⟨_, _, r, z, ys, f2, f3, f4, f5, g4⟩

/-! ### A program -/

theorem run_snoc {u : ℕ → Option Spline} (hu : Roomy u) {acts : List Act} {st : State} {s s' : Abs Solo} (h : run u acts = some st)
    (hs : absRunFrom (solo u) Abs.empty (calls acts) = some s) {act : Act} (ha : act.Small)
    (hc : ∀ dst src, act = .cloneFrom dst (some src) → ∀ x, s.vals src = some x → ∀ y ∈ x.2, y.slot.spline.isSome = true)
    (he : absCall (solo u) act.call s = some s') :
    ∃ st', run u (acts ++ [act]) = some st' ∧ absRunFrom (solo u) Abs.empty (calls (acts ++ [act])) = some s' := by
  obtain ⟨s1, h1, h2⟩ := sim h
  rw [hs] at h1
  cases h1
  obtain ⟨st', e⟩ := step_total hu h2 (run_large hu h) ha (by
    rintro dst src rfl - ⟨x, hx, hn⟩
    rw [cells_eq h2.inv] at hx
    have hm := h2.vals.same src
    cases hv : st.w.view.vals src with
    | none => rw [hv] at hx; cases hx
    | some a =>
      cases ht : s.vals src with
      | none => rw [hv, ht] at hm; exact hm.elim
      | some b =>
        rw [hv, ht] at hm
        rw [hv] at hx
        obtain ⟨k, hk, rfl⟩ := List.getElem_of_mem (show x ∈ a.2 from hx)
        have hk' : k < b.2.length := by rw [← hm.2.2.length_eq]; exact hk
        have hr := (List.forall₂_iff_get.mp hm.2.2).2 k hk hk'
        have := hc dst src rfl b ht b.2[k] (List.getElem_mem hk')
        have hb : b.2[k].slot.spline.isSome = a.2[k].slot.spline.isSome := (same_but hr).2
        rw [hb, hn] at this
        cases this) he
  refine ⟨st', ?_, ?_⟩
  · unfold run at h ⊢
    rw [List.foldlM_append, h]
    simp [e]
  · have : calls (acts ++ [act]) = calls acts ++ [act.call] := by simp [calls]
    rw [this, absRunFrom_append, hs]
    simp [absRunFrom, he]

/-- From 5 to -4 in 900 ticks. -/
def hop : Target ℝ := ⟨[⟨5, 0, 0, .closest⟩, ⟨-4, 0, 900, .closest⟩]⟩

theorem hop_runs (u : ℕ → Option Spline) : ∃ y, (solo u).cmd (.target hop) ⟨fresh ⟨1, 0⟩ {}, none⟩ = some y ∧ y.slot.spline.isSome = true := by
  obtain ⟨h', c', r, f1, -⟩ := C41_plain (h := fun _ => some (Spline.create 3)) (id := 1) (loc := Spline.create 3) (c := fresh ⟨1, 0⟩ {}) (t := hop)
    (e := 900) (ns := [⟨-4, 0, 900, .closest⟩]) (v0 := 5) (d0 := 0) rfl (by simp [hop, Target.numNodes, Spline.create])
    (by norm_num [fresh, Range.valid]) (by simp [Target.WF, hop]) (by
      apply C41_spaced
      · simp [Target.WF, hop]
      · simp [Target.endTime, hop]) rfl ⟨_, rfl, fun _ => rfl, by simp [Replaces]⟩ ⟨_, rfl, fun _ => ⟨rfl, rfl⟩, by simp [Replaces]⟩
  simp only [setTarget, Option.bind_some, Option.bind_eq_some_iff, Option.map_eq_some_iff, Prod.mk.injEq] at f1
  obtain ⟨s, e1, c, e2, -, -⟩ := f1
  obtain ⟨d', g1, -, -, g4⟩ := setSpline_same (c := fresh ⟨1, 0⟩ {}) (c' := fresh ⟨1, 0⟩ {}) ⟨rfl, rfl⟩ (h' := soloMem u (some s)) (j := 1) (m := s.maxNodes) (s := s)
    (by simp) rfl {} e2
  refine ⟨⟨d', some s⟩, ?_, by simp [g4]⟩
  show ((targetSpline (fresh ⟨1, 0⟩ {}) (Spline.create 3) hop).bind fun s =>
        ((fresh ⟨1, 0⟩ {}).setSpline (soloMem u (some s)) 1 {}).map fun c => (⟨c, some s⟩ : Solo)) = _
  rw [e1, Option.bind_some, g1]
  rfl

/-- Motivator 1 is given a target and goes; its spline is used again for motivator 2, which is cloned to 3 and then cleared. -/
def shared : List Act :=
  [.initialize 1 ⟨1, 0⟩ [{}], .initialize 2 ⟨1, 0⟩ [{}], .set 1 [.target hop], .invalidate 1, .set 2 [.target hop], .cloneFrom 3 (some 2), .set 2 [.clear]]

/-- Motivator 3 by itself. -/
def single : List Act := [.initialize 3 ⟨1, 0⟩ [{}], .set 3 [.target hop]]

theorem programs_run {u : ℕ → Option Spline} (hu : Roomy u) : (∃ st, run u shared = some st) ∧ ∃ st, run u single = some st := by
  obtain ⟨y, hy, hysp⟩ := hop_runs u
  have hset : ∀ {s : Abs Solo} {m : MotId} {a : Arg} {d d' : Solo}, s.vals m = some (sp, [d]) → (solo u).cmd a d = some d' →
      absCall (solo u) (.set m [a]) s = some (s.set m (some (sp, [d']))) := by
    intro s m a d d' h1 h2
    show (s.vals m).bind _ = _
    rw [h1]
    simp [cmds, h2]
  obtain ⟨s0, h0, h0'⟩ := start_sim u
  have hp : (s0.procs sp).isSome = true := by rw [h0'.exist]; rfl
  constructor
  · obtain ⟨st1, a1, b1⟩ := run_snoc hu (acts := []) (st := start) rfl h0 (act := .initialize 1 ⟨1, 0⟩ [{}]) trivial (by rintro _ _ ⟨⟩)
      (absInitialize (M := solo u) hp (by simp))
    obtain ⟨st2, a2, b2⟩ := run_snoc hu a1 b1 (act := .initialize 2 ⟨1, 0⟩ [{}]) trivial (by rintro _ _ ⟨⟩) (absInitialize (M := solo u) hp (by simp))
    obtain ⟨st3, a3, b3⟩ := run_snoc hu a2 b2 (act := .set 1 [.target hop]) (by intro t ht; simp at ht; subst ht; simp [hop]) (by rintro _ _ ⟨⟩)
      (hset rfl hy)
    obtain ⟨st4, a4, b4⟩ := run_snoc hu a3 b3 (act := .invalidate 1) trivial (by rintro _ _ ⟨⟩) rfl
    obtain ⟨st5, a5, b5⟩ := run_snoc hu a4 b4 (act := .set 2 [.target hop]) (by intro t ht; simp at ht; subst ht; simp [hop]) (by rintro _ _ ⟨⟩)
      (hset rfl hy)
    obtain ⟨st6, a6, b6⟩ := run_snoc hu a5 b5 (act := .cloneFrom 3 (some 2)) trivial (by
      intro dst src e x hx z hz
      cases e
      cases hx
      simp only [List.mem_singleton] at hz
      rw [hz]; exact hysp) rfl
    obtain ⟨st7, a7, -⟩ := run_snoc hu a6 b6 (act := .set 2 [.clear]) (by intro t ht; simp at ht) (by rintro _ _ ⟨⟩)
      (hset (d := y) (by simp [absStep, Abs.set, h0'.exist]) rfl)
    exact ⟨st7, a7⟩
  · obtain ⟨st1, a1, b1⟩ := run_snoc hu (acts := []) (st := start) rfl h0 (act := .initialize 3 ⟨1, 0⟩ [{}]) trivial (by rintro _ _ ⟨⟩)
      (absInitialize (M := solo u) hp (by simp))
    obtain ⟨st2, a2, -⟩ := run_snoc hu a1 b1 (act := .set 3 [.target hop]) (by intro t ht; simp at ht; subst ht; simp [hop]) (by rintro _ _ ⟨⟩)
      (hset rfl hy)
    exact ⟨st2, a2⟩

/-- Motivator 3 reads the same in both programs. -/
example {u : ℕ → Option Spline} (hu : Roomy u) : ∃ st st' l, run u shared = some st ∧ run u single = some st' ∧ st.read u 3 = some l ∧
    st'.read u 3 = some l ∧ l.length = 1 := by
  obtain ⟨⟨st, h⟩, st', h'⟩ := programs_run hu
  have hL : life (calls shared).reverse 3 = some ⟨sp, [⟨fresh ⟨1, 0⟩ {}, none⟩], [.inl [.target hop]]⟩ := by
    simp [calls, shared, Act.call, life, Life.add, supports]
  have hL' : life (calls single).reverse 3 = some ⟨sp, [⟨fresh ⟨1, 0⟩ {}, none⟩], [.inl [.target hop]]⟩ := by
    simp [calls, single, Act.call, life, Life.add]
  obtain ⟨-, -, l, e1, e2, -⟩ := (C111_life u h 3).2 _ hL
  exact ⟨st, st', l, h, h', e1, by rw [← C111_same_life u h h' hL hL' rfl rfl]; exact e1, e2⟩

/-- Both follow the target. -/
example {u : ℕ → Option Spline} (hu : Roomy u) : ∃ st hp c r l, run u shared = some st ∧ Follows hp c 900 r 5 0 [⟨-4, 0, 900, .closest⟩] [-4] ∧
    st.read u 3 = some l ∧ l[0]? = some (reads hp c) := by
  obtain ⟨⟨st, h⟩, -⟩ := programs_run hu
  have hL : life (calls shared).reverse 3 = some ⟨sp, [⟨fresh ⟨1, 0⟩ {}, none⟩], [.inl [.target hop]]⟩ := by
    simp [calls, shared, Act.call, life, Life.add, supports]
  obtain ⟨y0, e1, e2⟩ := C111_targets_are_followed h hL (r₀ := ⟨1, 0⟩) (by simp [shared, rangeOf]) (by norm_num [Range.valid]) (k := 0) (d := ⟨fresh ⟨1, 0⟩ {}, none⟩) rfl (pre := [])
    (t := hop) (dxs := []) (by simp [eventsOf]) (by simp [Target.WF, hop]) (by
      apply C41_spaced
      · simp [Target.WF, hop]
      · simp [Target.endTime, hop]) rfl
  cases e1
  obtain ⟨hp, c, r, f1, c', l, f2, f3, f4⟩ := e2 [⟨-4, 0, 900, .closest⟩] 5 0 ⟨_, rfl, fun _ => rfl, by simp [Replaces]⟩
    ⟨_, rfl, fun _ => ⟨rfl, rfl⟩, by simp [Replaces]⟩
  cases f2
  exact ⟨st, hp, _, r, l, h, f1, f3, f4⟩

/-- From 170 to -170 in 100 ticks. -/
def turn : Target ℝ := ⟨[⟨170, 0, 0, .closest⟩, ⟨-170, 0, 100, .closest⟩]⟩

theorem turn_follows {h : Heap} {id : ℕ} {loc : Spline} (hl : h id = some loc) (hcap : turn.numNodes + 1 ≤ loc.maxNodes) :
    ∃ h' c', setTarget h (fresh ⟨-180, 180⟩ {}) id turn = some (h', c') := by
  obtain ⟨h', c', r, y0, ys, f1, -⟩ := C41_modular (c := fresh ⟨-180, 180⟩ {}) (t := turn) (e := 100) (ns := [⟨-170, 0, 100, .closest⟩]) (v0 := 170) (d0 := 0) hl hcap
    (by norm_num [fresh]) (by norm_num [fresh]) (by simp [Target.WF, turn]) (by
      apply C41_spaced
      · simp [Target.WF, turn]
      · simp [Target.endTime, turn]) rfl ⟨_, rfl, fun _ => rfl, by simp [Replaces]⟩ ⟨_, rfl, fun _ => ⟨rfl, rfl⟩, by simp [Replaces]⟩ (.inl ⟨by simp, by simp⟩)
  exact ⟨h', c', f1⟩

/-- An angle takes the short way: from 170 it goes on to 190, which is -170. -/
example {u : ℕ → Option Spline} (hu : Roomy u) : ∃ st hp c r l, run u [.initialize 1 ⟨-180, 180⟩ [{}], .set 1 [.target turn]] = some st ∧
    Follows hp c 100 r 170 0 [⟨-170, 0, 100, .closest⟩] [190] ∧ st.read u 1 = some l ∧ l[0]? = some (reads hp c) := by
  obtain ⟨s0, h0, h0'⟩ := start_sim u
  have hp : (s0.procs sp).isSome = true := by rw [h0'.exist]; rfl
  obtain ⟨y, hy⟩ : ∃ y, (solo u).cmd (.target turn) ⟨fresh ⟨-180, 180⟩ {}, none⟩ = some y := by
    obtain ⟨h', c', f1⟩ := turn_follows (h := fun _ => some (Spline.create 3)) (id := 1) rfl (by simp [turn, Target.numNodes, Spline.create])
    simp only [setTarget, Option.bind_some, Option.bind_eq_some_iff, Option.map_eq_some_iff, Prod.mk.injEq] at f1
    obtain ⟨s, e1, c, e2, -, -⟩ := f1
    obtain ⟨d', g1, -, -, -⟩ := setSpline_same (c := fresh ⟨-180, 180⟩ {}) (c' := fresh ⟨-180, 180⟩ {}) ⟨rfl, rfl⟩ (h' := soloMem u (some s)) (j := 1) (m := s.maxNodes)
      (s := s) (by simp) rfl {} e2
    refine ⟨⟨d', some s⟩, ?_⟩
    show ((targetSpline (fresh ⟨-180, 180⟩ {}) (Spline.create 3) turn).bind fun s =>
          ((fresh ⟨-180, 180⟩ {}).setSpline (soloMem u (some s)) 1 {}).map fun c => (⟨c, some s⟩ : Solo)) = _
    rw [e1, Option.bind_some, g1]
    rfl
  obtain ⟨st1, a1, b1⟩ := run_snoc hu (acts := []) (st := start) rfl h0 (act := .initialize 1 ⟨-180, 180⟩ [{}]) trivial (by rintro _ _ ⟨⟩)
      (absInitialize (M := solo u) hp (by simp))
  obtain ⟨st2, a2, -⟩ := run_snoc hu a1 b1 (act := .set 1 [.target turn]) (s' := Abs.set (s0.set 1 (some (sp, [⟨fresh ⟨-180, 180⟩ {}, none⟩]))) 1 (some (sp, [y])))
    (by intro t ht; simp at ht; subst ht; simp [turn]) (by rintro _ _ ⟨⟩) (by
      have hset : ∀ {s : Abs Solo} {d d' : Solo}, s.vals 1 = some (sp, [d]) → (solo u).cmd (.target turn) d = some d' →
          absCall (solo u) (.set 1 [.target turn]) s = some (s.set 1 (some (sp, [d']))) := by
        intro s d d' h1 h2
        show (s.vals 1).bind _ = _
        rw [h1]
        simp [cmds, h2]
      exact hset rfl hy)
  obtain ⟨y0, e1, e2⟩ := C111_modular_targets_are_followed a2 (m := 1) (L := ⟨sp, [⟨fresh ⟨-180, 180⟩ {}, none⟩], [.inl [.target turn]]⟩)
    (by simp [calls, Act.call, life, Life.add]) (r₀ := ⟨-180, 180⟩) (by simp [rangeOf]) (by norm_num) (by norm_num) (k := 0) (d := ⟨fresh ⟨-180, 180⟩ {}, none⟩) rfl (pre := [])
    (t := turn) (dxs := []) (by simp [eventsOf]) (by simp [Target.WF, turn]) (by
      apply C41_spaced
      · simp [Target.WF, turn]
      · simp [Target.endTime, turn]) rfl
  cases e1
  obtain ⟨hp, c, r, z, ys, f1, ⟨z1, z2, j, z3⟩, f4, -, c', l, f5, f6, f7⟩ := e2 [⟨-170, 0, 100, .closest⟩] 170 0 ⟨_, rfl, fun _ => rfl, by simp [Replaces]⟩
    ⟨_, rfl, fun _ => ⟨rfl, rfl⟩, by simp [Replaces]⟩ (.inl ⟨by simp, by simp⟩)
  cases f5
  have hj : j = 0 := by
    have h1 : (-1 : ℝ) < j := by norm_num at z1 z2 z3; linarith
    have h2 : (j : ℝ) < 1 := by norm_num at z1 z2 z3; linarith
    have h3 : -1 < j := by exact_mod_cast h1
    have h4 : j < 1 := by exact_mod_cast h2
    omega
  subst hj
  have hz : z = 170 := by rw [z3]; norm_num
  subst hz
  match ys, f4 with
  | [y'], f4 =>
    obtain ⟨⟨⟨k, hk⟩, h1⟩, -⟩ := f4
    have h2 := h1 (1 - k)
    rw [hk] at h2
    norm_num at h2
    rw [show (-170 + (k : ℝ) * 360 + (1 - k) * 360 - 170 : ℝ) = 20 by ring, abs_le] at h2
    norm_num at h2
    have h3 : (0 : ℝ) < k := by linarith [h2.1]
    have h4 : (k : ℝ) < 2 := by linarith [h2.2]
    have h5 : 0 < k := by exact_mod_cast h3
    have h6 : k < 2 := by exact_mod_cast h4
    obtain rfl : k = 1 := by omega
    norm_num at hk
    subst hk
    exact ⟨st2, hp, _, r, l, a2, f1, f6, f7⟩

/-- A clone of a motivator without a spline fails, although nothing is wrong with the value. -/
example {u : ℕ → Option Spline} (hu : Roomy u) : ∃ st, run u [.initialize 1 ⟨1, 0⟩ [{}]] = some st ∧ step u st (.cloneFrom 2 (some 1)) = none ∧
    absRunFrom (solo u) Abs.empty (calls [.initialize 1 ⟨1, 0⟩ [{}], .cloneFrom 2 (some 1)]) ≠ none := by
  obtain ⟨s0, h0, h0'⟩ := start_sim u
  have hp : (s0.procs sp).isSome = true := by rw [h0'.exist]; rfl
  obtain ⟨st1, a1, b1⟩ := run_snoc hu (acts := []) (st := start) rfl h0 (act := .initialize 1 ⟨1, 0⟩ [{}]) trivial (by rintro _ _ ⟨⟩)
      (absInitialize (M := solo u) hp (by simp))
  refine ⟨st1, a1, ?_, ?_⟩
  · rw [C111_failures hu a1 (act := .cloneFrom 2 (some 1)) trivial]
    refine Or.inr ⟨2, 1, rfl, by decide, ?_⟩
    obtain ⟨s, e1, e2⟩ := sim a1
    rw [b1] at e1
    cases e1
    have hm := e2.vals.same 1
    cases hv : st1.w.view.vals 1 with
    | none => rw [hv] at hm; exact hm.elim
    | some x =>
      rw [hv] at hm
      obtain ⟨-, -, hm⟩ := hm
      refine ⟨x.2[0]'(by rw [hm.length_eq]; simp), by rw [cells_eq e2.inv, hv]; exact List.getElem_mem _, ?_⟩
      have := same_but ((List.forall₂_iff_get.mp hm).2 0 (by rw [hm.length_eq]; simp) (by simp))
      have := this.2
      simpa [fresh] using this
  · have : calls [.initialize 1 ⟨1, 0⟩ [{}], .cloneFrom 2 (some 1)] = calls ([] ++ [.initialize 1 ⟨1, 0⟩ [{}]]) ++ [Act.call (.cloneFrom 2 (some 1))] := rfl
    rw [this, absRunFrom_append, b1]
    simp [absRunFrom, Act.call, absCall]

end
end Motive.SplineProc.Whole
