import Verif.Matrix.SqtProps
import Verif.SplineProc.SetTargetProps

/-!
# C95: matrix motivators whose operations are driven by spline motivators

`Verif.Matrix.Blend` models the operations over any motivator. Here the motivator is the one of the spline processor
(src/motive/processor/spline_processor.cpp, src/motive/math/bulk_spline_evaluator.cpp), as modelled for C41, which is what tables of
animations use (src/motive/anim_table.cpp:334-352, src/motive/io/flatbuffers.cpp:112-160).

The state of a motivator is its record of the evaluator and the two splines that it can point to: number 0 is the local spline, number 1
the one of the caller. That no other motivator writes to them is C40, and that the calls to other motivators do not matter is C09 and C90.
A motivator that met undefined behaviour is `none`.
-/

namespace Motive.Matrix4
open Motive.Targets Motive.Splines Motive.Math Motive.Curve

noncomputable section

/-- One motivator of the spline processor: the splines and the record of the evaluator. -/
structure Player where
  heap : Heap
  slot : Slot

/-- The local spline is allocated if there is none (spline_processor.cpp:170-175), with `kDefaultMaxNodes` (compact_spline.h:73). One from
the pool may be larger. -/
def Player.allocate (p : Player) : Heap :=
  match p.heap 0 with
  | some _ => p.heap
  | none => fun j => if j = 0 then some (Spline.create 7) else p.heap j

/-- `SetTarget` (spline_processor.cpp:146-203). -/
def Player.setTarget (p : Player) (t : Target ℝ) : Option Player :=
  (Targets.setTarget p.allocate p.slot 0 t).map fun r => ⟨r.1, r.2⟩

/-- `SetSplines` (spline_processor.cpp:89-101): the local spline goes back to the pool. -/
def Player.setSpline (p : Player) (s : Spline) (pb : Playback) : Option Player :=
  (p.slot.setSpline (fun j => if j = 1 then some s else none) 1
    ⟨pb.startX, pb.repeating, pb.rate, pb.blendX, pb.yOffset, pb.yScale⟩).map fun c =>
      ⟨fun j => if j = 1 then some s else none, c⟩

/-- `AdvanceFrame` (spline_processor.cpp:35-38). -/
def Player.advance (p : Player) (t : ℤ) : Option Player := (p.slot.advance p.heap (t : ℝ)).map fun c => ⟨p.heap, c⟩

/-- `TargetTime` (spline_processor.cpp:67-77) in one dimension. -/
def Player.targetTime (p : Player) : Option ℤ :=
  p.slot.spline.bind fun id => (p.heap id).bind fun s => s.endX.bind fun e => (p.slot.X p.heap).map fun x => toTime (e - x)

/-- The spline motivators. An initialiser is the range of `SplineInit`, set by `InitializeIndices` (spline_processor.cpp:205-210). The
accessors are `Values` and `Velocities` (spline_processor.cpp:44-50), `SetSplinePlaybackRate` and `SetSplineRepeating` (133-142), and
`StartY` of a spline. -/
abbrev splineDriver : Driver where
  M := Option Player
  I := Range ℝ
  S := Spline
  create r := some ⟨fun _ => none, { modRange := r }⟩
  value m := (m.map (·.slot.y)).getD 0
  velocity m := (m.map (·.slot.derivative)).getD 0
  setTarget m t := m.bind (·.setTarget t)
  setSpline m s pb := m.bind (·.setSpline s pb)
  setRate m r := m.map fun p => ⟨p.heap, { p.slot with rate := r }⟩
  setRepeating m b := m.map fun p => ⟨p.heap, { p.slot with rep := b }⟩
  targetTime m := (m.bind (·.targetTime)).getD 0
  splineStart s := s.startY.getD 0
  advance m t := m.bind (·.advance t)

/-- `RangeOfOp` (matrix_op.h:121-123) with `kAngleRange` and `kInvalidRange`. -/
def rangeOfOp (t : OpType) : Range ℝ := if t.isRotate then ⟨-Real.pi, Real.pi⟩ else ⟨1, 0⟩

/-- Frames of the operations: the children advance before the matrix processor reads them. -/
def advanceAll (ops : List (Op splineDriver)) (dts : List ℤ) : List (Op splineDriver) := ops.map fun o => dts.foldl Op.advance o

/-- One stage of a program: `BlendToOps` and then frames. -/
def stage (ops : List (Op splineDriver)) (g : List (OpInit splineDriver) × Playback × List ℤ) : Option (List (Op splineDriver)) :=
  (blendToOps OpType.isQuat g.1 g.2.1 ops).map fun l => advanceAll l g.2.2

/-! ### Specification -/

/-- A motivator in working order: it plays something, with values in the given range, and a local spline has the usual size. -/
def Playing (r : Range ℝ) (m : Option Player) : Prop :=
  ∃ p, m = some p ∧ p.slot.spline.isSome ∧ p.slot.modRange = r ∧ ∀ s, p.heap 0 = some s → 7 ≤ s.maxNodes

/-- The motivator of an operation, if it has one, is in working order. -/
def Ready (o : Op splineDriver) : Prop := ∀ m, o.motivator = some m → Playing (rangeOfOp o.type) m

/-- A stage blends to constants, all at most `B`, by id, with an initialiser that suits the operation; then frames pass, as many as the
blend takes. `S` are the types that the motivator supports. -/
structure Pose (S : OpType → Prop) (B : ℝ) (new : List (OpInit splineDriver)) (c : ℕ → ℝ) (pb : Playback) (dts : List ℤ) : Prop where
  blend : 0 ≤ pb.blendX
  made : ∀ n ∈ new, Made n
  ascending : Ascending (new.map (·.id))
  supported : ∀ n ∈ new, S n.type
  const : ∀ n ∈ new, n.union = .initial (c n.id)
  bounded : ∀ n ∈ new, |c n.id| ≤ B
  range : ∀ n ∈ new, ∀ k, n.init = some k → k = rangeOfOp n.type
  frames : (∀ d ∈ dts, 0 < d) ∧ dts.sum = ⌊pb.blendX⌋

/-- What a stage asks of the operation with an id: the constant, or the default value of its type. -/
def Goal (new : List (OpInit splineDriver)) (c : ℕ → ℝ) (o : Op splineDriver) (v : ℝ) : Prop :=
  (o.id ∈ new.map (·.id) ∧ v = c o.id) ∨ (o.id ∉ new.map (·.id) ∧ v = o.type.default)

/-- How far values may be from what was asked: one rung of 65535 in a range of at most 4 turns for angles, and in a range 2.2 times as wide as
the distance of the old and new value for the others. -/
def tolerance (B : ℝ) (t : OpType) : ℝ := if t.isRotate then 8 * Real.pi / 65535 else 22 / 10 * (3 * B) / 65535

/-- `w` is the value `v` of an operation of type `t`, up to the tolerance, and for angles up to whole turns. -/
def Near (B : ℝ) (t : OpType) (w v : ℝ) : Prop :=
  ∃ k : ℤ, (t.isRotate = false → k = 0) ∧ |w - (v + k * (2 * Real.pi))| ≤ tolerance B t

/-- An operation in working order whose value, if it is not an angle, is at most `2 * B`. -/
def Sound (B : ℝ) (o : Op splineDriver) : Prop := Ready o ∧ (o.type.isRotate = false → |o.value| ≤ 2 * B)

/-- The operations that a motivator can have after stages: ids ascend, and all are in working order. -/
structure State (S : OpType → Prop) (B : ℝ) (ops : List (Op splineDriver)) : Prop where
  ascending : Ascending (ops.map (·.id))
  supported : ∀ o ∈ ops, S o.type
  sound : ∀ o ∈ ops, Sound B o

/-- An operation is where it should be, and at rest, up to quantisation (of the angle of the velocity to 1/65536 of a turn). -/
def Settled (B : ℝ) (o : Op splineDriver) (v : ℝ) : Prop := Near B o.type o.value v ∧ |Real.arctan o.velocity| < angleScale

/-! ### The memory of a motivator -/

theorem addVerbatim_max {s s' : Spline} {n : Node} (h : s.addVerbatim n = some s') : s'.maxNodes = s.maxNodes := by
  unfold Spline.addVerbatim at h
  split_ifs at h
  cases h; rfl

theorem dropMiddle_max (s : Spline) (n : Node) : (s.dropMiddle n).maxNodes = s.maxNodes := by
  unfold Spline.dropMiddle
  split
  · split_ifs <;> rfl
  · rfl

theorem addMiddle_max {s s' : Spline} {a n : Node} (h : s.addMiddle a n = some s') : s'.maxNodes = s.maxNodes := by
  unfold Spline.addMiddle at h
  split_ifs at h with h0
  · cases h; rfl
  · simp only [Option.bind_eq_some_iff] at h
    obtain ⟨m, -, mid, -, h⟩ := h
    split_ifs at h
    · exact addVerbatim_max h
    · cases h; rfl

theorem addNode_max {s s' : Spline} {x y d : ℝ} {m : AddMethod} (h : s.addNode x y d m = some s') : s'.maxNodes = s.maxNodes := by
  unfold Spline.addNode at h
  simp only [Option.bind_eq_some_iff] at h
  obtain ⟨n, -, h⟩ := h
  split at h
  · exact addVerbatim_max h
  · split_ifs at h
    · cases h; rfl
    · rw [addVerbatim_max h, dropMiddle_max]
    · simp only [Option.bind_eq_some_iff] at h
      obtain ⟨s1, h1, h2⟩ := h
      rw [addVerbatim_max h2, addMiddle_max h1]
    · exact addVerbatim_max h

theorem nodeLoop_max (c : Slot) : ∀ (ns : List (MNode ℝ)) (s s' : Spline) (p : ℝ), nodeLoop c s p ns = some s' → s'.maxNodes = s.maxNodes := by
  intro ns
  induction ns with
  | nil => intro s s' p h; simp only [nodeLoop, Option.some.injEq] at h; rw [h]
  | cons n ns ih =>
    intro s s' p h
    simp only [nodeLoop, Option.bind_eq_some_iff] at h
    obtain ⟨v, -, y, -, s1, h1, h2⟩ := h
    rw [ih _ _ _ h2, addNode_max h1]

theorem targetSpline_max {c : Slot} {loc s : Spline} {t : Target ℝ} (h : targetSpline c loc t = some s) : s.maxNodes = loc.maxNodes := by
  simp only [targetSpline, Option.bind_eq_some_iff] at h
  obtain ⟨n0, -, y0, -, e, -, r, -, s1, h1, h2⟩ := h
  rw [nodeLoop_max _ _ _ _ _ h2, addNode_max h1]; rfl

theorem initCubic_keeps {h : Heap} {c c' : Slot} {x : ℝ} (e : c.initCubic h x = some c') :
    c'.modRange = c.modRange ∧ c'.spline = c.spline := by
  unfold Slot.initCubic at e
  split at e
  · cases e; exact ⟨rfl, rfl⟩
  · simp only [Option.bind_eq_some_iff, Option.map_eq_some_iff] at e
    obtain ⟨s, -, p, -, r, -, i, -, rfl⟩ := e
    exact ⟨rfl, rfl⟩

theorem setSpline_keeps {h : Heap} {c c' : Slot} {id : ℕ} {p : Motive.Splines.Playback} (e : c.setSpline h id p = some c') :
    c'.modRange = c.modRange ∧ c'.spline = some id := by
  simp only [Slot.setSpline, Option.map_eq_some_iff] at e
  obtain ⟨c1, e, rfl⟩ := e
  split_ifs at e
  · simp only [Slot.blendTo, Option.bind_eq_some_iff, Option.map_eq_some_iff] at e
    obtain ⟨s, -, i, -, st, -, x0, -, rfl⟩ := e
    exact ⟨rfl, rfl⟩
  · obtain ⟨h1, h2⟩ := initCubic_keeps e
    exact ⟨h1, h2⟩

theorem advance_keeps {h : Heap} {c c' : Slot} {dx : ℝ} (e : c.advance h dx = some c') : c'.modRange = c.modRange ∧ c'.spline = c.spline := by
  simp only [Slot.advance, Option.map_eq_some_iff] at e
  obtain ⟨c1, e, rfl⟩ := e
  split_ifs at e
  · simp only [Option.bind_eq_some_iff] at e
    obtain ⟨x, -, e⟩ := e
    obtain ⟨h1, h2⟩ := initCubic_keeps e
    exact ⟨h1, h2⟩
  · cases e; exact ⟨rfl, rfl⟩

theorem frames_keeps {h : Heap} : ∀ (dxs : List ℝ) (c c' : Slot), frames h c dxs = some c' → c'.modRange = c.modRange ∧ c'.spline = c.spline := by
  intro dxs
  induction dxs with
  | nil => intro c c' e; simp only [frames, List.foldlM_nil, pure, Option.some.injEq] at e; subst e; exact ⟨rfl, rfl⟩
  | cons d ds ih =>
    intro c c' e
    simp only [frames, List.foldlM_cons, bind, Option.bind_eq_some_iff] at e
    obtain ⟨c1, e1, e2⟩ := e
    obtain ⟨a1, a2⟩ := ih c1 c' e2
    obtain ⟨b1, b2⟩ := advance_keeps e1
    exact ⟨a1.trans b1, a2.trans b2⟩

/-- Memory for the local spline is there. -/
theorem allocate_spec (p : Player) (hp : ∀ s, p.heap 0 = some s → 7 ≤ s.maxNodes) : ∃ loc, p.allocate 0 = some loc ∧ 7 ≤ loc.maxNodes := by
  unfold Player.allocate
  cases h : p.heap 0 with
  | none => exact ⟨Spline.create 7, by simp, le_refl _⟩
  | some s => exact ⟨s, h, hp s h⟩

/-- After `SetTarget` a motivator is in working order. -/
theorem setTarget_playing {p p' : Player} {t : Target ℝ} {h' : Heap} {c' : Slot} (hp : ∀ s, p.heap 0 = some s → 7 ≤ s.maxNodes)
    (e : Targets.setTarget p.allocate p.slot 0 t = some (h', c')) (hp' : p' = ⟨h', c'⟩) :
    p.setTarget t = some p' ∧ Playing p.slot.modRange (some p') := by
  subst hp'
  refine ⟨by simp [Player.setTarget, e], _, rfl, ?_⟩
  obtain ⟨loc, hl, hm⟩ := allocate_spec p hp
  simp only [Targets.setTarget, hl, Option.bind_some, Option.bind_eq_some_iff, Option.map_eq_some_iff, Prod.mk.injEq] at e
  obtain ⟨s, e1, c1, e2, rfl, rfl⟩ := e
  obtain ⟨k1, k2⟩ := setSpline_keeps e2
  refine ⟨by simp [k2], k1, ?_⟩
  intro s' hs'
  simp only [if_pos, Option.some.injEq] at hs'
  rw [← hs', targetSpline_max e1]; exact hm

theorem foldl_advance (dts : List ℤ) : ∀ p : Player, dts.foldl splineDriver.advance (some p : Option Player) =
    ((frames p.heap p.slot (dts.map fun d : ℤ => (d : ℝ))).map fun c => (⟨p.heap, c⟩ : Player)) := by
  induction dts with
  | nil => intro p; simp [frames, pure]
  | cons d ds ih =>
    intro p
    have hn : ∀ ds : List ℤ, ds.foldl splineDriver.advance (none : Option Player) = none := by
      intro ds
      induction ds with
      | nil => rfl
      | cons d ds ih => exact ih
    rw [List.foldl_cons]
    have : splineDriver.advance (some p) d = (p.slot.advance p.heap (d : ℝ)).map fun c => (⟨p.heap, c⟩ : Player) := rfl
    rw [this, List.map_cons]
    simp only [frames, List.foldlM_cons, bind]
    cases p.slot.advance p.heap (d : ℝ) with
    | none => simpa using hn ds
    | some c => simpa [frames] using ih ⟨p.heap, c⟩

/-! ### What `SetTarget` does with one waypoint -/

/-- The target of one waypoint. -/
theorem one_wf (v d : ℝ) {τ : ℤ} (h : 0 ≤ τ) : (⟨[⟨v, d, τ, .closest⟩]⟩ : Target ℝ).WF ∧ Spaced ⟨[⟨v, d, τ, .closest⟩]⟩ ∧
    (⟨[⟨v, d, τ, .closest⟩]⟩ : Target ℝ).endTime = some τ := by
  refine ⟨by simp [Target.WF, h], ?_, rfl⟩
  intro e he
  simp only [Target.endTime, List.getLast?_singleton, Option.map_some, Option.some.injEq] at he
  subst he
  refine ⟨?_, by simp⟩
  intro n hn
  simp only [List.mem_singleton] at hn
  subst hn
  right
  show τ ≤ 65535 * τ
  omega

/-- A spline of one node at 0 is constant, without velocity. -/
theorem setSpline_single {hp : Heap} {s : Spline} {id : ℕ} (hh : hp id = some s) (hg : 0 < s.g) {a : Node} (hn : s.nodes = [a])
    (ha : a.x = 0) (c : Slot) : ∃ c', c.setSpline hp id {} = some c' ∧ c'.derivative = 0 := by
  have hq : quantizeX 0 s.g = some 0 := by
    rw [quantizeX_eq hg (by linarith) (by norm_num)]
    norm_num [Int.floor_eq_iff]
  have hX : a.X s.g = 0 := by simp [Node.X, ha]
  refine ⟨Slot.evaluate { c with
      rate := 1, yOffset := 0, yScale := 1, spline := some id, xIndex := kAfter, rep := false, cubicX := 0 - a.X s.g
      cubicXEnd := ⊤
      cubic := ((Cubic.init ⟨a.Y s.yRange, 0, a.Y s.yRange, 0, 1⟩).scaleUp 1).shiftUp 0 }, ?_, ?_⟩
  · unfold Slot.setSpline
    rw [if_neg (by simp)]
    unfold Slot.jumpTo Slot.initCubic
    simp [hh, Spline.indexForXRepeat, Spline.indexForX, hq, hn, ha, Spline.rangeX, Spline.cubicInitAt, outside, kAfter, kBefore, Spline.endX]
  · simp [Slot.derivative, Slot.evaluate, hX, Cubic.deriv, Cubic.scaleUp, Cubic.shiftUp, Cubic.init]

theorem addNode_first {s s' : Spline} {x y d : ℝ} {m : AddMethod} (h0 : s.nodes = []) (h : s.addNode x y d m = some s') :
    ∃ a, Node.make x y d s.g s.yRange = some a ∧ s'.nodes = [a] ∧ s'.g = s.g := by
  unfold Spline.addNode at h
  simp only [Option.bind_eq_some_iff, h0, List.getLast?_nil] at h
  obtain ⟨a, ha, h⟩ := h
  refine ⟨a, ha, ?_⟩
  unfold Spline.addVerbatim at h
  split_ifs at h
  cases h
  exact ⟨by rw [h0]; rfl, rfl⟩

/-- A waypoint that replaces the current value leaves no velocity. -/
theorem replaces_velocity {h h' : Heap} {c c' : Slot} {v d : ℝ} {τ : ℤ} (hr : Replaces c ⟨v, d, τ, .closest⟩)
    (e : Targets.setTarget h c 0 ⟨[⟨v, d, τ, .closest⟩]⟩ = some (h', c')) : c'.derivative = 0 := by
  have ho := (overrides_iff c ⟨v, d, τ, .closest⟩).mpr hr
  simp only [Targets.setTarget, Option.bind_eq_some_iff, Option.map_eq_some_iff, Prod.mk.injEq] at e
  obtain ⟨loc, -, s, e1, c1, e2, rfl, rfl⟩ := e
  simp only [targetSpline, List.head?_cons, Option.bind_some, Option.bind_eq_some_iff, rest, ho, if_true, List.drop_one,
    List.tail_cons, nodeLoop, Option.some.injEq, exists_eq_right] at e1
  obtain ⟨y0, -, e0, he0, r, -, e3⟩ := e1
  obtain ⟨a, ha, e4, e5⟩ := addNode_first rfl e3
  have hg : 0 < Spline.recommendG (e0 : ℝ) := recommendG_pos _
  obtain ⟨c2, f1, f2⟩ := setSpline_single (hp := fun j => if j = 0 then some s else h j) (s := s) (id := 0) (by simp)
    (by rw [e5]; exact hg) (a := a) e4
    (by
      have := compactX_floor hg (make_some ha).1 le_rfl
      have h2 : ⌊(0 : ℝ) / Spline.recommendG (e0 : ℝ) + 1 / 2⌋ = 0 := by rw [zero_div]; norm_num [Int.floor_eq_iff]
      rw [h2] at this
      exact_mod_cast this) c
  rw [e2] at f1
  cases f1
  exact f2

/-- Frames from a state that follows a path of one waypoint. -/
theorem visit_frames {p' : Player} {r : Range ℝ} {y y0 d0 : ℝ} {n : MNode ℝ} {e : ℤ} (he : n.time = e)
    (hf : Follows p'.heap p'.slot e r y0 d0 [n] [y]) (dts : List ℤ) (hd : ∀ d ∈ dts, 0 < d) (hs : dts.sum = e) {R : Range ℝ}
    (hpl : Playing R (some p')) : ∃ p'', dts.foldl splineDriver.advance (some p' : Option Player) = some p'' ∧ Playing R (some p'') ∧
      Within r y n.velocity p''.slot := by
  obtain ⟨T, -, hT, -, h⟩ := hf.visits 0 n y rfl rfl
  have hTe := hT he
  obtain ⟨c'', h1, h2⟩ := h (dts.map fun d : ℤ => (d : ℝ))
    (by
      intro d hd'
      obtain ⟨z, hz, rfl⟩ := List.mem_map.mp hd'
      exact_mod_cast (hd z hz).le)
    (by
      rw [hTe, ← hs]
      clear hs hd h
      induction dts with
      | nil => simp
      | cons d ds ih =>
        rw [List.map_cons, List.sum_cons, List.sum_cons, ih]
        push_cast
        rfl)
  refine ⟨⟨p'.heap, c''⟩, by rw [foldl_advance, h1]; rfl, ?_, h2⟩
  obtain ⟨q, hq, q1, q2, q3⟩ := hpl
  cases hq
  obtain ⟨k1, k2⟩ := frames_keeps _ _ _ h1
  exact ⟨_, rfl, by rw [k2]; exact q1, by rw [k1]; exact q2, q3⟩

/-- No frames pass in no time. -/
theorem no_frames {dts : List ℤ} (hd : ∀ d ∈ dts, 0 < d) (hs : dts.sum = 0) : dts = [] := by
  cases dts with
  | nil => rfl
  | cons d ds =>
    exfalso
    have h1 := hd d (by simp)
    have h2 : 0 ≤ ds.sum := List.sum_nonneg fun x hx => (hd x (by simp [hx])).le
    rw [List.sum_cons] at hs
    omega

theorem arctan_small : |Real.arctan 0 - Real.arctan (0 : ℝ)| < angleScale := by
  rw [sub_self, abs_zero]
  unfold angleScale
  have := Real.pi_pos
  positivity

/-- `SetTarget` with one waypoint, for plain values. -/
theorem target_plain {p : Player} (hr : ¬ p.slot.modRange.valid) (hp : ∀ s, p.heap 0 = some s → 7 ≤ s.maxNodes) (v d : ℝ) {τ : ℤ}
    (hτ : 0 ≤ τ) :
    ∃ p', p.setTarget ⟨[⟨v, d, τ, .closest⟩]⟩ = some p' ∧ Playing p.slot.modRange (some p') ∧
      (Replaces p.slot ⟨v, d, τ, .closest⟩ → p'.slot.y = v ∧ p'.slot.derivative = 0) ∧
      (¬ Replaces p.slot ⟨v, d, τ, .closest⟩ → |p'.slot.y - p.slot.y| ≤ 22 / 10 * |p.slot.y - v| / 65535 ∧
        ∀ dts : List ℤ, (∀ d ∈ dts, 0 < d) → dts.sum = τ →
          ∃ p'', dts.foldl splineDriver.advance (some p' : Option Player) = some p'' ∧ Playing p.slot.modRange (some p'') ∧
            |p''.slot.y - v| ≤ 22 / 10 * |p.slot.y - v| / 65535 ∧ |Real.arctan p''.slot.derivative - Real.arctan d| < angleScale) := by
  obtain ⟨loc, hl, hm⟩ := allocate_spec p hp
  obtain ⟨w1, w2, w3⟩ := one_wf v d hτ
  by_cases hrep : Replaces p.slot ⟨v, d, τ, .closest⟩
  · obtain ⟨h', c', r, e1, e2, e3⟩ := C41_plain (ns := []) (v0 := v) (d0 := d) hl (by simp [Target.numNodes]; omega) hr w1 w2 w3
      ⟨_, rfl, fun _ => rfl, fun h => absurd hrep h⟩ ⟨_, rfl, fun _ => ⟨rfl, rfl⟩, fun h => absurd hrep h⟩
    obtain ⟨f1, f2⟩ := setTarget_playing (p' := ⟨h', c'⟩) hp e1 rfl
    refine ⟨_, f1, f2, fun _ => ⟨?_, replaces_velocity hrep e1⟩, fun h => absurd hrep h⟩
    have := e3 v v le_rfl le_rfl (by simp)
    have h1 := e2.start
    show c'.y = v
    have : r.length / 65535 ≤ 0 := by linarith
    linarith [h1.1, h1.2]
  · obtain ⟨h', c', r, e1, e2, e3⟩ := C41_plain (ns := [⟨v, d, τ, .closest⟩]) (v0 := p.slot.y) (d0 := p.slot.derivative) hl
      (by simp [Target.numNodes]; omega) hr w1 w2 w3
      ⟨_, rfl, fun h => absurd h hrep, fun _ => rfl⟩ ⟨_, rfl, fun h => absurd h hrep, fun _ => ⟨rfl, rfl⟩⟩
    obtain ⟨f1, f2⟩ := setTarget_playing (p' := ⟨h', c'⟩) hp e1 rfl
    have hlen : r.length ≤ 22 / 10 * |p.slot.y - v| := by
      have := e3 (min p.slot.y v) (max p.slot.y v) (min_le_left _ _) (le_max_left _ _) (by simp)
      rwa [max_sub_min_eq_abs, abs_sub_comm] at this
    refine ⟨_, f1, f2, fun h => absurd h hrep, fun _ => ⟨?_, ?_⟩⟩
    · have h1 := e2.start
      rw [abs_le]
      constructor <;> linarith [h1.1, h1.2, abs_nonneg (p.slot.y - v)]
    · intro dts hd hs
      obtain ⟨p'', g1, g2, g3, g4, g5⟩ := visit_frames (p' := ⟨h', c'⟩) (n := ⟨v, d, τ, .closest⟩) rfl e2 dts hd hs f2
      refine ⟨p'', g1, g2, ?_, g5⟩
      rw [abs_le]
      constructor <;> linarith [abs_nonneg (p.slot.y - v)]

/-- `SetTarget` with one waypoint, for angles. -/
theorem target_angle {p : Player} (hr : p.slot.modRange = ⟨-Real.pi, Real.pi⟩) (hp : ∀ s, p.heap 0 = some s → 7 ≤ s.maxNodes) (v d : ℝ)
    {τ : ℤ} (hτ : 0 ≤ τ) :
    ∃ p', p.setTarget ⟨[⟨v, d, τ, .closest⟩]⟩ = some p' ∧ Playing p.slot.modRange (some p') ∧
      (Replaces p.slot ⟨v, d, τ, .closest⟩ → (∃ k : ℤ, |p'.slot.y - (v + k * (2 * Real.pi))| ≤ 8 * Real.pi / 65535) ∧
        p'.slot.derivative = 0) ∧
      (¬ Replaces p.slot ⟨v, d, τ, .closest⟩ → (∃ k : ℤ, |p'.slot.y - (p.slot.y + k * (2 * Real.pi))| ≤ 8 * Real.pi / 65535) ∧
        ∀ dts : List ℤ, (∀ d ∈ dts, 0 < d) → dts.sum = τ →
          ∃ p'', dts.foldl splineDriver.advance (some p' : Option Player) = some p'' ∧ Playing p.slot.modRange (some p'') ∧
            (∃ k : ℤ, |p''.slot.y - (v + k * (2 * Real.pi))| ≤ 8 * Real.pi / 65535) ∧
            |Real.arctan p''.slot.derivative - Real.arctan d| < angleScale) := by
  obtain ⟨loc, hl, hm⟩ := allocate_spec p hp
  obtain ⟨w1, w2, w3⟩ := one_wf v d hτ
  have h0 : 0 < p.slot.modRange.stop := by rw [hr]; exact Real.pi_pos
  have hs : p.slot.modRange.start = -p.slot.modRange.stop := by rw [hr]
  have hw : p.slot.modRange.stop - p.slot.modRange.start = 2 * Real.pi := by rw [hr]; ring
  by_cases hrep : Replaces p.slot ⟨v, d, τ, .closest⟩
  · obtain ⟨h', c', r, y0, ys, e1, e2, ⟨-, -, k, hk⟩, e4, e5⟩ := C41_modular (ns := []) (v0 := v) (d0 := d) hl
      (by simp [Target.numNodes]; omega) h0 hs w1 w2 w3
      ⟨_, rfl, fun _ => rfl, fun h => absurd hrep h⟩ ⟨_, rfl, fun _ => ⟨rfl, rfl⟩, fun h => absurd hrep h⟩ (Or.inl ⟨by simp, by simp⟩)
    obtain ⟨f1, f2⟩ := setTarget_playing (p' := ⟨h', c'⟩) hp e1 rfl
    rw [hw] at hk e5
    refine ⟨_, f1, f2, fun _ => ⟨⟨k, ?_⟩, replaces_velocity hrep e1⟩, fun h => absurd hrep h⟩
    have h1 := e2.start
    rw [← hk, abs_le]
    constructor <;> linarith [h1.1, h1.2, Real.pi_pos]
  · obtain ⟨h', c', r, y0, ys, e1, e2, ⟨-, -, k, hk⟩, e4, e5⟩ := C41_modular (ns := [⟨v, d, τ, .closest⟩]) (v0 := p.slot.y)
      (d0 := p.slot.derivative) hl (by simp [Target.numNodes]; omega) h0 hs w1 w2 w3
      ⟨_, rfl, fun h => absurd h hrep, fun _ => rfl⟩ ⟨_, rfl, fun h => absurd h hrep, fun _ => ⟨rfl, rfl⟩⟩
      (Or.inl ⟨by simp, by simp⟩)
    obtain ⟨f1, f2⟩ := setTarget_playing (p' := ⟨h', c'⟩) hp e1 rfl
    rw [hw] at hk e5
    refine ⟨_, f1, f2, fun h => absurd h hrep, fun _ => ⟨⟨k, ?_⟩, ?_⟩⟩
    · have h1 := e2.start
      rw [← hk, abs_le]
      constructor <;> linarith [h1.1, h1.2, Real.pi_pos]
    · intro dts hd hsum
      obtain ⟨y, rfl⟩ : ∃ y, ys = [y] := by
        match ys, e4 with
        | [y], _ => exact ⟨y, rfl⟩
      obtain ⟨p'', g1, g2, g3, g4, g5⟩ := visit_frames (p' := ⟨h', c'⟩) (n := ⟨v, d, τ, .closest⟩) rfl e2 dts hd hsum f2
      obtain ⟨⟨⟨j, hj⟩, -⟩, -⟩ := e4
      rw [hw] at hj
      refine ⟨p'', g1, g2, ⟨j, ?_⟩, g5⟩
      rw [← hj, abs_le]
      constructor <;> linarith [Real.pi_pos]

/-! ### Operations -/

theorem foldl_op (dts : List ℤ) : ∀ o : Op splineDriver, dts.foldl Op.advance o =
    { o with motivator := o.motivator.map fun m => dts.foldl splineDriver.advance m } := by
  induction dts with
  | nil => intro o; cases h : o.motivator <;> simp [← h]
  | cons d ds ih =>
    intro o
    rw [List.foldl_cons, ih]
    cases h : o.motivator <;> simp [Op.advance, h]

theorem tolerance_pos {B : ℝ} (hB : 1 ≤ B) (t : OpType) : 0 ≤ tolerance B t := by
  unfold tolerance
  have := Real.pi_pos
  split_ifs <;> positivity

theorem near_self {B : ℝ} (hB : 1 ≤ B) (t : OpType) (v : ℝ) : Near B t v v :=
  ⟨0, fun _ => rfl, by simpa using tolerance_pos hB t⟩

theorem angleScale_pos : 0 < angleScale := by
  unfold angleScale
  have := Real.pi_pos
  positivity

/-- An operation without motivator. -/
theorem settled_const {B : ℝ} (hB : 1 ≤ B) (o : Op splineDriver) (h : o.motivator = none) (hc : |o.const| ≤ B) (dts : List ℤ) :
    Sound B (dts.foldl Op.advance o) ∧ Settled B (dts.foldl Op.advance o) o.const := by
  have : dts.foldl Op.advance o = o := by rw [foldl_op, h]; cases o; simp_all
  rw [this]
  have hv : o.value = o.const := by simp [Op.value, h]
  refine ⟨⟨by simp [Ready, h], fun _ => by rw [hv]; linarith⟩, by rw [hv]; exact near_self hB _ _, ?_⟩
  simp only [Op.velocity, h, Real.arctan_zero, abs_zero]
  exact angleScale_pos

/-- An operation whose motivator was given a target of one waypoint. -/
theorem settled_target {B : ℝ} (hB : 1 ≤ B) (o o' : Op splineDriver) (ho : Sound B o) (ht : o'.type = o.type) (m : Option Player)
    (hm : o.motivator = some m) {v : ℝ} (hv : |v| ≤ B) {τ : ℤ} (hτ : 0 ≤ τ)
    (hm' : o'.motivator = some (splineDriver.setTarget m ⟨[⟨v, 0, τ, .closest⟩]⟩)) :
    (0 < τ → Near B o.type o'.value o.value) ∧
    ∀ dts : List ℤ, (∀ d ∈ dts, 0 < d) → dts.sum = τ →
      Sound B (dts.foldl Op.advance o') ∧ Settled B (dts.foldl Op.advance o') v := by
  obtain ⟨p, rfl, p1, p2, p3⟩ := ho.1 m hm
  have hval : o.value = p.slot.y := by simp [Op.value, hm]
  have hnr : Replaces p.slot ⟨v, 0, τ, .closest⟩ ↔ τ = 0 := by
    unfold Replaces
    simp only [or_iff_left_iff_imp]
    intro h
    rw [h] at p1
    simp at p1
  have hset : ∀ p', p.setTarget ⟨[⟨v, 0, τ, .closest⟩]⟩ = some p' → o'.motivator = some (some p') := by
    intro p' h; rw [hm']; show some (p.setTarget _) = _; rw [h]
  -- the end of the blend
  have fin : ∀ (dts : List ℤ) (p'' : Player), (∀ p', p.setTarget ⟨[⟨v, 0, τ, .closest⟩]⟩ = some p' →
        dts.foldl splineDriver.advance (some p' : Option Player) = some p'') → (∃ p', p.setTarget ⟨[⟨v, 0, τ, .closest⟩]⟩ = some p') →
      Playing p.slot.modRange (some p'') → Near B o.type p''.slot.y v → |Real.arctan p''.slot.derivative| < angleScale →
      Sound B (dts.foldl Op.advance o') ∧ Settled B (dts.foldl Op.advance o') v := by
    rintro dts p'' h1 ⟨p', h2⟩ h3 h4 h5
    have e : dts.foldl Op.advance o' = { o' with motivator := some (some p'') } := by
      rw [foldl_op, hset p' h2, Option.map_some, h1 p' h2]
    rw [e]
    refine ⟨⟨?_, ?_⟩, ?_, ?_⟩
    · intro m hm
      simp only [Option.some.injEq] at hm
      subst hm
      show Playing (rangeOfOp o'.type) _
      rw [ht, ← p2]; exact h3
    · intro hr
      show |p''.slot.y| ≤ 2 * B
      obtain ⟨k, hk, h6⟩ := h4
      have hr' : o.type.isRotate = false := by rw [← ht]; exact hr
      rw [hk hr', tolerance, hr'] at h6
      simp only [Int.cast_zero, zero_mul, add_zero, Bool.false_eq_true, if_false] at h6
      have h7 := abs_le.mp h6
      have h8 := abs_le.mp hv
      rw [abs_le]
      constructor <;> linarith [h7.1, h7.2, h8.1, h8.2]
    · show Near B o'.type p''.slot.y v
      rw [ht]; exact h4
    · exact h5
  cases hrot : o.type.isRotate with
  | false =>
    have hmod : p.slot.modRange = ⟨1, 0⟩ := by rw [p2, rangeOfOp, hrot]; rfl
    have hold := ho.2 hrot
    rw [hval] at hold
    have hdist : 22 / 10 * |p.slot.y - v| / 65535 ≤ tolerance B o.type := by
      rw [tolerance, hrot]
      simp only [Bool.false_eq_true, if_false]
      have : |p.slot.y - v| ≤ 3 * B := (abs_sub _ _).trans (by linarith)
      linarith
    obtain ⟨p', e1, e2, e3, e4⟩ := target_plain (p := p) (by rw [hmod]; norm_num [Range.valid]) p3 v 0 hτ
    refine ⟨fun h0 => ?_, fun dts hd hs => ?_⟩
    · have hrep : ¬ Replaces p.slot ⟨v, 0, τ, .closest⟩ := by rw [hnr]; omega
      have : o'.value = p'.slot.y := by simp [Op.value, hset p' e1]
      rw [this, hval]
      exact ⟨0, fun _ => rfl, by simpa using (e4 hrep).1.trans hdist⟩
    · by_cases h0 : τ = 0
      · obtain ⟨f1, f2⟩ := e3 (hnr.mpr h0)
        have hnil := no_frames hd (hs.trans h0)
        subst hnil
        refine fin [] p' (fun q hq => ?_) ⟨p', e1⟩ e2 (by rw [f1]; exact near_self hB _ _)
          (by rw [f2, Real.arctan_zero, abs_zero]; exact angleScale_pos)
        rw [e1] at hq; cases hq; rfl
      · obtain ⟨p'', g1, g2, g3, g4⟩ := (e4 (fun h => h0 (hnr.mp h))).2 dts hd hs
        rw [Real.arctan_zero, sub_zero] at g4
        refine fin dts p'' (fun q hq => ?_) ⟨p', e1⟩ g2 ⟨0, fun _ => rfl, by simpa using g3.trans hdist⟩ g4
        rw [e1] at hq; cases hq; exact g1
  | true =>
    have hmod : p.slot.modRange = ⟨-Real.pi, Real.pi⟩ := by rw [p2, rangeOfOp, hrot]; rfl
    have htol : tolerance B o.type = 8 * Real.pi / 65535 := by rw [tolerance, hrot]; rfl
    have hk : ∀ k : ℤ, o.type.isRotate = false → k = 0 := by intro k h; rw [hrot] at h; cases h
    obtain ⟨p', e1, e2, e3, e4⟩ := target_angle (p := p) hmod p3 v 0 hτ
    refine ⟨fun h0 => ?_, fun dts hd hs => ?_⟩
    · have hrep : ¬ Replaces p.slot ⟨v, 0, τ, .closest⟩ := by rw [hnr]; omega
      have : o'.value = p'.slot.y := by simp [Op.value, hset p' e1]
      rw [this, hval]
      obtain ⟨k, h⟩ := (e4 hrep).1
      exact ⟨k, hk k, by rw [htol]; exact h⟩
    · by_cases h0 : τ = 0
      · obtain ⟨⟨k, f1⟩, f2⟩ := e3 (hnr.mpr h0)
        have hnil := no_frames hd (hs.trans h0)
        subst hnil
        refine fin [] p' (fun q hq => ?_) ⟨p', e1⟩ e2 ⟨k, hk k, by rw [htol]; exact f1⟩
          (by rw [f2, Real.arctan_zero, abs_zero]; exact angleScale_pos)
        rw [e1] at hq; cases hq; rfl
      · obtain ⟨p'', g1, g2, ⟨k, g3⟩, g4⟩ := (e4 (fun h => h0 (hnr.mp h))).2 dts hd hs
        rw [Real.arctan_zero, sub_zero] at g4
        refine fin dts p'' (fun q hq => ?_) ⟨p', e1⟩ g2 ⟨k, hk k, by rw [htol]; exact g3⟩ g4
        rw [e1] at hq; cases hq; exact g1

theorem default_le (t : OpType) : |t.default| ≤ 1 := by
  cases t <;> simp [OpType.default, OpType.isScale]

/-- A new operation is in working order. -/
theorem newborn_sound {B : ℝ} (hB : 1 ≤ B) {n : OpInit splineDriver} {o : Op splineDriver} (h : Newborn n o)
    (hk : ∀ k, n.init = some k → k = rangeOfOp n.type) : Sound B o := by
  obtain ⟨-, h2, h3, h4⟩ := h
  have hd : |n.type.default| ≤ 2 * B := (default_le _).trans (by linarith)
  cases hi : n.init with
  | none =>
    rw [hi, Option.map_none] at h4
    refine ⟨by simp [Ready, h4], fun _ => ?_⟩
    simp only [Op.value, h4, h3]
    exact hd
  | some k =>
    rw [hi, Option.map_some] at h4
    have hk' := hk k hi
    set p : Player := ⟨fun _ => none, { modRange := k }⟩ with hp
    have hrep : Replaces p.slot ⟨n.type.default, 0, 0, .closest⟩ := Or.inl rfl
    cases hrot : n.type.isRotate with
    | false =>
      have hmod : p.slot.modRange = ⟨1, 0⟩ := by rw [hp]; show k = _; rw [hk', rangeOfOp, hrot]; rfl
      obtain ⟨p', e1, e2, e3, -⟩ := target_plain (p := p) (by rw [hmod]; norm_num [Range.valid]) (by simp [hp]) n.type.default 0 le_rfl
      have hm : o.motivator = some (some p') := by rw [h4]; exact congrArg some e1
      refine ⟨?_, fun _ => ?_⟩
      · intro m hm1
        rw [hm] at hm1
        cases hm1
        rw [h2, ← hk']; exact e2
      · simp only [Op.value, hm, Option.map_some, Option.getD_some]
        rw [(e3 hrep).1]; exact hd
    | true =>
      have hmod : p.slot.modRange = ⟨-Real.pi, Real.pi⟩ := by rw [hp]; show k = _; rw [hk', rangeOfOp, hrot]; rfl
      obtain ⟨p', e1, e2, e3, -⟩ := target_angle (p := p) hmod (by simp [hp]) n.type.default 0 le_rfl
      have hm : o.motivator = some (some p') := by rw [h4]; exact congrArg some e1
      refine ⟨?_, fun hf => ?_⟩
      · intro m hm1
        rw [hm] at hm1
        cases hm1
        rw [h2, ← hk']; exact e2
      · rw [h2, hrot] at hf; cases hf

/-- An operation driven to a constant. -/
theorem driven_settles {B : ℝ} (hB : 1 ≤ B) {pb : Playback} (hpb : 0 ≤ pb.blendX) {o o' : Op splineDriver} {n : OpInit splineDriver} {v : ℝ}
    (hn : n.union = .initial v) (hv : |v| ≤ B) (ho : Sound B o) (h : Driven pb o n o') (dts : List ℤ) (hd : ∀ d ∈ dts, 0 < d)
    (hs : dts.sum = ⌊pb.blendX⌋) : Sound B (dts.foldl Op.advance o') ∧ Settled B (dts.foldl Op.advance o') v := by
  obtain ⟨-, h2, h3⟩ := h
  rw [hn] at h3
  rcases h3 with ⟨h4, h5, -⟩ | ⟨m, h4, h5⟩
  · have := settled_const hB o' h4 (by rw [h5]; exact hv) dts
    rwa [h5] at this
  · exact (settled_target hB o o' ho h2 m h4 hv (Int.floor_nonneg.mpr hpb) h5).2 dts hd hs

/-- An operation driven to its default. -/
theorem relaxed_settles {B : ℝ} (hB : 1 ≤ B) {pb : Playback} (hpb : 0 ≤ pb.blendX) {o o' : Op splineDriver}
    (ho : Sound B o) (h : Relaxed pb o o') (dts : List ℤ) (hd : ∀ d ∈ dts, 0 < d)
    (hs : dts.sum = ⌊pb.blendX⌋) : Sound B (dts.foldl Op.advance o') ∧ Settled B (dts.foldl Op.advance o') o.type.default := by
  obtain ⟨-, h2, h3⟩ := h
  rcases h3 with ⟨-, h4, h5⟩ | ⟨m, h4, h5⟩
  · have := settled_const hB o' h4 (by rw [h5]; exact (default_le _).trans hB) dts
    rwa [h5] at this
  · exact (settled_target hB o o' ho h2 m h4 ((default_le _).trans hB) (Int.floor_nonneg.mpr hpb) h5).2 dts hd hs

/-! ### C95 -/

theorem foldl_id (dts : List ℤ) (o : Op splineDriver) : (dts.foldl Op.advance o).id = o.id := by rw [foldl_op]
theorem foldl_type (dts : List ℤ) (o : Op splineDriver) : (dts.foldl Op.advance o).type = o.type := by rw [foldl_op]

theorem supported_not_quat {new : List (OpInit splineDriver)} (h : ∀ n ∈ new, Supported n.type) : ∀ n ∈ new, OpType.isQuat n.type = false := by
  intro n hn
  have := h n hn
  revert this
  cases n.type <;> simp [Supported, OpType.isQuat, OpType.isRotate, OpType.isTranslate, OpType.isScale]

/-- `BlendToOps` to constants, and the frames that it takes. -/
theorem merge_settles {S : OpType → Prop} {B : ℝ} (hB : 1 ≤ B) {ops : List (Op splineDriver)} (ho : State S B ops)
    {new : List (OpInit splineDriver)} {c : ℕ → ℝ} {pb : Playback} {dts : List ℤ} (h : Pose S B new c pb dts) (bad : OpType → Bool)
    (hbad : ∀ n ∈ new, bad n.type = false) :
    ∃ l, (blendToOps bad new pb ops).map (fun l => advanceAll l dts) = some l ∧ State S B l ∧
      (∀ i, i ∈ l.map (·.id) ↔ i ∈ ops.map (·.id) ∨ i ∈ new.map (·.id)) ∧ ∀ o ∈ l, ∃ v, Goal new c o v ∧ Settled B o v := by
  obtain ⟨l, h1, h2, h3, h4⟩ := C43_merge bad ops new pb h.blend ho.ascending h.ascending h.made hbad
  have hids : (advanceAll l dts).map (·.id) = l.map (·.id) := by
    simp only [advanceAll, List.map_map]
    apply List.map_congr_left
    intro o _
    exact foldl_id dts o
  have key : ∀ o ∈ l, S o.type ∧ Sound B (dts.foldl Op.advance o) ∧
      ∃ v, Goal new c (dts.foldl Op.advance o) v ∧ Settled B (dts.foldl Op.advance o) v := by
    intro o ho'
    rcases h4 o ho' with ⟨a, ha, b, hb, e, hd⟩ | ⟨a, ha, hb, hd⟩ | ⟨b, hb, ha, a, e, hd⟩
    · obtain ⟨k1, k2⟩ := driven_settles hB h.blend (h.const b hb) (h.bounded b hb) (ho.sound a ha) hd dts h.frames.1 h.frames.2
      refine ⟨by rw [hd.2.1]; exact ho.supported a ha, k1, c b.id, Or.inl ?_, k2⟩
      rw [foldl_id, hd.1, e]
      exact ⟨List.mem_map_of_mem hb, rfl⟩
    · obtain ⟨k1, k2⟩ := relaxed_settles hB h.blend (ho.sound a ha) hd dts h.frames.1 h.frames.2
      refine ⟨by rw [hd.2.1]; exact ho.supported a ha, k1, a.type.default, Or.inr ?_, k2⟩
      rw [foldl_id, foldl_type, hd.1, hd.2.1]
      refine ⟨?_, rfl⟩
      intro hm
      obtain ⟨n, hn, hn'⟩ := List.mem_map.mp hm
      exact hb n hn hn'
    · obtain ⟨k1, k2⟩ := driven_settles hB h.blend (h.const b hb) (h.bounded b hb) (newborn_sound hB e (h.range b hb)) hd dts
        h.frames.1 h.frames.2
      refine ⟨by rw [hd.2.1, e.2.1]; exact h.supported b hb, k1, c b.id, Or.inl ?_, k2⟩
      rw [foldl_id, hd.1, e.1]
      exact ⟨List.mem_map_of_mem hb, rfl⟩
  refine ⟨advanceAll l dts, by simp [h1], ⟨by rw [hids]; exact h2, ?_, ?_⟩, by rw [hids]; exact h3, ?_⟩
  all_goals
    intro o hm
    obtain ⟨o1, hm1, rfl⟩ := List.mem_map.mp hm
    obtain ⟨k1, k2, k3⟩ := key o1 hm1
  · rw [foldl_type]; exact k1
  · exact k2
  · exact k3

/-- C95: blending a matrix motivator whose operations are driven by spline motivators to a list of constants, and then as many frames as the
blend takes, succeeds, whatever the lengths of the frames; it has the operations of both lists, in working order; those of the new list
have their constants, the others their defaults, at rest, up to quantisation. -/
theorem C95_stage {B : ℝ} (hB : 1 ≤ B) {ops : List (Op splineDriver)} (ho : State Supported B ops) {new : List (OpInit splineDriver)} {c : ℕ → ℝ}
    {pb : Playback} {dts : List ℤ} (h : Pose Supported B new c pb dts) :
    ∃ l, stage ops (new, pb, dts) = some l ∧ State Supported B l ∧
      (∀ i, i ∈ l.map (·.id) ↔ i ∈ ops.map (·.id) ∨ i ∈ new.map (·.id)) ∧ ∀ o ∈ l, ∃ v, Goal new c o v ∧ Settled B o v := by
  exact merge_settles hB ho h OpType.isQuat (supported_not_quat h.supported)

/-- `Initialize` with constants makes operations in working order that have their constants at once. -/
theorem C95_initialize {B : ℝ} (hB : 1 ≤ B) {new : List (OpInit splineDriver)} {c : ℕ → ℝ} (h : Pose Supported B new c {} []) :
    ∃ l, initOps OpType.isQuat new = some l ∧ State Supported B l ∧ List.Forall₂ (fun n o => o.id = n.id ∧ o.type = n.type ∧ Settled B o (c n.id)) new l := by
  have hbad := supported_not_quat h.supported
  obtain ⟨l, h1, h2⟩ := C43_initialize OpType.isQuat new h.made hbad
  have key : ∀ (ns : List (OpInit splineDriver)) (l : List (Op splineDriver)),
      List.Forall₂ (fun n o' => ∃ o, Newborn n o ∧ Driven {} o n o') ns l → (∀ n ∈ ns, n ∈ new) →
      l.map (·.id) = ns.map (·.id) ∧ (∀ o ∈ l, Supported o.type ∧ Sound B o) ∧
        List.Forall₂ (fun n o => o.id = n.id ∧ o.type = n.type ∧ Settled B o (c n.id)) ns l := by
    intro ns l hl
    induction hl with
    | nil => intro _; exact ⟨rfl, by simp, .nil⟩
    | @cons n o ns os hd _ ih =>
      intro hmem
      obtain ⟨i1, i2, i3⟩ := ih fun x hx => hmem x (by simp [hx])
      have hn := hmem n (by simp)
      obtain ⟨o1, k1, k2⟩ := hd
      obtain ⟨k3, k4⟩ := driven_settles hB (le_refl (0 : ℝ)) (pb := {}) (h.const n hn) (h.bounded n hn)
        (newborn_sound hB k1 (h.range n hn)) k2 [] (by simp) (by simp)
      have hid := k2.1.trans k1.1
      have hty := k2.2.1.trans k1.2.1
      refine ⟨by rw [List.map_cons, List.map_cons, i1, hid], ?_, .cons ⟨hid, hty, k4⟩ i3⟩
      intro x hx
      rcases List.mem_cons.mp hx with rfl | hx
      · exact ⟨by rw [hty]; exact h.supported n hn, k3⟩
      · exact i2 x hx
  obtain ⟨i1, i2, i3⟩ := key new l h2 fun _ h => h
  exact ⟨l, h1, ⟨by rw [i1]; exact h.ascending, fun o ho => (i2 o ho).1, fun o ho => (i2 o ho).2⟩, i3⟩

/-- An elementary transform does not depend on whole turns. -/
theorem elementary_near {B : ℝ} {t : OpType} {w v : ℝ} (h : Near B t w v) :
    ∃ w', |w' - v| ≤ tolerance B t ∧ elementary (t, w) = elementary (t, w') ∧ scaling (t, w) = scaling (t, w') := by
  obtain ⟨k, hk, h1⟩ := h
  refine ⟨w - k * (2 * Real.pi), by rw [show w - k * (2 * Real.pi) - v = w - (v + k * (2 * Real.pi)) by ring]; exact h1, ?_⟩
  cases hr : t.isRotate with
  | false => rw [hk hr]; simp
  | true =>
    revert hr
    cases t <;> simp [OpType.isRotate, elementary, scaling, Real.cos_sub_int_mul_two_pi, Real.sin_sub_int_mul_two_pi]

/-- The matrix of operations that are near what was asked of them. -/
theorem matrix_near {B : ℝ} {new : List (OpInit splineDriver)} {c : ℕ → ℝ} : ∀ (l : List (Op splineDriver)), (∀ o ∈ l, Supported o.type) →
    (∀ o ∈ l, ∃ v, Goal new c o v ∧ Settled B o v) →
    ∃ ws : List (OpType × ℝ), calculate (readOps l) = some ((ws.map elementary).prod, (ws.map scaling).prod) ∧
      List.Forall₂ (fun o w => w.1 = o.type ∧ ∃ v, Goal new c o v ∧ |w.2 - v| ≤ tolerance B o.type) l ws := by
  intro l hs hl
  obtain ⟨ws, h1, h2, h3⟩ : ∃ ws : List (OpType × ℝ), (readOps l).map elementary = ws.map elementary ∧
      (readOps l).map scaling = ws.map scaling ∧
      List.Forall₂ (fun o w => w.1 = o.type ∧ ∃ v, Goal new c o v ∧ |w.2 - v| ≤ tolerance B o.type) l ws := by
    clear hs
    induction l with
    | nil => exact ⟨[], rfl, rfl, .nil⟩
    | cons o l ih =>
      obtain ⟨ws, h1, h2, h3⟩ := ih fun x hx => hl x (by simp [hx])
      obtain ⟨v, hg, hn, -⟩ := hl o (by simp)
      obtain ⟨w', e1, e2, e3⟩ := elementary_near hn
      refine ⟨(o.type, w') :: ws, ?_, ?_, .cons ⟨rfl, v, hg, e1⟩ h3⟩
      · simp only [readOps, List.map_cons] at h1 ⊢
        rw [h1, e2]
      · simp only [readOps, List.map_cons] at h2 ⊢
        rw [h2, e3]
  refine ⟨ws, ?_, h3⟩
  rw [C42_result_is_product _ (by
    intro op hop
    obtain ⟨o, ho, rfl⟩ := List.mem_map.mp hop
    exact hs o ho), h1, h2]

/-- C95: any number of blends one after the other, each to constants and each with the frames that it takes: they all succeed, and after the
last one the matrix is the product of the elementary transforms of the operations, with the constants of the last list, and the defaults
of the operations that are not in it, up to quantisation. -/
theorem C95_program {B : ℝ} (hB : 1 ≤ B) {ops : List (Op splineDriver)} (ho : State Supported B ops)
    (before : List (List (OpInit splineDriver) × Playback × List ℤ)) (hbefore : ∀ g ∈ before, ∃ c, Pose Supported B g.1 c g.2.1 g.2.2)
    {new : List (OpInit splineDriver)} {c : ℕ → ℝ} {pb : Playback} {dts : List ℤ} (hlast : Pose Supported B new c pb dts) :
    ∃ l ws, (before ++ [(new, pb, dts)]).foldlM stage ops = some l ∧ State Supported B l ∧
      calculate (readOps l) = some ((ws.map elementary).prod, (ws.map scaling).prod) ∧
      List.Forall₂ (fun o w => w.1 = o.type ∧ ∃ v, Goal new c o v ∧ |w.2 - v| ≤ tolerance B o.type) l ws := by
  induction before generalizing ops with
  | nil =>
    obtain ⟨l, h1, h2, -, h4⟩ := C95_stage hB ho hlast
    obtain ⟨ws, h5, h6⟩ := matrix_near l h2.supported h4
    exact ⟨l, ws, by simp [h1, pure], h2, h5, h6⟩
  | cons g gs ih =>
    obtain ⟨c', hc⟩ := hbefore g (by simp)
    obtain ⟨l, h1, h2, -, -⟩ := C95_stage hB ho hc
    obtain ⟨l', ws, k1, k2⟩ := ih h2 fun x hx => hbefore x (by simp [hx])
    refine ⟨l', ws, ?_, k2⟩
    rw [List.cons_append, List.foldlM_cons]
    show (stage ops (g.1, g.2.1, g.2.2)).bind _ = _
    rw [h1]
    exact k1

/-- When the blend takes time, the value of an operation with a motivator does not jump: by no more than quantisation, up to whole turns for
angles, or 0.001 when the motivator is given up because it is that close to the constant. -/
theorem C95_no_jump {B : ℝ} (hB : 1 ≤ B) {ops : List (Op splineDriver)} (ho : State Supported B ops) {new : List (OpInit splineDriver)} {c : ℕ → ℝ}
    {pb : Playback} {dts : List ℤ} (h : Pose Supported B new c pb dts) (h1 : 1 ≤ pb.blendX) :
    ∃ l, blendToOps OpType.isQuat new pb ops = some l ∧ ∀ o ∈ ops, o.motivator.isSome → ∃ o' ∈ l, o'.id = o.id ∧ o'.type = o.type ∧
      (Near B o.type o'.value o.value ∨ |o'.value - o.value| ≤ 1 / 1000) := by
  have hbad := supported_not_quat h.supported
  obtain ⟨l, e1, -, e3, e4⟩ := C43_merge OpType.isQuat ops new pb h.blend ho.ascending h.ascending h.made hbad
  have hfl : (0 : ℤ) < ⌊pb.blendX⌋ := Int.floor_pos.mpr h1
  refine ⟨l, e1, fun o hm hs => ?_⟩
  obtain ⟨o', hm', hid⟩ := List.mem_map.mp ((e3 o.id).mpr (Or.inl (List.mem_map_of_mem hm)))
  have hinj : ∀ a ∈ ops, a.id = o.id → a = o := by
    intro a ha hai
    have hnd : (ops.map (·.id)).Nodup := ho.ascending.imp fun h => ne_of_lt h
    exact List.inj_on_of_nodup_map hnd ha hm hai
  obtain ⟨m, hmo⟩ := Option.isSome_iff_exists.mp hs
  refine ⟨o', hm', hid, ?_⟩
  rcases e4 o' hm' with ⟨a, ha, b, hb, e, hd⟩ | ⟨a, ha, hb, hd⟩ | ⟨b, hb, ha, a, e, hd⟩
  · have := hinj a ha (by rw [← hd.1, hid]); subst this
    refine ⟨hd.2.1, ?_⟩
    have h3 := hd.2.2
    rw [h.const b hb] at h3
    rcases h3 with ⟨h4, h5, h6⟩ | ⟨m', h4, h5⟩
    · right
      have := (h6 m hmo).1
      simp only [Op.value, h4, h5, hmo]
      rw [abs_sub_comm]; exact this
    · left
      exact (settled_target hB a o' (ho.sound a ha) hd.2.1 m' h4 (h.bounded b hb) hfl.le h5).1 hfl
  · have := hinj a ha (by rw [← hd.1, hid]); subst this
    refine ⟨hd.2.1, ?_⟩
    rcases hd.2.2 with ⟨h4, -, -⟩ | ⟨m', h4, h5⟩
    · rw [h4] at hmo; cases hmo
    · left
      exact (settled_target hB a o' (ho.sound a ha) hd.2.1 m' h4 ((default_le _).trans hB) hfl.le h5).1 hfl
  · exact absurd (by rw [← hid, hd.1, e.1]) (ha o hm)

/-! ### Quaternions -/

/-- `Current1f` for plain values: the value is taken as it is, the velocity is lost. -/
theorem negate_spline {B : ℝ} {o : Op splineDriver} (ho : Sound B o) (hq : o.type.isQuat) :
    Sound B o.negate ∧ o.negate.value = -o.value ∧ o.negate.velocity = 0 := by
  have hrot : o.type.isRotate = false := by revert hq; cases o.type <;> simp [OpType.isQuat, OpType.isRotate]
  have hb := ho.2 hrot
  unfold Op.negate
  rw [if_pos hq]
  cases hm : o.motivator with
  | none =>
    refine ⟨⟨?_, fun _ => ?_⟩, rfl, rfl⟩
    · intro m h; cases h
    · show |-o.value| ≤ _; rw [abs_neg]; exact hb
  | some m =>
    obtain ⟨p, rfl, p1, p2, p3⟩ := ho.1 m hm
    have hmod : p.slot.modRange = ⟨1, 0⟩ := by rw [p2, rangeOfOp, hrot]; rfl
    obtain ⟨p', e1, e2, e3, -⟩ := target_plain (p := p) (by rw [hmod]; norm_num [Range.valid]) p3 (-o.value) (-o.velocity) le_rfl
    obtain ⟨f1, f2⟩ := e3 (Or.inl rfl)
    have hset : ((some p : Option Player).bind fun x => x.setTarget (Target.current (-o.value) (-o.velocity))) = some p' := e1
    simp only [hset]
    refine ⟨⟨?_, fun _ => ?_⟩, f1, f2⟩
    · intro m h
      simp only [Option.some.injEq] at h
      subst h
      show Playing (rangeOfOp o.type) _
      rw [← p2]; exact e2
    · show |p'.slot.y| ≤ _
      rw [f1, abs_neg]; exact hb

/-- The alignment of an SQT motivator, from `AlignQuaternionOps`. -/
theorem align_spline {ops : List (Op splineDriver)} {new : List (OpInit splineDriver)} {rotation : Quat} {starts : List (OpType × ℝ)}
    {q : Quat} (hs : StartsAt new starts) (hn : Describes starts q) (h0 : q ≠ ⟨0, 0, 0, 0⟩) :
    alignOps rotation new ops = some (if rotation.dot q < 0 then ops.map Op.negate else ops) := by
  have hn' := (describes_iff _ _).mp hn
  have hq0 : q.dot q ≠ 0 := by
    intro h
    apply h0
    unfold Quat.dot at h
    have e1 := mul_self_nonneg q.w
    have e2 := mul_self_nonneg q.x
    have e3 := mul_self_nonneg q.y
    have e4 := mul_self_nonneg q.z
    ext <;> exact mul_self_eq_zero.mp (by linarith)
  have hpos : 0 < q.dot q := lt_of_le_of_ne (Quat.dot_self_nonneg q) hq0.symm
  have hk : 0 < 1 / Real.sqrt (q.dot q) := by positivity
  have hsign : rotation.dot (q.smul (1 / Real.sqrt (q.dot q))) < 0 ↔ rotation.dot q < 0 := by
    rw [Quat.dot_smul_right]
    constructor
    · intro h; by_contra hc
      have := mul_nonneg hk.le (not_lt.mp hc); linarith
    · intro h; exact mul_neg_of_pos_of_neg hk h
  rw [alignOps, nextQuat_eq _ _ _ hs]
  have : (⟨lastOf (· = .quatW) Quat.one.w starts, lastOf (· = .quatX) Quat.one.x starts, lastOf (· = .quatY) Quat.one.y starts,
      lastOf (· = .quatZ) Quat.one.z starts⟩ : Quat) = q := by rw [hn']; rfl
  rw [this, Option.bind_some, Quat.normalize, if_neg hq0, Option.map_some]
  simp only [hsign]

/-- C95 for the alignment of quaternions: with spline motivators, the components are negated exactly, so that the matrix is as before and the
rotation is in the hemisphere of the new start; but negated components come to rest. (C44 is about motivators that keep the negated
velocity, as the code asks for.) -/
theorem C95_align {B : ℝ} {ops : List (Op splineDriver)} (ho : State SqtSupported B ops) {new : List (OpInit splineDriver)}
    {r : SqtResult} {starts : List (OpType × ℝ)} {q : Quat} (hr : updateSqt (readOps ops) = some r) (hq : HasQuat (readOps ops))
    (hs : StartsAt new starts) (hn : Describes starts q) (h0 : q ≠ ⟨0, 0, 0, 0⟩) :
    ∃ ops' r', alignOps r.rotation new ops = some ops' ∧ State SqtSupported B ops' ∧ updateSqt (readOps ops') = some r' ∧
      0 ≤ r'.rotation.dot q ∧ r'.matrix = r.matrix ∧ r'.scale = r.scale ∧
      List.Forall₂ (fun o o' => o'.id = o.id ∧ o'.type = o.type ∧
        (if o.type.isQuat ∧ r.rotation.dot q < 0 then o'.value = -o.value ∧ o'.velocity = 0 else o' = o)) ops ops' := by
  have hal := align_spline (ops := ops) (rotation := r.rotation) hs hn h0
  by_cases hc : r.rotation.dot q < 0
  · rw [if_pos hc] at hal
    have hval : ∀ o ∈ ops, o.negate.value = if o.type.isQuat then -o.value else o.value := by
      intro o hm
      by_cases hqt : o.type.isQuat
      · rw [if_pos hqt]; exact (negate_spline (ho.sound o hm) hqt).2.1
      · rw [if_neg hqt, Op.negate, if_neg hqt]
    have hread : readOps (ops.map Op.negate) = negated (readOps ops) := by
      simp only [readOps, negated, List.map_map]
      apply List.map_congr_left
      intro o hm
      simp only [Function.comp_apply, negate_type, hval o hm]
    refine ⟨ops.map Op.negate, { r with rotation := r.rotation.neg }, hal, ⟨?_, ?_, ?_⟩, ?_, ?_, rfl, rfl, ?_⟩
    · have : (ops.map Op.negate).map (·.id) = ops.map (·.id) := by
        rw [List.map_map]; exact List.map_congr_left fun o _ => negate_id o
      rw [this]; exact ho.ascending
    · intro o hm
      obtain ⟨o1, h1, rfl⟩ := List.mem_map.mp hm
      rw [negate_type]; exact ho.supported o1 h1
    · intro o hm
      obtain ⟨o1, h1, rfl⟩ := List.mem_map.mp hm
      by_cases hqt : o1.type.isQuat
      · exact (negate_spline (ho.sound o1 h1) hqt).1
      · rw [Op.negate, if_neg hqt]; exact ho.sound o1 h1
    · rw [hread, updateSqt_negated (updateSqt_supported _ _ hr) hq, hr]
      rfl
    · rw [Quat.dot_neg]; linarith
    · rw [List.forall₂_map_right_iff, List.forall₂_same]
      intro o hm
      refine ⟨negate_id o, negate_type o, ?_⟩
      by_cases hqt : o.type.isQuat
      · rw [if_pos ⟨hqt, hc⟩]; exact (negate_spline (ho.sound o hm) hqt).2
      · rw [if_neg (fun h => hqt h.1), Op.negate, if_neg hqt]
  · rw [if_neg hc] at hal
    refine ⟨ops, r, hal, ho, hr, not_lt.mp hc, rfl, rfl, ?_⟩
    rw [List.forall₂_same]
    intro o _
    exact ⟨rfl, rfl, by rw [if_neg (fun h => hc h.2)]⟩

/-- C95 for SQT motivators: blending to constants, and then as many frames as the blend takes, succeeds, and the operations have the
constants, or their defaults, at rest, up to quantisation. -/
theorem C95_sqt {B : ℝ} (hB : 1 ≤ B) {ops : List (Op splineDriver)} (ho : State SqtSupported B ops) {new : List (OpInit splineDriver)}
    {c : ℕ → ℝ} {pb : Playback} {dts : List ℤ} (h : Pose SqtSupported B new c pb dts) (rotation : Quat) {q : Quat}
    (hq : Describes (new.map fun n => (n.type, c n.id)) q) (h0 : q ≠ ⟨0, 0, 0, 0⟩) :
    ∃ l, (blendToOpsSqt rotation new pb ops).map (fun l => advanceAll l dts) = some l ∧ State SqtSupported B l ∧
      (∀ i, i ∈ l.map (·.id) ↔ i ∈ ops.map (·.id) ∨ i ∈ new.map (·.id)) ∧ ∀ o ∈ l, ∃ v, Goal new c o v ∧ Settled B o v := by
  have hs : StartsAt new (new.map fun n => (n.type, c n.id)) := by
    unfold StartsAt
    rw [List.forall₂_map_right_iff, List.forall₂_same]
    intro n hn
    exact ⟨rfl, by simp only [h.const n hn]; exact .value _⟩
  have hbad : ∀ n ∈ new, OpType.isRotate n.type = false := by
    intro n hn
    have := h.supported n hn
    revert this
    cases n.type <;> simp [SqtSupported, OpType.isQuat, OpType.isRotate, OpType.isTranslate, OpType.isScale]
  have hal := align_spline (ops := ops) (rotation := rotation) hs hq h0
  rw [blendToOpsSqt, hal, Option.bind_some]
  by_cases hc : rotation.dot q < 0
  · rw [if_pos hc]
    have hid : (ops.map Op.negate).map (·.id) = ops.map (·.id) := by
      rw [List.map_map]; exact List.map_congr_left fun o _ => negate_id o
    rw [← hid]
    refine merge_settles hB ⟨by rw [hid]; exact ho.ascending, ?_, ?_⟩ h OpType.isRotate hbad
    · intro o hm
      obtain ⟨o1, h1, rfl⟩ := List.mem_map.mp hm
      rw [negate_type]; exact ho.supported o1 h1
    · intro o hm
      obtain ⟨o1, h1, rfl⟩ := List.mem_map.mp hm
      by_cases hqt : o1.type.isQuat
      · exact (negate_spline (ho.sound o1 h1) hqt).1
      · rw [Op.negate, if_neg hqt]; exact ho.sound o1 h1
  · rw [if_neg hc]
    exact merge_settles hB ho h OpType.isRotate hbad

/-! ### Cases -/

/-- A translation driven by a spline motivator and a constant scale, blended to a rotation: the hypotheses of `C95_program` hold. -/
example : ∃ (ops : List (Op splineDriver)) (c : ℕ → ℝ), State Supported 10 ops ∧ ops.length = 2 ∧ (∃ o ∈ ops, o.motivator.isSome ∧ o.velocity = 3) ∧
    Pose Supported 10 [⟨some ⟨-Real.pi, Real.pi⟩, 5, .rotateZ, .initial 1⟩, ⟨none, 8, .scaleX, .initial 2⟩] c
      { blendX := 100 } [40, 60] := by
  refine ⟨[⟨1, .translateX, some (some ⟨fun _ => none, { spline := some 1, y := 7, cubic := ⟨0, 0, 3, 7⟩ }⟩), 0⟩, ⟨8, .scaleX, none, 4⟩],
    fun i => if i = 5 then 1 else 2, ⟨?_, ?_, ?_⟩, rfl, ⟨_, List.mem_cons_self .., rfl, ?_⟩, ⟨?_, ?_, ?_, ?_, ?_, ?_, ?_, ?_⟩⟩
  · simp [Ascending]
  · simp [Supported, OpType.isTranslate, OpType.isScale]
  · intro o ho
    simp only [List.mem_cons, List.not_mem_nil, or_false] at ho
    rcases ho with rfl | rfl
    · refine ⟨?_, fun _ => by simp [Op.value]; norm_num⟩
      intro m hm
      simp only [Option.some.injEq] at hm
      subst hm
      exact ⟨_, rfl, rfl, rfl, by simp⟩
    · exact ⟨by simp [Ready], fun _ => by simp [Op.value]; norm_num⟩
  · simp [Op.velocity, Slot.derivative, Cubic.deriv]
  · norm_num
  · intro n hn
    simp only [List.mem_cons, List.not_mem_nil, or_false] at hn
    rcases hn with rfl | rfl
    · exact .value _ _ _ _ (by norm_num)
    · exact .const _ _ _ (by norm_num)
  · simp [Ascending]
  · simp [Supported, OpType.isRotate, OpType.isScale]
  · simp
  · simp; norm_num
  · simp [rangeOfOp, OpType.isRotate]
  · norm_num

/-- The velocity is lost for an SQT motivator whose component moves: the hypotheses of `C95_align` hold and the component is negated. -/
theorem C95_align_stops : ∃ (o : Op splineDriver), Sound 1 o ∧ o.type = .quatX ∧ o.velocity = 1 / 2 ∧ o.negate.value = -o.value ∧
    o.negate.velocity = 0 := by
  have ho : Sound 1 ⟨1, .quatX, some (some ⟨fun _ => none, { spline := some 1, y := 1, cubic := ⟨0, 0, 1 / 2, 1⟩ }⟩), 0⟩ := by
    refine ⟨?_, fun _ => by simp [Op.value]⟩
    intro m hm
    simp only [Option.some.injEq] at hm
    subst hm
    exact ⟨_, rfl, rfl, rfl, by simp⟩
  refine ⟨_, ho, rfl, ?_, (negate_spline ho rfl).2⟩
  simp [Op.velocity, Slot.derivative, Cubic.deriv]

end
end Motive.Matrix4
