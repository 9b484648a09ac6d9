import Verif.Spline.Model

/-!
# Model of `BulkSplineEvaluator`
(include/motive/math/bulk_spline_evaluator.h, src/motive/math/bulk_spline_evaluator.cpp)

The parallel vectors of the class (bulk_spline_evaluator.h:381-401) are modelled as one list of records, one per index; they always have
the same length (`SetNumIndices`).  `scratch_` is not modelled, and the C++ code path is modelled, not the assembly
one, which the constructor leaves disabled (bulk_spline_evaluator.h:42).  Splines are objects of a heap, addressed by number, because the
evaluator keeps pointers; a heap entry `none` is memory that holds no spline.  Undefined behaviour is `none`.
-/

namespace Motive.Splines
open Motive.Math Motive.Curve

noncomputable section

/-- Memory that holds splines. -/
abbrev Heap := ℕ → Option Spline

/-- `SplinePlayback` (compact_spline.h:593-631). -/
structure Playback where
  startX : ℝ := 0
  rep : Bool := false
  rate : ℝ := 1
  blendX : ℝ := 0
  yOffset : ℝ := 0
  yScale : ℝ := 1

/-- The data of one index: `Source` (bulk_spline_evaluator.h:316-358), `YRange` (360-366) and the entries of `cubic_xs_`,
`cubic_x_ends_`, `cubics_`, `ys_` (387-401).  Defaults as set by `SetNumIndices` (bulk_spline_evaluator.cpp:38-46). -/
structure Slot where
  rate : ℝ := 1
  yOffset : ℝ := 0
  yScale : ℝ := 1
  spline : Option ℕ := none
  xIndex : ℕ := kInvalid
  rep : Bool := false
  modRange : Range ℝ := ⟨1, 0⟩
  cubicX : ℝ := 0
  cubicXEnd : WithTop ℝ := ((0 : ℝ) : WithTop ℝ)
  cubic : Cubic ℝ := ⟨0, 0, 0, 0⟩
  y : ℝ := 0

namespace Slot

/-- `X` with `CubicStartX` (bulk_spline_evaluator.h:129-131, 294-298). -/
def X (h : Heap) (c : Slot) : Option ℝ :=
  c.spline.bind fun id => (h id).bind fun s => (s.nodeX c.xIndex).map (· + c.cubicX)
/-- `DerivativeWithoutPlayback` (bulk_spline_evaluator.h:167-169). -/
def rawDerivative (c : Slot) : ℝ := c.cubic.deriv c.cubicX
/-- `Derivative` (bulk_spline_evaluator.h:150-152). -/
def derivative (c : Slot) : ℝ := c.rate * c.cubic.deriv c.cubicX
/-- `NormalizeY` (bulk_spline_evaluator.h:256-259). -/
def normalizeY (c : Slot) (y : ℝ) : Option ℝ := if c.modRange.valid then c.modRange.normalizeClose y else some y
/-- `NextY` (bulk_spline_evaluator.h:265-273). -/
def nextY (c : Slot) (current target : ℝ) (dir : Direction) : Option ℝ :=
  if c.modRange.valid then (c.modRange.modDiff current target dir).map (current + ·) else some target

/-- `EvaluateIndex` (bulk_spline_evaluator.cpp:328-332). -/
def evaluate (c : Slot) : Slot := { c with y := c.cubic.eval c.cubicX }

/-- `InitCubic` (bulk_spline_evaluator.cpp:298-326).  The guess `s.x_index + 1` is converted to 16 bits. -/
def initCubic (h : Heap) (c : Slot) (startX : ℝ) : Option Slot :=
  match c.spline with
  | none => some c
  | some id =>
    (h id).bind fun s =>
      (s.indexForXRepeat startX ((c.xIndex + 1) % 65536) c.rep).bind fun p =>
        (s.rangeX p.1).bind fun r =>
          (s.cubicInitAt p.1).map fun i =>
            { c with
              cubicX := p.2 - r.1
              xIndex := p.1
              cubicXEnd := r.2
              cubic := ((Cubic.init i).scaleUp c.yScale).shiftUp c.yOffset }

/-- `JumpToSpline` (bulk_spline_evaluator.cpp:153-164). -/
def jumpTo (h : Heap) (c : Slot) (id : ℕ) (p : Playback) : Option Slot :=
  initCubic h { c with rate := p.rate, yOffset := p.yOffset, yScale := p.yScale, spline := some id,
                       xIndex := kInvalid, rep := p.rep } p.startX

/-- The target value and slope in `CalculateBlendInit` (bulk_spline_evaluator.cpp:74-95). -/
def blendEnd (s : Spline) (p : Playback) : Option (ℝ × ℝ) :=
  (s.indexForXRepeat (p.startX + p.blendX * p.rate) kInvalid p.rep).bind fun e =>
    if outside e.1 then (s.nodeY e.1).map fun y => (y, 0)
    else (s.nodeX e.1).bind fun x0 => (s.cubicInitAt e.1).map fun i =>
      ((Cubic.init i).eval (e.2 - x0), (Cubic.init i).deriv (e.2 - x0))

/-- The start and end values of the blend in `CalculateBlendInit` (bulk_spline_evaluator.cpp:101-115): modular arithmetic takes the
shorter way round. -/
def blendYs (c : Slot) (endY : ℝ) : Option (ℝ × ℝ) :=
  if c.modRange.valid then
    (c.modRange.normalizeClose c.y).bind fun sy =>
      (c.modRange.normalizeClose endY).bind fun ey =>
        (c.modRange.normalize (ey - sy)).map fun d => (sy, sy + d)
  else some (c.y, endY)

/-- `CalculateBlendInit` (bulk_spline_evaluator.cpp:70-120). -/
def blendInit (c : Slot) (s : Spline) (p : Playback) : Option (CubicInit ℝ) :=
  (blendEnd s p).bind fun e =>
    (c.blendYs (e.1 * p.yScale + p.yOffset)).map fun ys =>
      ⟨ys.1, c.derivative, ys.2, e.2, p.blendX * p.rate⟩

/-- `BlendToSpline` (bulk_spline_evaluator.cpp:122-151). -/
def blendTo (h : Heap) (c : Slot) (id : ℕ) (p : Playback) : Option Slot :=
  (h id).bind fun s =>
    (c.blendInit s p).bind fun i =>
      (s.indexForXRepeat p.startX kInvalid p.rep).bind fun st =>
        (s.nodeX st.1).map fun x0 =>
          { c with
            rate := p.rate, yOffset := p.yOffset, yScale := p.yScale, spline := some id, xIndex := st.1,
            rep := p.rep
            cubicX := st.2 - x0
            cubicXEnd := ((st.2 - x0 + p.blendX * p.rate : ℝ) : WithTop ℝ)
            cubic := (Cubic.init i).shiftRight (st.2 - x0) }

/-- One iteration of `SetSplines` with a spline (bulk_spline_evaluator.cpp:178-191). -/
def setSpline (h : Heap) (c : Slot) (id : ℕ) (p : Playback) : Option Slot :=
  (if c.spline.isSome ∧ 0 < p.blendX then c.blendTo h id p else c.jumpTo h id p).map evaluate

/-- One iteration of `ClearSplines` (bulk_spline_evaluator.cpp:203-208). -/
def clearSpline (c : Slot) : Slot :=
  { c with spline := none, cubic := ⟨0, 0, 0, c.cubicX⟩, cubicX := 0, cubicXEnd := ⊤ }

/-- One iteration of `SetXs` (bulk_spline_evaluator.cpp:211-217). -/
def setX (h : Heap) (c : Slot) (x : ℝ) : Option Slot := (c.initCubic h x).map evaluate

/-- What `AdvanceFrame` does to one index: `UpdateCubicXs_OneStep` (bulk_spline_evaluator.cpp:281-296), then the re-initialisation
(346-350), then `EvaluateCubics_C` (334-338).  The three loops of `AdvanceFrame` each touch only the data of their
own index, so they are fused here. -/
def advance (h : Heap) (dx : ℝ) (c : Slot) : Option Slot :=
  let c1 := { c with cubicX := c.cubicX + dx * c.rate }
  (if c1.cubicXEnd < ((c1.cubicX : ℝ) : WithTop ℝ) then (c1.X h).bind fun x => c1.initCubic h x
   else some c1).map evaluate

end Slot

/-- The evaluator: one record per index. -/
abbrev Evaluator := List Slot

namespace Evaluator

/-- `SetNumIndices` (bulk_spline_evaluator.cpp:38-46). -/
def setNumIndices (e : Evaluator) (n : ℕ) : Evaluator := e.take n ++ List.replicate (n - e.length) ({} : Slot)

/-- One iteration of `MoveIndices` (bulk_spline_evaluator.cpp:50-59): each vector is copied. -/
def copyOne (e : Evaluator) (old new : ℕ) : Option Evaluator :=
  (e[old]?).bind fun a => (e[new]?).map fun b =>
    e.set new { b with
      rate := a.rate, yOffset := a.yOffset, yScale := a.yScale, spline := a.spline, xIndex := a.xIndex, rep := a.rep
      modRange := a.modRange
      cubicX := a.cubicX
      cubicXEnd := a.cubicXEnd
      cubic := a.cubic
      y := a.y }

/-- `MoveIndices` (bulk_spline_evaluator.cpp:48-60), from iteration `i`, with `n` iterations left. -/
def moveLoop (e : Evaluator) (old new i : ℕ) : ℕ → Option Evaluator
  | 0 => some e
  | n + 1 => (copyOne e (old + i) (new + i)).bind fun e' => moveLoop e' old new (i + 1) n
/-- `MoveIndices` (bulk_spline_evaluator.cpp:48-60). -/
def moveIndices (e : Evaluator) (old new count : ℕ) : Option Evaluator := moveLoop e old new 0 count

/-- The second loop of `CopyIndices` (bulk_spline_evaluator.h:81-83); `alloc` is the caller's function. -/
def assignLoop (e : Evaluator) (alloc : ℕ → Option ℕ → Option ℕ) (dst src i : ℕ) : ℕ → Option Evaluator
  | 0 => some e
  | n + 1 =>
    (e[src + i]?).bind fun a => (e[dst + i]?).bind fun b =>
      assignLoop (e.set (dst + i) { b with spline := alloc (dst + i) a.spline }) alloc dst src (i + 1) n
/-- `CopyIndices` (bulk_spline_evaluator.h:78-84). -/
def copyIndices (e : Evaluator) (dst src count : ℕ) (alloc : ℕ → Option ℕ → Option ℕ) : Option Evaluator :=
  (moveIndices e src dst count).bind fun e' => assignLoop e' alloc dst src 0 count

/-- Update the record at one index; an index outside the vectors is `none`. -/
def modify (e : Evaluator) (i : ℕ) (f : Slot → Option Slot) : Option Evaluator :=
  (e[i]?).bind fun c => (f c).map fun c' => e.set i c'

/-- `SetSplines` (bulk_spline_evaluator.cpp:166-193) for a non-null pointer; `ids` are the splines of the array, in order. -/
def setSplines (h : Heap) (e : Evaluator) (index : ℕ) (ids : List ℕ) (p : Playback) : Option Evaluator :=
  match ids with
  | [] => some e
  | id :: rest => (e.modify index fun c => c.setSpline h id p).bind fun e' => setSplines h e' (index + 1) rest p

/-- `AdvanceFrame` (bulk_spline_evaluator.cpp:340-355). -/
def advanceFrame (h : Heap) (dx : ℝ) (e : Evaluator) : Option Evaluator := e.mapM (Slot.advance h dx)

/-- `Valid` (bulk_spline_evaluator.cpp:357-360). -/
def valid (e : Evaluator) (i : ℕ) : Bool := (e[i]?).any fun c => c.spline.isSome

end Evaluator
end
end Motive.Splines
