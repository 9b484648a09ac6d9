import Mathlib.Analysis.SpecialFunctions.Trigonometric.Arctan
import Verif.Curve.Model
import Verif.Matrix.Ops
/-!
# Model of the curves of `AnimData` (src/anim_pipeline/anim_data.h, anim_data.cpp): `AddCurve` and `PruneNodes`

Idealisation: `float` is `ℝ`, `FlatTime` is `ℤ`.  Arrays of samples are functions of the index.  Logging is left out.
-/

namespace Motive.Pipeline
open Motive.Curve Motive.Matrix4

noncomputable section
open Classical

/-- `AnimData::SplineNode` (anim_data.h:95-107); `operator==` is equality. -/
@[ext] structure Node where
  time : ℤ
  val : ℝ
  deriv : ℝ

/-- `Tolerances` (anim_pipeline.h:27-45). -/
structure Tolerances where
  scale : ℝ
  rotate : ℝ
  translate : ℝ
  derivativeAngle : ℝ
  repeatDerivativeAngle : ℝ

/-- `DerivativeAngle` (anim_data.h:37). -/
def derivativeAngle (d : ℝ) : ℝ := Real.arctan d

/-- `ToleranceForOp` (anim_data.cpp:278-284). -/
def Tolerances.forOp (tl : Tolerances) (op : OpType) : ℝ :=
  if op.isRotate then tl.rotate else if op.isTranslate then tl.translate else if op.isScale then tl.scale else 1 / 10

/-! ### `AddCurve` -/

/-- `CurveSegment` (anim_data.h:139-153): the pointers `vals` and `derivatives` are the index `first` into the arrays of the call. -/
structure Segment where
  timeStart : ℤ
  timeEnd : ℤ
  first : ℕ
  count : ℕ

/-- The conversion of a `float` to `FlatTime` (anim_data.cpp:110): truncation towards zero. -/
def trunc (x : ℝ) : ℤ := if 0 ≤ x then ⌊x⌋ else ⌈x⌉

/-- `worst_idx`, `worst_diff` and `worst_time` (anim_data.cpp:89-91). -/
structure Worst where
  idx : ℕ
  diff : ℝ
  time : ℝ

/-- The body of the loop that finds the worst sample (anim_data.cpp:93-100). -/
def worstStep (c : Cubic ℝ) (vals : ℕ → ℝ) (first i : ℕ) (time : ℝ) (w : Worst) : Worst :=
  let diff := |c.eval time - vals (first + i)|
  if w.diff < diff then ⟨i, diff, time⟩ else w

/-- The loop that finds the worst sample (anim_data.cpp:92-102). -/
def worstLoop (c : Cubic ℝ) (vals : ℕ → ℝ) (first : ℕ) (inc : ℝ) (stop i : ℕ) (time : ℝ) (w : Worst) : Worst :=
  if i < stop then worstLoop c vals first inc stop (i + 1) (time + inc) (worstStep c vals first i time w) else w
termination_by stop - i

/-- The cubic over a segment (anim_data.cpp:79-82). -/
def Segment.cubic (s : Segment) (vals derivs : ℕ → ℝ) : Cubic ℝ :=
  Cubic.init ⟨vals s.first, derivs s.first, vals (s.first + (s.count - 1)), derivs (s.first + (s.count - 1)),
    ((s.timeEnd - s.timeStart : ℤ) : ℝ)⟩

/-- The worst sample of a segment (anim_data.cpp:76-102).  A division by a count of one less than one sample gives zero here and an
infinity or NaN in the code; the result is not used. -/
def Segment.worst (s : Segment) (vals derivs : ℕ → ℝ) : Worst :=
  let inc := ((s.timeEnd - s.timeStart : ℤ) : ℝ) / ((s.count - 1 : ℕ) : ℝ)
  worstLoop (s.cubic vals derivs) vals s.first inc (s.count - 1) 1 inc ⟨0, 0, 0⟩

/-- Whether a segment is divided (anim_data.cpp:108). -/
def Segment.divide (s : Segment) (vals derivs : ℕ → ℝ) (tol : ℝ) : Prop :=
  0 < (s.worst vals derivs).idx ∧ tol < (s.worst vals derivs).diff

/-- `time_mid` (anim_data.cpp:109-110). -/
def Segment.mid (s : Segment) (vals derivs : ℕ → ℝ) : ℤ := s.timeStart + trunc (s.worst vals derivs).time
/-- The "start" segment (anim_data.cpp:115-116). -/
def Segment.left (s : Segment) (vals derivs : ℕ → ℝ) : Segment :=
  ⟨s.timeStart, s.mid vals derivs, s.first, (s.worst vals derivs).idx + 1⟩
/-- The "end" segment (anim_data.cpp:113-114). -/
def Segment.right (s : Segment) (vals derivs : ℕ → ℝ) : Segment :=
  ⟨s.mid vals derivs, s.timeEnd, s.first + (s.worst vals derivs).idx, s.count - (s.worst vals derivs).idx⟩

/-- A segment that is good enough is recorded (anim_data.cpp:120-133). -/
def Segment.emit (s : Segment) (vals derivs : ℕ → ℝ) (n : List Node) : List Node :=
  let startNode : Node := ⟨s.timeStart, vals s.first, derivs s.first⟩
  let endNode : Node := ⟨s.timeEnd, vals (s.first + (s.count - 1)), derivs (s.first + (s.count - 1))⟩
  (if n.getLast? = some startNode then n else n ++ [startNode]) ++ [endNode]

theorem worstLoop_idx_le (c : Cubic ℝ) (vals : ℕ → ℝ) (first : ℕ) (inc : ℝ) (stop i : ℕ) (time : ℝ) (w : Worst)
    (h : w.idx < stop ∨ w.idx = 0) :
    (worstLoop c vals first inc stop i time w).idx < stop ∨ (worstLoop c vals first inc stop i time w).idx = 0 := by
  induction i, time, w using worstLoop.induct c vals first inc stop with
  | case1 i time w hi ih =>
    rw [worstLoop, if_pos hi]
    apply ih
    unfold worstStep
    simp only
    split_ifs
    · left; exact hi
    · exact h
  | case2 i time w hi => rw [worstLoop, if_neg hi]; exact h

theorem Segment.worst_lt (s : Segment) (vals derivs : ℕ → ℝ) (h : 0 < (s.worst vals derivs).idx) :
    (s.worst vals derivs).idx + 1 < s.count := by
  have := worstLoop_idx_le (s.cubic vals derivs) vals s.first (((s.timeEnd - s.timeStart : ℤ) : ℝ) / ((s.count - 1 : ℕ) : ℝ))
    (s.count - 1) 1 (((s.timeEnd - s.timeStart : ℤ) : ℝ) / ((s.count - 1 : ℕ) : ℝ)) ⟨0, 0, 0⟩ (Or.inr rfl)
  change (s.worst vals derivs).idx < s.count - 1 ∨ (s.worst vals derivs).idx = 0 at this
  omega

/-- The loop over the stack of segments (anim_data.cpp:72-134); `n` is the list of nodes of the channel. -/
def addCurveLoop (vals derivs : ℕ → ℝ) (tol : ℝ) : List Segment → List Node → List Node
  | [], n => n
  | s :: rest, n =>
    if _h : s.divide vals derivs tol then addCurveLoop vals derivs tol (s.left vals derivs :: s.right vals derivs :: rest) n
    else addCurveLoop vals derivs tol rest (s.emit vals derivs n)
termination_by segs _ => ((segs.map fun s => 2 * s.count - 3).sum, segs.length)
decreasing_by
  · have := s.worst_lt vals derivs _h.1
    have h0 := _h.1
    apply Prod.Lex.left
    simp only [List.map_cons, List.sum_cons, Segment.left, Segment.right]
    omega
  · simp only [List.map_cons, List.sum_cons, List.length_cons]
    rcases Nat.eq_zero_or_pos (2 * s.count - 3) with h | h
    · rw [h, zero_add]; exact Prod.Lex.right _ (by omega)
    · exact Prod.Lex.left _ _ (by omega)

/-- `AddCurve` (anim_data.cpp:64-135) on the nodes of the channel; without samples it reads before the array. -/
def addCurve (tol : ℝ) (n : List Node) (timeStart timeEnd : ℤ) (vals derivs : ℕ → ℝ) (count : ℕ) : Option (List Node) :=
  if count = 0 then none else some (addCurveLoop vals derivs tol [⟨timeStart, timeEnd, 0, count⟩] n)

/-- `AddConstant` (anim_data.cpp:51-56). -/
def addConstant (v : ℝ) : List Node := [⟨0, v, 0⟩]

/-! ### `PruneNodes` -/

/-- `EqualNodes` (anim_data.cpp:601-606). -/
def equalNodes (a b : Node) (tol dtol : ℝ) : Prop :=
  a.time = b.time ∧ |a.val - b.val| < tol ∧ |derivativeAngle (a.deriv - b.deriv)| < dtol

/-- The cubic between two nodes, from time zero (anim_data.cpp:576-578, 493-496). -/
def between (a b : Node) : Cubic ℝ := Cubic.init ⟨a.val, a.deriv, b.val, b.deriv, ((b.time - a.time : ℤ) : ℝ)⟩

/-- `mid_on_c` (anim_data.cpp:582-593). -/
def onCurve (a b mid : Node) (tol dtol : ℝ) : Prop :=
  |(between a b).eval ((mid.time - a.time : ℤ) : ℝ) - mid.val| < tol ∧
    |derivativeAngle ((between a b).deriv ((mid.time - a.time : ℤ) : ℝ) - mid.deriv)| < dtol

/-- The loop over the intermediate nodes (anim_data.cpp:581-595), for the nodes `n i, …, n j`. -/
def midsOnCurve (n : ℕ → Node) (i j : ℕ) (tol dtol : ℝ) (k : ℕ) : Bool :=
  if k < j then
    if onCurve (n i) (n j) (n k) tol dtol then midsOnCurve n i j tol dtol (k + 1) else false
  else true
termination_by j - k

/-- `IntermediateNodesRedundant` (anim_data.cpp:566-599) on `&n[i]` and `j - i + 1`. -/
def redundant (n : ℕ → Node) (i j : ℕ) (tol dtol : ℝ) : Bool :=
  if equalNodes (n i) (n j) tol dtol then true else midsOnCurve n i j tol dtol (i + 1)

/-- The inner loop of `PruneNodes` (anim_data.cpp:148-155): the flags `prune` and `next_i`. -/
def pruneInner (n : ℕ → Node) (size : ℕ) (tol dtol : ℝ) (i j : ℕ) (prune : ℕ → Bool) (next : ℕ) : (ℕ → Bool) × ℕ :=
  if j < size then
    if redundant n i j tol dtol then pruneInner n size tol dtol i (j + 1) (Function.update prune (j - 1) true) j
    else pruneInner n size tol dtol i (j + 1) prune next
  else (prune, next)
termination_by size - j

theorem pruneInner_next (n : ℕ → Node) (size : ℕ) (tol dtol : ℝ) (i j : ℕ) (prune : ℕ → Bool) (next : ℕ)
    (h1 : i < next) (h2 : i < j) : i < (pruneInner n size tol dtol i j prune next).2 := by
  induction j, prune, next using pruneInner.induct n size tol dtol i with
  | case1 j prune next hj hr ih => rw [pruneInner, if_pos hj, if_pos hr]; exact ih h2 (by omega)
  | case2 j prune next hj hr ih => rw [pruneInner, if_pos hj, if_neg hr]; exact ih h1 (by omega)
  | case3 j prune next hj => rw [pruneInner, if_neg hj]; exact h1

/-- The outer loop of `PruneNodes` (anim_data.cpp:146-157). -/
def pruneOuter (n : ℕ → Node) (size : ℕ) (tol dtol : ℝ) (i : ℕ) (prune : ℕ → Bool) : ℕ → Bool :=
  if i < size then
    pruneOuter n size tol dtol (pruneInner n size tol dtol i (i + 2) prune (i + 1)).2
      (pruneInner n size tol dtol i (i + 2) prune (i + 1)).1
  else prune
termination_by size - i
decreasing_by
  have := pruneInner_next n size tol dtol i (i + 2) prune (i + 1) (by omega) (by omega)
  omega

/-- The loop that compacts the nodes (anim_data.cpp:159-168); it is written as the list of the nodes that it keeps. -/
def compact (n : List Node) (prune : ℕ → Bool) : List Node :=
  ((List.range n.length).filter fun i => !prune i).map fun i => n.getD i ⟨0, 0, 0⟩

/-- `is_const` (anim_data.cpp:172-175). -/
def isConst (n : List Node) (tol dtol : ℝ) : Prop :=
  match n with
  | [a, b] => |a.val - b.val| < tol ∧ |derivativeAngle a.deriv| < dtol ∧ |derivativeAngle b.deriv| < dtol
  | _ => False

/-- `PruneNodes` (anim_data.cpp:137-179) on the nodes of the channel. -/
def pruneNodes (tol dtol : ℝ) (n : List Node) : List Node :=
  let kept := compact n (pruneOuter (fun i => n.getD i ⟨0, 0, 0⟩) n.length tol dtol 0 fun _ => false)
  if isConst kept tol dtol then kept.take 1 else kept

end
end Motive.Pipeline
