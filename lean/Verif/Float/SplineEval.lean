import Verif.Float.Cubic
import Verif.Spline.EvalProps

/-!
# Evaluating a spline in single precision (C99)

`Verif/Spline/Model.lean` models `CompactSpline` in exact arithmetic.  Here a spline with given nodes is evaluated as the
code does (src/motive/math/compact_spline.cpp: `CalculatedSlowly`), with every operation rounded to `float`.  The slope of a
node is `tan` of its angle, whose rounding the C library does not specify: the theorems hold for every function `slope` from
angles to floats.
-/

namespace Motive.Float.Hermite

open Motive.Curve (Cubic CubicInit)
open Motive.Math (Range)
open Motive.Splines (Node kBefore kAfter outside SortedX)
open Motive.Splines.Spline (ValueType)
open Motive.Float.Quantize (quantizeX readX readY toInt quantize_core)

noncomputable section

/-! ### Model -/

/-- `CompactSpline` (compact_spline.h:568-591): range of y, granularity and nodes. -/
structure Spline where
  yRange : Range ℚ
  g : ℚ
  nodes : List Node

/-- The same spline in the exact model. -/
def Spline.exact (s : Spline) : Motive.Splines.Spline :=
  ⟨⟨s.yRange.start, s.yRange.stop⟩, s.g, s.nodes, s.nodes.length⟩

section Model
variable (rnd : ℚ → ℚ) (fused : Bool) (slope : ℤ → ℚ)

/-- `WidthX` (compact_spline.h:548-551). -/
def widthX (s : Spline) (a b : Node) : ℚ := rnd (((b.x : ℤ) - (a.x : ℤ) : ℤ) * s.g)

/-- The test of the guess in `IndexForX` (compact_spline.cpp:297-299). -/
def guessOk (s : Spline) (q i : ℕ) : Bool :=
  s.exact.containsX q i &&
    match s.nodes[i]?, s.nodes[i + 1]? with
    | some a, some b => decide (0 < widthX rnd s a b)
    | _, _ => false

/-- The last part of `IndexForX` (compact_spline.cpp:293-307) with its assertion.  `IndexContainsX` and
`BinarySearchIndexForX` compare quantised positions only, so they are those of the exact model. -/
def searchIndex (s : Spline) (q guess : ℕ) : Option ℕ :=
  if guessOk rnd s q guess then some guess
  else (s.exact.binarySearch q).bind fun i => if s.exact.containsX q i then some i else none

/-- `IndexForX` (compact_spline.cpp:275-308). -/
def indexForX (s : Spline) (x : ℚ) (guess : ℕ) : Option ℕ :=
  (quantizeX rnd x s.g).bind fun q =>
    s.nodes.head?.bind fun f =>
      s.nodes.getLast?.bind fun b =>
        if q < f.x then some kBefore
        else if q = b.x ∧ 2 ≤ s.nodes.length then some (s.nodes.length - 2)
        else if (b.x : ℤ) ≤ q then some kAfter
        else searchIndex rnd s q.toNat guess

/-- `NodeX` of a node (compact_spline.cpp:187-196). -/
def nodeX (s : Spline) (n : Node) : ℚ := readX rnd n.x s.g
/-- `NodeY` of a node (compact_spline.cpp:198-203). -/
def nodeY (s : Spline) (n : Node) : ℚ := readY rnd n.y s.yRange

/-- `CreateCubicInit` of two nodes (compact_spline.cpp:392-397). -/
def cubicInit (s : Spline) (a b : Node) : CubicInit ℚ :=
  ⟨nodeY rnd s a, slope a.angle, nodeY rnd s b, slope b.angle, widthX rnd s a b⟩

/-- `CurveValue` (curve.h:460-476). -/
def curveValue (c : Cubic ℚ) (x : ℚ) : ValueType → ℚ
  | .value => eval rnd fused c x
  | .derivative => deriv rnd fused c x
  | .second => second rnd fused c x
  | .third => third rnd c

/-- `CalculatedSlowly` (compact_spline.cpp:205-221) with `CreateCubicInit(index)` (379-390). -/
def calculate (s : Spline) (x : ℚ) (t : ValueType) : Option ℚ :=
  (indexForX rnd s x 0).bind fun i =>
    if i = kBefore then (if t = .value then s.nodes.head?.map (nodeY rnd s) else some 0)
    else if i = kAfter then (if t = .value then s.nodes.getLast?.map (nodeY rnd s) else some 0)
    else (s.nodes[i]?).bind fun a => (s.nodes[i + 1]?).map fun b =>
      curveValue rnd fused (init rnd (cubicInit rnd slope s a b)) (rnd (x - nodeX rnd s a)) t

end Model

/-! ### Specification -/

/-- A spline as `AddNode` builds it (C22), with a granularity that is a float between `2 ^ -30` and `2 ^ 14`. -/
structure Spline.Legal (s : Spline) : Prop where
  mem : f32.Mem s.g
  least : 1 / 2 ^ 30 ≤ s.g
  most : s.g ≤ 2 ^ 14
  nonempty : 0 < s.nodes.length
  count : s.nodes.length ≤ 65534
  sorted : ∀ (i : ℕ) (a b : Node), s.nodes[i]? = some a → s.nodes[i + 1]? = some b → a.x ≤ b.x
  atMostTwo : ∀ (i : ℕ) (a c : Node), s.nodes[i]? = some a → s.nodes[i + 2]? = some c → a.x < c.x
  ok : ∀ n ∈ s.nodes, n.Ok

/-- The distance of two nodes. -/
def gap (s : Spline) (a b : Node) : ℚ := ((b.x : ℚ) - a.x) * s.g

/-- How far a value may be from `y` on a segment over which the curve may change by `D`. -/
def tolerance (y D : ℚ) : ℚ := |y| / 2 ^ 24 + D / 2 ^ 17 + 1 / 2 ^ 50

/-! ### Proofs -/

variable {rnd : ℚ → ℚ} {fused : Bool} {slope : ℤ → ℚ} {s : Spline}

theorem Spline.Legal.pos (hs : s.Legal) : 0 < s.g := lt_of_lt_of_le (by norm_num) hs.least

theorem Spline.Legal.wf (hs : s.Legal) : s.exact.WF :=
  ⟨by simpa [Spline.exact] using hs.pos, hs.sorted, hs.atMostTwo, le_rfl, hs.ok⟩

theorem Spline.Legal.indexable (hs : s.Legal) : s.exact.Indexable := ⟨hs.nonempty, hs.count⟩

theorem widthX_pos (h : Nearest f32 rnd) (hs : s.Legal) (a b : Node) : 0 < widthX rnd s a b ↔ a.x < b.x := by
  have hg := hs.pos
  unfold widthX
  constructor
  · intro hp
    by_contra hc
    have hle : (((b.x : ℤ) - (a.x : ℤ) : ℤ) : ℚ) ≤ 0 := by
      have : (b.x : ℤ) - (a.x : ℤ) ≤ 0 := by omega
      exact_mod_cast this
    have := h.le_of_le (x := (((b.x : ℤ) - (a.x : ℤ) : ℤ) : ℚ) * s.g) mem_zero (mul_nonpos_of_nonpos_of_nonneg hle hg.le)
    linarith
  · intro hlt
    have hle : (1 : ℚ) ≤ (((b.x : ℤ) - (a.x : ℤ) : ℤ) : ℚ) := by
      have : 1 ≤ (b.x : ℤ) - (a.x : ℤ) := by omega
      exact_mod_cast this
    have := h.ge_of_ge (x := (((b.x : ℤ) - (a.x : ℤ) : ℤ) : ℚ) * s.g) hs.mem (le_mul_of_one_le_left hg.le hle)
    linarith

theorem guessOk_eq (h : Nearest f32 rnd) (hs : s.Legal) (q i : ℕ) : guessOk rnd s q i = s.exact.guessOk q i := by
  have hw : ∀ a b : Node, decide (0 < widthX rnd s a b) = decide (0 < s.exact.widthX a b) := by
    intro a b
    have h1 := widthX_pos h hs a b
    have h2 : 0 < s.exact.widthX a b ↔ a.x < b.x := by
      simp only [Motive.Splines.Spline.widthX]
      rw [mul_pos_iff_of_pos_right hs.wf.g_pos, sub_pos]
      exact Nat.cast_lt
    rw [decide_eq_decide, h1, h2]
  unfold guessOk Motive.Splines.Spline.guessOk
  simp only [hw]
  rfl

/-- Finding the segment is a matter of the quantised position. -/
theorem index_of_quantized (h : Nearest f32 rnd) (hs : s.Legal) {x : ℚ} {q : ℤ} (hq : quantizeX rnd x s.g = some q)
    (h0 : 0 ≤ q) (h1 : q < 2 ^ 31) (guess : ℕ) :
    Motive.Splines.quantizeX ((q : ℝ) * s.exact.g) s.exact.g = some q ∧
    indexForX rnd s x guess = s.exact.indexForX ((q : ℝ) * s.exact.g) guess := by
  have hg := hs.wf.g_pos
  have e : (q : ℝ) * s.exact.g / s.exact.g = q := by field_simp
  have hq' : Motive.Splines.quantizeX ((q : ℝ) * s.exact.g) s.exact.g = some q := by
    have h0' : (0 : ℝ) ≤ q := by exact_mod_cast h0
    have h1' : (q : ℝ) ≤ 2147483647 := by
      have : q ≤ 2147483647 := by omega
      exact_mod_cast this
    rw [Motive.Splines.quantizeX_eq hg (by nlinarith) (by rw [e]; linarith), e]
    congr 1
    rw [Int.floor_eq_iff]
    constructor <;> linarith
  refine ⟨hq', ?_⟩
  unfold indexForX Motive.Splines.Spline.indexForX
  rw [hq, hq']
  simp only [Option.bind_some]
  unfold searchIndex Motive.Splines.Spline.searchIndex
  simp only [guessOk_eq h hs]
  rfl

theorem calculate_at (hs : s.Legal) {x : ℚ} {i : ℕ} {a b : Node} (hi : indexForX rnd s x 0 = some i)
    (ha : s.nodes[i]? = some a) (hb : s.nodes[i + 1]? = some b) (t : ValueType) :
    calculate rnd fused slope s x t =
      some (curveValue rnd fused (init rnd (cubicInit rnd slope s a b)) (rnd (x - nodeX rnd s a)) t) := by
  have hlt := (List.getElem?_eq_some_iff.mp hb).1
  have hc := hs.count
  have h1 : i ≠ kBefore := by simp only [kBefore]; omega
  have h2 : i ≠ kAfter := by simp only [kAfter]; omega
  unfold calculate
  rw [hi]
  simp only [Option.bind_some]
  rw [if_neg h1, if_neg h2, ha, hb]
  rfl

/-- The reported position of a node. -/
theorem nodeX_near (h : Nearest f32 rnd) (hs : s.Legal) {n : Node} (hn : n ∈ s.nodes) :
    |nodeX rnd s n - n.x * s.g| ≤ s.g / 2 ^ 8 := by
  have hg := hs.pos
  have hle : (n.x : ℚ) ≤ 65535 := by exact_mod_cast (hs.ok n hn).1
  have e := err_any h ((n.x : ℚ) * s.g)
  rw [abs_of_nonneg (show 0 ≤ (n.x : ℚ) * s.g by positivity)] at e
  have h1 : (n.x : ℚ) * s.g ≤ 65535 * s.g := mul_le_mul_of_nonneg_right hle hg.le
  have h2 : u * ((n.x : ℚ) * s.g) ≤ u * (65535 * s.g) := mul_le_mul_of_nonneg_left h1 u_pos.le
  have h3 : u * (65535 * s.g) + eta ≤ s.g / 2 ^ 8 := by
    have := hs.least
    have e1 : u * (65535 * s.g) = 65535 / 2 ^ 24 * s.g := by rw [u]; ring
    have e2 : eta ≤ 1 / 2 ^ 24 * (1 / 2 ^ 30) := by norm_num [eta]
    rw [e1]
    linarith
  unfold nodeX readX
  push_cast
  linarith

theorem floats_init (h : Nearest f32 rnd) (hsl : ∀ a, f32.Mem (slope a)) (s : Spline) (a b : Node) :
    Floats (cubicInit rnd slope s a b) := by
  refine ⟨?_, hsl _, ?_, hsl _, h.mem _⟩
  · exact h.mem _
  · exact h.mem _

/-- The values computed on a segment. -/
theorem segment_value (h : Nearest f32 rnd) (hsl : ∀ a, f32.Mem (slope a)) (hs : s.Legal) {i : ℕ} {a b : Node}
    (ha : s.nodes[i]? = some a) (hb : s.nodes[i + 1]? = some b) (hab : a.x < b.x) {x : ℚ}
    (hi : indexForX rnd s x 0 = some i) (hx0 : a.x * s.g - s.g / 2 ^ 8 ≤ x) (hx1 : x ≤ b.x * s.g + s.g / 2 ^ 8)
    {p : Cubic ℚ} (hp : Through (cubicInit rnd slope s a b) (gap s a b) p) :
    ∃ z y d d2 d3, |a.x * s.g + z - x| ≤ s.g / 64 ∧
      calculate rnd fused slope s x .value = some y ∧
      |y - p.eval z| ≤ tolerance (p.eval z) (change (cubicInit rnd slope s a b) (gap s a b)) ∧
      calculate rnd fused slope s x .derivative = some d ∧
      |d - p.deriv z| ≤ |p.deriv z| / 2 ^ 24 + change (cubicInit rnd slope s a b) (gap s a b) / gap s a b / 2 ^ 16 + 1 / 2 ^ 80 ∧
      calculate rnd fused slope s x .second = some d2 ∧
      |d2 - p.second z| ≤ change (cubicInit rnd slope s a b) (gap s a b) / gap s a b / gap s a b / 2 ^ 15 + 1 / 2 ^ 110 ∧
      calculate rnd fused slope s x .third = some d3 ∧
      |d3 - p.third| ≤ change (cubicInit rnd slope s a b) (gap s a b) / gap s a b / gap s a b / gap s a b / 2 ^ 16 + 1 / 2 ^ 140 := by
  have hg := hs.pos
  have na := nodeX_near h hs (List.mem_of_getElem? ha)
  have hb65 : (b.x : ℚ) ≤ 65535 := by exact_mod_cast (hs.ok b (List.mem_of_getElem? hb)).1
  have ha0 : (0 : ℚ) ≤ a.x := by positivity
  have hab1 : (a.x : ℚ) + 1 ≤ b.x := by exact_mod_cast hab
  -- the width
  have hw1 : s.g ≤ gap s a b := by
    unfold gap
    have := mul_le_mul_of_nonneg_right (show (1 : ℚ) ≤ (b.x : ℚ) - a.x by linarith) hg.le
    linarith
  have hw2 : gap s a b ≤ 65535 * s.g := by
    unfold gap
    exact mul_le_mul_of_nonneg_right (by linarith) hg.le
  have hlow : 1 / 2 ^ 30 ≤ gap s a b := hs.least.trans hw1
  have hhigh : gap s a b ≤ 2 ^ 30 := by
    have := mul_le_mul_of_nonneg_left hs.most (show (0 : ℚ) ≤ 65535 by norm_num)
    refine (hw2.trans this).trans (by norm_num)
  have hwpos : 0 < gap s a b := lt_of_lt_of_le hg hw1
  have hv : |(cubicInit rnd slope s a b).widthX - gap s a b| ≤ gap s a b / 2 ^ 24 := by
    have e : (cubicInit rnd slope s a b).widthX = rnd (gap s a b) := by
      simp only [cubicInit, widthX, gap]; push_cast; rfl
    rw [e]
    have := err_normal h (x := gap s a b) (by
      rw [abs_of_pos hwpos]; refine le_trans ?_ hlow; norm_num)
    rw [abs_of_pos hwpos, u] at this
    linarith
  -- the position on the segment
  set z := rnd (x - nodeX rnd s a) with hz
  have na' := abs_le.mp na
  have hdiff : |x - nodeX rnd s a| ≤ gap s a b + s.g / 2 ^ 7 := by
    unfold gap
    rw [abs_le]
    constructor
    · have := hwpos; unfold gap at this; linarith
    · linarith [na'.1]
  have ez := err_any h (x - nodeX rnd s a)
  rw [← hz] at ez
  have ez' : |z - (x - nodeX rnd s a)| ≤ s.g / 2 ^ 7 := by
    refine ez.trans ?_
    have h2 : u * |x - nodeX rnd s a| ≤ u * (65536 * s.g) := mul_le_mul_of_nonneg_left (by linarith) u_pos.le
    have e1 : u * (65536 * s.g) = 1 / 2 ^ 8 * s.g := by rw [u]; ring
    have e2 : eta ≤ 1 / 2 ^ 24 * (1 / 2 ^ 30) := by norm_num [eta]
    have := hs.least
    rw [e1] at h2
    linarith
  have hzx : |z| ≤ 65 / 64 * gap s a b := by
    have : |z| ≤ |x - nodeX rnd s a| + |z - (x - nodeX rnd s a)| := by
      have e : z = (x - nodeX rnd s a) + (z - (x - nodeX rnd s a)) := by ring
      calc |z| = |(x - nodeX rnd s a) + (z - (x - nodeX rnd s a))| := by rw [← e]
        _ ≤ _ := abs_add_le _ _
    linarith
  have hh := C99_higher (fused := fused) h (floats_init h hsl s a b) hv hlow hhigh hp hzx
  refine ⟨z, _, _, _, _, ?_, calculate_at hs hi ha hb .value, ?_, calculate_at hs hi ha hb .derivative, ?_,
    calculate_at hs hi ha hb .second, hh.1, calculate_at hs hi ha hb .third, hh.2⟩
  · have e : (a.x : ℚ) * s.g + z - x = (z - (x - nodeX rnd s a)) + -(nodeX rnd s a - a.x * s.g) := by ring
    rw [e]
    refine (abs_add_le _ _).trans ?_
    rw [abs_neg]
    linarith
  · exact C99_value h (floats_init h hsl s a b) hv hlow hhigh hp hzx
  · exact C99_slope h (floats_init h hsl s a b) hv hlow hhigh hp hzx

/-- The segment that contains a quantised position between two nodes. -/
theorem index_between (h : Nearest f32 rnd) (hs : s.Legal) {x : ℚ} {q : ℤ} (hq : quantizeX rnd x s.g = some q)
    {i : ℕ} {a b : Node} (ha : s.nodes[i]? = some a) (hb : s.nodes[i + 1]? = some b) (h0 : (a.x : ℤ) < q) (h1 : q < b.x) :
    indexForX rnd s x 0 = some i := by
  have hb65 := (hs.ok b (List.mem_of_getElem? hb)).1
  obtain ⟨hq', e⟩ := index_of_quantized h hs hq (by omega) (by omega) 0
  rw [e]
  have hw := hs.wf
  obtain ⟨j, f, l, hj, hf0, hl, -, -, j3⟩ := Motive.Splines.Spline.C23_index_for_x hw hs.indexable hq' 0
  have hlt := (List.getElem?_eq_some_iff.mp hb).1
  have hfa := hw.sorted.le (Nat.zero_le i) hf0 ha
  have hlen : s.exact.nodes.length = s.nodes.length := rfl
  have hbl := hw.sorted.le (show i + 1 ≤ s.exact.nodes.length - 1 by omega) hb hl
  obtain ⟨a', c', -, ha', hc', e1, e2, -⟩ := j3 (by omega) (by omega) (by omega)
  have hij : j = i := by
    rcases lt_trichotomy i j with h | h | h
    · have := hw.sorted.le (show i + 1 ≤ j by omega) hb ha'; omega
    · exact h.symm
    · have := hw.sorted.le (show j + 1 ≤ i by omega) hc' ha; omega
  rw [hj, hij]

/-- **C99**: a spline in single precision, more than 9/16 of a granularity away from the nodes.  The value and the three
derivatives are those of the exact cubic through the two neighbouring nodes, with the y and slope that they report, at a position that
is at most 1/64 of a granularity away; they differ by the rounding error of `C99_value`,
`C99_slope` and `C99_higher`. -/
theorem C99_spline_between (h : Nearest f32 rnd) (hsl : ∀ a, f32.Mem (slope a)) (hs : s.Legal) {i : ℕ} {a b : Node}
    (ha : s.nodes[i]? = some a) (hb : s.nodes[i + 1]? = some b) {x : ℚ}
    (hx0 : (a.x + 9 / 16) * s.g ≤ x) (hx1 : x ≤ (b.x - 9 / 16) * s.g)
    {p : Cubic ℚ} (hp : Through (cubicInit rnd slope s a b) (gap s a b) p) :
    ∃ z y d d2 d3, |a.x * s.g + z - x| ≤ s.g / 64 ∧
      calculate rnd fused slope s x .value = some y ∧
      |y - p.eval z| ≤ tolerance (p.eval z) (change (cubicInit rnd slope s a b) (gap s a b)) ∧
      calculate rnd fused slope s x .derivative = some d ∧
      |d - p.deriv z| ≤ |p.deriv z| / 2 ^ 24 + change (cubicInit rnd slope s a b) (gap s a b) / gap s a b / 2 ^ 16 + 1 / 2 ^ 80 ∧
      calculate rnd fused slope s x .second = some d2 ∧
      |d2 - p.second z| ≤ change (cubicInit rnd slope s a b) (gap s a b) / gap s a b / gap s a b / 2 ^ 15 + 1 / 2 ^ 110 ∧
      calculate rnd fused slope s x .third = some d3 ∧
      |d3 - p.third| ≤ change (cubicInit rnd slope s a b) (gap s a b) / gap s a b / gap s a b / gap s a b / 2 ^ 16 + 1 / 2 ^ 140 := by
  have hg := hs.pos
  have hb65 : (b.x : ℚ) ≤ 65535 := by exact_mod_cast (hs.ok b (List.mem_of_getElem? hb)).1
  have ha0 : (0 : ℚ) ≤ a.x := by positivity
  have d0 : a.x + 9 / 16 ≤ x / s.g := by rwa [le_div_iff₀ hg]
  have d1 : x / s.g ≤ b.x - 9 / 16 := by rwa [div_le_iff₀ hg]
  obtain ⟨q, hq, q0, q1, hqd⟩ := quantize_core h (t := x / s.g) (by linarith) (by linarith)
  have hq' : quantizeX rnd x s.g = some q := by unfold quantizeX; rw [if_neg hg.ne', hq]
  rw [abs_le] at hqd
  have qa : (a.x : ℤ) < q := by
    have : (a.x : ℚ) < q := by linarith [hqd.1]
    exact_mod_cast this
  have qb : q < b.x := by
    have : (q : ℚ) < b.x := by linarith [hqd.2]
    exact_mod_cast this
  refine segment_value h hsl hs ha hb (by omega) (index_between h hs hq' ha hb qa qb) ?_ ?_ hp <;> nlinarith

/-- The position of a node is quantised to the position that is stored. -/
theorem quantize_nodeX (h : Nearest f32 rnd) (hs : s.Legal) {n : Node} (hn : n ∈ s.nodes) :
    quantizeX rnd (nodeX rnd s n) s.g = some (n.x : ℤ) := by
  have hg := hs.pos
  have h65 : (n.x : ℚ) ≤ 65535 := by exact_mod_cast (hs.ok n hn).1
  have nn := abs_le.mp (nodeX_near h hs hn)
  have d0 : (n.x : ℚ) - 1 / 2 ^ 8 ≤ nodeX rnd s n / s.g := by rw [le_div_iff₀ hg]; linarith
  have d1 : nodeX rnd s n / s.g ≤ n.x + 1 / 2 ^ 8 := by rw [div_le_iff₀ hg]; linarith
  have hnn : 0 ≤ nodeX rnd s n / s.g := by
    refine div_nonneg (h.ge_of_ge mem_zero ?_) hg.le
    push_cast; positivity
  obtain ⟨q, hq, q0, q1, hqd⟩ := quantize_core h hnn (by linarith)
  rw [abs_le] at hqd
  have e1 : q < (n.x : ℤ) + 1 := by
    have : (q : ℚ) < n.x + 1 := by linarith [hqd.2]
    exact_mod_cast this
  have e2 : (n.x : ℤ) < q + 1 := by
    have : (n.x : ℚ) < q + 1 := by linarith [hqd.1]
    exact_mod_cast this
  unfold quantizeX
  rw [if_neg hg.ne', hq]
  congr 1
  omega

/-- **C99**: at the reported position of a node the spline has exactly the reported value and slope, unless that node is
the second or the last one, or shares its position with another. -/
theorem C99_spline_node (h : Nearest f32 rnd) (hsl : ∀ a, f32.Mem (slope a)) (hs : s.Legal) {k : ℕ} {n b : Node}
    (hn : s.nodes[k]? = some n) (hb : s.nodes[k + 1]? = some b) (hnb : n.x < b.x)
    (h1 : k ≠ 1) (hprev : ∀ a, s.nodes[k - 1]? = some a → k ≠ 0 → a.x < n.x) :
    calculate rnd fused slope s (nodeX rnd s n) .value = some (nodeY rnd s n) ∧
    calculate rnd fused slope s (nodeX rnd s n) .derivative = some (slope n.angle) := by
  have hq := quantize_nodeX h hs (List.mem_of_getElem? hn)
  have h65 := (hs.ok n (List.mem_of_getElem? hn)).1
  obtain ⟨hq', e⟩ := index_of_quantized h hs hq (by omega) (by omega) 0
  have hw := hs.wf
  have hlt := (List.getElem?_eq_some_iff.mp hb).1
  have hidx : indexForX rnd s (nodeX rnd s n) 0 = some k := by
    obtain ⟨f, hf0⟩ : ∃ f, s.nodes[0]? = some f := ⟨_, List.getElem?_eq_getElem (by omega)⟩
    obtain ⟨l, hl0⟩ : ∃ l, s.nodes[s.nodes.length - 1]? = some l := ⟨_, List.getElem?_eq_getElem (by omega)⟩
    have hfn := hw.sorted.le (Nat.zero_le k) hf0 hn
    have hbl := hw.sorted.le (show k + 1 ≤ s.nodes.length - 1 by omega) hb hl0
    have hf : s.exact.nodes.head? = some f := by rw [List.head?_eq_getElem?]; exact hf0
    have hl : s.exact.nodes.getLast? = some l := by rw [List.getLast?_eq_getElem?]; exact hl0
    rw [e]
    unfold Motive.Splines.Spline.indexForX
    rw [hq', hf, hl]
    simp only [Option.bind_some]
    rw [if_neg (by omega), if_neg (by omega), if_neg (by omega)]
    obtain ⟨j, a', c', hj, ha', hc', e1, e2, e3, e4⟩ := Motive.Splines.Spline.searchIndex_spec hw (q := ((n.x : ℤ)).toNat)
      (guess := 0) hf hl (by omega) (by omega)
    rw [hj]
    congr 1
    rcases lt_trichotomy j k with hjk | hjk | hjk
    · exfalso
      have hcn := hw.sorted.le (show j + 1 ≤ k by omega) hc' hn
      rcases e4 with e4 | e4
      · -- the guess is the first segment: its end is before the node
        subst e4
        have hk : 2 ≤ k := by omega
        obtain ⟨m, hm⟩ : ∃ m, s.nodes[k - 1]? = some m := ⟨_, List.getElem?_eq_getElem (by omega)⟩
        have h3 := hprev m hm (by omega)
        have h4 := hw.sorted.le (show 0 + 1 ≤ k - 1 by omega) hc' hm
        omega
      · omega
    · exact hjk
    · exfalso
      have := hw.sorted.le (show k + 1 ≤ j by omega) hb ha'
      omega
  have hz : nodeX rnd s n - nodeX rnd s n = 0 := sub_self _
  have hst := C99_start (fused := fused) h (floats_init h hsl s n b) ((widthX_pos h hs n b).mpr hnb)
  rw [calculate_at hs hidx hn hb, calculate_at hs hidx hn hb, hz, h.zero]
  exact ⟨congrArg some hst.1, congrArg some hst.2⟩

/-- **C99**: before the first node and after the last one, by 9/16 of a granularity, the spline is exactly constant. -/
theorem C99_spline_outside (h : Nearest f32 rnd) (hs : s.Legal) {f l : Node} (hf : s.nodes.head? = some f)
    (hl : s.nodes.getLast? = some l) {x : ℚ} :
    (0 ≤ x → x ≤ (f.x - 9 / 16) * s.g →
      calculate rnd fused slope s x .value = some (nodeY rnd s f) ∧
      ∀ t ≠ ValueType.value, calculate rnd fused slope s x t = some 0) ∧
    ((l.x + 9 / 16) * s.g ≤ x → x ≤ 2 ^ 30 * s.g →
      calculate rnd fused slope s x .value = some (nodeY rnd s l) ∧
      ∀ t ≠ ValueType.value, calculate rnd fused slope s x t = some 0) := by
  have hg := hs.pos
  have hf65 : (f.x : ℚ) ≤ 65535 := by exact_mod_cast (hs.ok f (List.mem_of_mem_head? hf)).1
  have hl65' := (hs.ok l (List.mem_of_getLast? hl)).1
  have hl65 : (l.x : ℚ) ≤ 65535 := by exact_mod_cast hl65'
  have hba : kAfter ≠ kBefore := by simp [kAfter, kBefore]
  have hfl : f.x ≤ l.x := by
    rw [List.head?_eq_getElem?] at hf
    rw [List.getLast?_eq_getElem?] at hl
    exact hs.wf.sorted.le (Nat.zero_le _) hf hl
  constructor
  · intro hx0 hx
    have d1 : x / s.g ≤ f.x - 9 / 16 := by rwa [div_le_iff₀ hg]
    obtain ⟨q, hq, q0, q1, hqd⟩ := quantize_core h (t := x / s.g) (div_nonneg hx0 hg.le) (by linarith)
    rw [abs_le] at hqd
    have hlt : q < f.x := by
      have : (q : ℚ) < f.x := by linarith [hqd.2]
      exact_mod_cast this
    have hi : indexForX rnd s x 0 = some kBefore := by
      unfold indexForX quantizeX
      rw [if_neg hg.ne', hq, hf, hl]
      simp only [Option.bind_some]
      rw [if_pos hlt]
    unfold calculate
    rw [hi, hf]
    simp only [Option.bind_some, if_true]
    exact ⟨rfl, fun t ht => if_neg ht⟩
  · intro hx hx1
    have d0 : (l.x : ℚ) + 9 / 16 ≤ x / s.g := by rwa [le_div_iff₀ hg]
    have d1 : x / s.g ≤ 2 ^ 30 := by rwa [div_le_iff₀ hg]
    have m1 : f32.Mem ((l.x : ℚ) + 1 / 2) := by
      refine Motive.Float.Range.mem32 (2 * l.x + 1) (-1) _ ?_ (by norm_num) ?_
      · rw [abs_of_nonneg (by positivity)]; omega
      · push_cast; norm_num; ring
    have m2 : f32.Mem ((l.x : ℚ) + 1) := by
      have := Motive.Float.Quantize.memI ((l.x : ℤ) + 1) (by rw [abs_of_nonneg (by positivity)]; omega)
      push_cast at this; exact this
    have m3 : f32.Mem (2 ^ 30) := by
      have := mem_zpow (F := f32) (e := 30) (by norm_num [f32])
      norm_num at this ⊢; exact this
    have m4 : f32.Mem (2 ^ 30 + 2 ^ 20) := Motive.Float.Range.mem32 1025 20 _ (by norm_num) (by norm_num) (by norm_num)
    have r0 := h.ge_of_ge m1 (x := x / s.g) (by linarith)
    have r1 := h.le_of_le m3 d1
    have v0 := h.ge_of_ge m2 (x := rnd (x / s.g) + 1 / 2) (by linarith)
    have v1 := h.le_of_le m4 (x := rnd (x / s.g) + 1 / 2) (by linarith [show (1 / 2 : ℚ) ≤ 2 ^ 20 by norm_num])
    set v := rnd (rnd (x / s.g) + 1 / 2) with hv
    have hl0 : (0 : ℚ) ≤ l.x := by positivity
    have f1 : (l.x : ℤ) + 1 ≤ ⌊v⌋ := Int.le_floor.mpr (by push_cast; linarith)
    have f2 : ⌊v⌋ < 2 ^ 31 := by
      rw [Int.floor_lt]
      refine lt_of_le_of_lt v1 (by norm_num)
    have hq : quantizeX rnd x s.g = some ⌊v⌋ := by
      unfold quantizeX toInt
      rw [if_neg hg.ne', ← hv]
      simp only [if_pos (show 0 ≤ v by linarith)]
      rw [if_pos ⟨by omega, by exact_mod_cast f2⟩]
    have hi : indexForX rnd s x 0 = some kAfter := by
      unfold indexForX
      rw [hq, hf, hl]
      simp only [Option.bind_some]
      rw [if_neg (by omega), if_neg (by omega), if_pos (by omega)]
    unfold calculate
    rw [hi, hl]
    simp only [Option.bind_some, if_neg hba, if_true]
    exact ⟨rfl, fun t ht => if_neg ht⟩

/-- **C99**: at the reported end of the spline the last segment is used, at a position that is at most 1/64 of a granularity
away from its end. -/
theorem C99_spline_end (h : Nearest f32 rnd) (hsl : ∀ a, f32.Mem (slope a)) (hs : s.Legal) {i : ℕ} {a b : Node}
    (hlen : s.nodes.length = i + 2) (ha : s.nodes[i]? = some a) (hb : s.nodes[i + 1]? = some b) (hab : a.x < b.x)
    {p : Cubic ℚ} (hp : Through (cubicInit rnd slope s a b) (gap s a b) p) :
    ∃ z y, |z - gap s a b| ≤ s.g / 32 ∧ calculate rnd fused slope s (nodeX rnd s b) .value = some y ∧
      |y - p.eval z| ≤ tolerance (p.eval z) (change (cubicInit rnd slope s a b) (gap s a b)) := by
  have hq := quantize_nodeX h hs (List.mem_of_getElem? hb)
  have nb := abs_le.mp (nodeX_near h hs (List.mem_of_getElem? hb))
  have hg := hs.pos
  have hidx : indexForX rnd s (nodeX rnd s b) 0 = some i := by
    obtain ⟨f, hf0⟩ : ∃ f, s.nodes[0]? = some f := ⟨_, List.getElem?_eq_getElem (by omega)⟩
    have hf : s.nodes.head? = some f := by rw [List.head?_eq_getElem?]; exact hf0
    have hl : s.nodes.getLast? = some b := by
      rw [List.getLast?_eq_getElem?, show s.nodes.length - 1 = i + 1 by omega]; exact hb
    have hfb := hs.wf.sorted.le (Nat.zero_le _) hf0 hb
    unfold indexForX
    rw [hq, hf, hl]
    simp only [Option.bind_some]
    rw [if_neg (by omega), if_pos ⟨trivial, by omega⟩]
    congr 1
    omega
  have hab1 : (a.x : ℚ) + 1 ≤ b.x := by exact_mod_cast hab
  obtain ⟨z, y, d, d2, d3, h1, h2, h3, -⟩ := segment_value (fused := fused) h hsl hs ha hb hab hidx (by nlinarith) (by linarith) hp
  refine ⟨z, y, ?_, h2, h3⟩
  have e : z - gap s a b = (a.x * s.g + z - nodeX rnd s b) + (nodeX rnd s b - b.x * s.g) := by unfold gap; ring
  rw [e]
  refine (abs_add_le _ _).trans ?_
  have := nodeX_near h hs (List.mem_of_getElem? hb)
  linarith

/-- A spline from 0 to 1 and back. -/
def hill : Spline := ⟨⟨0, 1⟩, 1, [⟨0, 0, 0⟩, ⟨3, 65535, 0⟩, ⟨9, 0, 0⟩]⟩

/-- **C99** fails for the second node: there the end of the first segment is used, and the value may be beyond the node, and
so beyond the range of y that the spline was made for. -/
theorem C99_second_node_inexact :
    nodeX (rne f32) hill ⟨3, 65535, 0⟩ = 3 ∧ nodeY (rne f32) hill ⟨3, 65535, 0⟩ = 1 ∧
    calculate (rne f32) false (fun _ => 0) hill 3 .value = some (1 + 1 / 2 ^ 22) ∧ hill.yRange.stop < 1 + 1 / 2 ^ 22 := by
  refine ⟨by decide +kernel, by decide +kernel, by decide +kernel, by norm_num [hill]⟩

theorem hill_legal : hill.Legal := by
  refine ⟨mem_int (n := 1) (by norm_num [f32]) (by norm_num [f32]), by norm_num [hill], by norm_num [hill], by simp [hill],
    by simp [hill], ?_, ?_, ?_⟩
  · intro i a b ha hb
    rcases i with _ | _ | i
    · simp only [hill, List.getElem?_cons_zero, List.getElem?_cons_succ, Option.some.injEq] at ha hb; subst ha hb; simp
    · simp only [hill, List.getElem?_cons_zero, List.getElem?_cons_succ, Option.some.injEq] at ha hb; subst ha hb; simp
    · simp [hill] at hb
  · intro i a b ha hb
    rcases i with _ | i
    · simp only [hill, List.getElem?_cons_zero, List.getElem?_cons_succ, Option.some.injEq] at ha hb; subst ha hb; simp
    · simp [hill] at hb
  · intro n hn
    simp only [hill, List.mem_cons, List.not_mem_nil, or_false] at hn
    rcases hn with rfl | rfl | rfl <;> simp [Node.Ok]

/-- The theorems apply to it, between the nodes and at both ends. -/
example : (∃ p, Through (cubicInit (rne f32) (fun _ => 0) hill ⟨3, 65535, 0⟩ ⟨9, 0, 0⟩) (gap hill ⟨3, 65535, 0⟩ ⟨9, 0, 0⟩) p) ∧
    (hill.nodes[1]? = some ⟨3, 65535, 0⟩ ∧ hill.nodes[2]? = some ⟨9, 0, 0⟩ ∧
      ((3 : ℕ) + 9 / 16 : ℚ) * hill.g ≤ 5 ∧ (5 : ℚ) ≤ ((9 : ℕ) - 9 / 16) * hill.g) ∧
    calculate (rne f32) true (fun _ => 0) hill 0 .value = some (nodeY (rne f32) hill ⟨0, 0, 0⟩) ∧
    calculate (rne f32) true (fun _ => 0) hill 10 .value = some (nodeY (rne f32) hill ⟨9, 0, 0⟩) := by
  refine ⟨⟨_, (Motive.Curve.C29_hermite ⟨_, _, _, _, gap hill ⟨3, 65535, 0⟩ ⟨9, 0, 0⟩⟩ (by norm_num [gap, hill]) _).mp rfl⟩,
    ⟨rfl, rfl, by norm_num [hill], by norm_num [hill]⟩, ?_, ?_⟩
  · have e : nodeX (rne f32) hill ⟨0, 0, 0⟩ = 0 := by decide +kernel
    have := C99_spline_node (fused := true) (slope := fun _ => 0) (rne_nearest f32) (fun _ => mem_zero) hill_legal (k := 0)
      (n := ⟨0, 0, 0⟩) (b := ⟨3, 65535, 0⟩) rfl rfl (by norm_num) (by norm_num) (fun a _ hk => absurd rfl hk)
    rw [e] at this
    exact this.1
  · exact ((C99_spline_outside (fused := true) (slope := fun _ => 0) (rne_nearest f32) hill_legal (f := ⟨0, 0, 0⟩)
      (l := ⟨9, 0, 0⟩) rfl rfl (x := 10)).2 (by norm_num [hill]) (by norm_num [hill])).1

end

end Motive.Float.Hermite
