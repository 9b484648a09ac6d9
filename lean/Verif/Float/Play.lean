import Verif.Float.SplineEval

/-!
# Playing a spline in single precision (C101)

`Verif/Spline/Bulk.lean` models `BulkSplineEvaluator` in exact arithmetic.  Here one index of the evaluator plays a spline
frame by frame as the code does (src/motive/math/bulk_spline_evaluator.cpp: `JumpToSpline`, `AdvanceFrame`), with every
operation rounded to `float`.  As in `Verif/Float/Cubic.lean` the flag `fused` says whether the compiler fuses
multiplications and additions, and `slope` stands for `tan`.  Blending, modular ranges and the assembly versions of the
loops are not modelled here.
-/

namespace Motive.Float.Hermite

open Motive.Curve (Cubic CubicInit)
open Motive.Math (Range)
open Motive.Splines (Node kBefore kAfter kInvalid outside SortedX)
open Motive.Float.Quantize (quantizeX readX readY toInt quantize_core err_add)

noncomputable section

/-! ### Model -/

/-- The part of `SplinePlayback` that stays as it is while the spline plays (compact_spline.h:593-631). -/
structure Playback where
  rep : Bool
  yOffset : ℚ
  yScale : ℚ

/-- The data of one index of the evaluator: `x_index` (bulk_spline_evaluator.h:316-358) and the entries of `cubic_xs_`,
`cubic_x_ends_`, `cubics_`, `ys_` (387-401). -/
structure Cursor where
  index : ℕ
  x : ℚ
  xEnd : WithTop ℚ
  cubic : Cubic ℚ
  y : ℚ

/-- A call of `AdvanceFrame`, and the rate that is set when it is made (`SetPlaybackRates`, bulk_spline_evaluator.cpp:219-226). -/
structure Frame where
  dt : ℚ
  rate : ℚ

section Model
variable (rnd : ℚ → ℚ) (fused : Bool) (slope : ℤ → ℚ)

/-- `ScaleUp` (curve.h:381-385). -/
def scaleUp (c : Cubic ℚ) (k : ℚ) : Cubic ℚ := ⟨rnd (c.c3 * k), rnd (c.c2 * k), rnd (c.c1 * k), rnd (c.c0 * k)⟩
/-- `ShiftUp` (curve.h:378). -/
def shiftUp (c : Cubic ℚ) (k : ℚ) : Cubic ℚ := { c with c0 := rnd (c.c0 + k) }

/-- `NodeX` of an index (compact_spline.cpp:187-196). -/
def startOf (s : Spline) (i : ℕ) : Option ℚ :=
  if i = kBefore then some 0
  else if i = kAfter then s.nodes.getLast?.map (nodeX rnd s)
  else (s.nodes[i]?).map (nodeX rnd s)

/-- `RangeX` (compact_spline.cpp:260-273): the start and the length. -/
def rangeX (s : Spline) (i : ℕ) : Option (ℚ × WithTop ℚ) :=
  if i = kBefore then s.nodes.head?.map fun f => (0, ((rnd (nodeX rnd s f - 0) : ℚ) : WithTop ℚ))
  else if i = kAfter then s.nodes.getLast?.map fun l => (nodeX rnd s l, ⊤)
  else (s.nodes[i]?).bind fun a => (s.nodes[i + 1]?).map fun b =>
    (nodeX rnd s a, ((rnd (nodeX rnd s b - nodeX rnd s a) : ℚ) : WithTop ℚ))

/-- The constant curve of `CreateCubicInit` outside the spline (compact_spline.cpp:381-385). -/
def flatInit (y : ℚ) : CubicInit ℚ := ⟨y, 0, y, 0, 1⟩

/-- `CreateCubicInit` of an index (compact_spline.cpp:379-390). -/
def cubicInitAt (s : Spline) (i : ℕ) : Option (CubicInit ℚ) :=
  if i = kBefore then s.nodes.head?.map fun f => flatInit (nodeY rnd s f)
  else if i = kAfter then s.nodes.getLast?.map fun l => flatInit (nodeY rnd s l)
  else (s.nodes[i]?).bind fun a => (s.nodes[i + 1]?).map fun b => cubicInit rnd slope s a b

/-- `IndexForXAllowingRepeat` (compact_spline.cpp:310-327). -/
def indexRepeat (s : Spline) (x : ℚ) (guess : ℕ) (rep : Bool) : Option (ℕ × ℚ) :=
  (indexForX rnd s x guess).bind fun i =>
    if !rep || i ≠ kAfter then some (i, x)
    else s.nodes.getLast?.bind fun l =>
      (Motive.Float.Range.normalizeClose rnd ⟨0, nodeX rnd s l⟩ x).bind fun r =>
        (indexForX rnd s r 0).map fun j => (j, r)

/-- The part of `InitCubic` after the index is known (bulk_spline_evaluator.cpp:308-325). -/
def place (s : Spline) (pb : Playback) (i : ℕ) (x : ℚ) : Option Cursor :=
  (rangeX rnd s i).bind fun r => (cubicInitAt rnd slope s i).map fun c =>
    { index := i
      x := rnd (x - r.1)
      xEnd := r.2
      cubic := shiftUp rnd (scaleUp rnd (init rnd c) pb.yScale) pb.yOffset
      y := 0 }

/-- `InitCubic` (bulk_spline_evaluator.cpp:298-326).  The guess is converted to 16 bits.  The value is computed later. -/
def initCubic (s : Spline) (pb : Playback) (i : ℕ) (x : ℚ) : Option Cursor :=
  (indexRepeat rnd s x ((i + 1) % 65536) pb.rep).bind fun p => place rnd slope s pb p.1 p.2

/-- `EvaluateIndex` (bulk_spline_evaluator.cpp:328-332). -/
def evaluate (c : Cursor) : Cursor := { c with y := eval rnd fused c.cubic c.x }

/-- `SetSplines` of an index that does not blend (bulk_spline_evaluator.cpp:166-194): `JumpToSpline` (153-164) and
`EvaluateIndex`. -/
def jump (s : Spline) (pb : Playback) (x : ℚ) : Option Cursor :=
  (initCubic rnd slope s pb kInvalid x).map (evaluate rnd fused)

/-- What `AdvanceFrame` does to the index (bulk_spline_evaluator.cpp:281-296, 340-355), with `X`
(bulk_spline_evaluator.h:129-131, 294-298). -/
def advance (s : Spline) (pb : Playback) (f : Frame) (c : Cursor) : Option Cursor :=
  (if c.xEnd < ((mulAdd rnd fused f.dt f.rate c.x : ℚ) : WithTop ℚ) then
    (startOf rnd s c.index).bind fun x0 => initCubic rnd slope s pb c.index (rnd (x0 + mulAdd rnd fused f.dt f.rate c.x))
   else some { c with x := mulAdd rnd fused f.dt f.rate c.x }).map (evaluate rnd fused)

/-- A sequence of frames. -/
def frames (s : Spline) (pb : Playback) : List Frame → Cursor → Option Cursor
  | [], c => some c
  | f :: fs, c => (advance rnd fused slope s pb f c).bind (frames s pb fs)

/-- The spline is started at `x` and played for some frames. -/
def play (s : Spline) (pb : Playback) (x : ℚ) (fs : List Frame) : Option Cursor :=
  (jump rnd fused slope s pb x).bind (frames rnd fused slope s pb fs)

/-- `DerivativeWithoutPlayback` (bulk_spline_evaluator.h:167-169). -/
def Cursor.rawSlope (c : Cursor) : ℚ := deriv rnd fused c.cubic c.x
/-- `Derivative` (bulk_spline_evaluator.h:150-152), with the current rate. -/
def Cursor.derivative (c : Cursor) (rate : ℚ) : ℚ := rnd (rate * deriv rnd fused c.cubic c.x)

/-- The loop of `BulkEvaluate` for one spline (compact_spline.cpp:248-251), with `YsBulkOutput::AddPoint` (49-64): values and
slopes are recorded, then the evaluator advances, also after the last point.  The counter is converted to 16 bits in the code;
here the number of points is at most 65535. -/
def sampleLoop (s : Spline) (pb : Playback) (dx : ℚ) : ℕ → Cursor → Option (List (ℚ × ℚ))
  | 0, _ => some []
  | n + 1, c => (advance rnd fused slope s pb ⟨dx, 1⟩ c).bind fun c' =>
      (sampleLoop s pb dx n c').map fun r => (c.y, c.derivative rnd fused 1) :: r

/-- `Ys` (compact_spline.cpp:223-229) with `BulkYs` and `BulkEvaluate` (231-258).  The spline does not repeat. -/
def samples (s : Spline) (x dx : ℚ) (n : ℕ) : Option (List (ℚ × ℚ)) :=
  if n ≤ 65535 then (jump rnd fused slope s ⟨false, 0, 1⟩ x).bind (sampleLoop rnd fused slope s ⟨false, 0, 1⟩ dx n) else none

end Model

/-! ### Specification -/

/-- The distance that the frames play. -/
def distance (fs : List Frame) : ℚ := (fs.map fun f => f.dt * f.rate).sum

/-- Frames that play forwards, each by at most `D`. -/
def Forward (D : ℚ) (fs : List Frame) : Prop := ∀ f ∈ fs, 0 ≤ f.dt ∧ 0 ≤ f.rate ∧ f.dt * f.rate ≤ D

/-- A node's y as it is shown, scaled and shifted. -/
def shownY (rnd : ℚ → ℚ) (s : Spline) (pb : Playback) (n : Node) : ℚ := rnd (rnd (nodeY rnd s n * pb.yScale) + pb.yOffset)

/-- The value and the slope of `c` are those of the scaled and shifted spline at the position `P`: before the first node they are
constant; on a segment they are near those of the exact cubic through its nodes.  (If the last two nodes have the same position
the segment between them has no such cubic, and nothing is said.) -/
def Shows (rnd : ℚ → ℚ) (fused : Bool) (slope : ℤ → ℚ) (s : Spline) (pb : Playback) (c : Cursor) (P : ℚ) : Prop :=
  (∃ f, s.nodes.head? = some f ∧ 0 ≤ P ∧ P ≤ f.x * s.g + s.g / 2 ^ 7 ∧ c.y = shownY rnd s pb f ∧ c.rawSlope rnd fused = 0) ∨
  ∃ (i : ℕ) (a b : Node), s.nodes[i]? = some a ∧ s.nodes[i + 1]? = some b ∧
    (a.x - 5 / 8) * s.g ≤ P ∧ P ≤ (b.x + 5 / 8) * s.g ∧
    (a.x < b.x → ∀ p, Through (cubicInit rnd slope s a b) (gap s a b) p →
      |c.y - (pb.yScale * p.eval (P - a.x * s.g) + pb.yOffset)| ≤
        |pb.yScale * p.eval (P - a.x * s.g) + pb.yOffset| / 2 ^ 24 +
        (|pb.yScale * nodeY rnd s a| + |pb.yOffset|) / 2 ^ 22 +
        |pb.yScale| * change (cubicInit rnd slope s a b) (gap s a b) / 2 ^ 14 + (1 + |pb.yScale|) / 2 ^ 45 ∧
      |c.rawSlope rnd fused - pb.yScale * p.deriv (P - a.x * s.g)| ≤
        |pb.yScale * p.deriv (P - a.x * s.g)| / 2 ^ 24 +
        |pb.yScale| * (change (cubicInit rnd slope s a b) (gap s a b) / gap s a b) / 2 ^ 14 + (1 + |pb.yScale|) / 2 ^ 75)

/-! ### Proofs -/

variable {rnd : ℚ → ℚ} {fused : Bool} {slope : ℤ → ℚ} {s : Spline} {pb : Playback}

theorem bounds_wide {i : CubicInit ℚ} {w x : ℚ} (hw : 0 < w) (hx : |x| ≤ 2 * w) :
    ((bound3 i w * |x| + bound2 i w) * |x| + |i.startDerivative|) * |x| ≤ 28 * change i w ∧
    (3 * bound3 i w * |x| + 2 * bound2 i w) * |x| ≤ 36 * (change i w / w) := by
  have ht0 : 0 ≤ |x| / w := div_nonneg (abs_nonneg x) hw.le
  have ht1 : |x| / w ≤ 2 := by rwa [div_le_iff₀ hw]
  have hxt : |x| = |x| / w * w := by field_simp
  generalize |x| / w = t at ht0 ht1 hxt
  rw [hxt]
  have ha := abs_nonneg i.startDerivative
  have hb := abs_nonneg i.endDerivative
  have hc := abs_nonneg (i.endY - i.startY)
  unfold bound3 bound2 change
  generalize |i.startDerivative| = a at *
  generalize |i.endDerivative| = b at *
  generalize |i.endY - i.startY| = y at *
  have t2 : t * t ≤ 2 * 2 := mul_le_mul ht1 ht1 ht0 (by norm_num)
  have t20 : 0 ≤ t * t := mul_nonneg ht0 ht0
  have t3 : t * t * t ≤ 2 * 2 * 2 := mul_le_mul t2 ht1 ht0 (by norm_num)
  have hwa := mul_nonneg hw.le ha
  have hwb := mul_nonneg hw.le hb
  constructor
  · have e : ((( 2 * (1 / w * (1 / w) * (1 / w)) * y + 1 / w * (1 / w) * (b + a)) * (t * w) +
        (3 * (1 / w * (1 / w)) * y + 1 / w * (b + 2 * a))) * (t * w) + a) * (t * w) =
        t * t * t * (2 * y + w * b + w * a) + t * t * (3 * y + w * b + 2 * (w * a)) + t * (w * a) := by
      field_simp
      ring
    rw [e]
    have h1 := mul_le_mul_of_nonneg_right t3 (show 0 ≤ 2 * y + w * b + w * a by linarith)
    have h2 := mul_le_mul_of_nonneg_right t2 (show 0 ≤ 3 * y + w * b + 2 * (w * a) by linarith)
    have h3 := mul_le_mul_of_nonneg_right ht1 hwa
    rw [mul_add w]
    linarith
  · have e0 : 36 * ((y + w * (a + b)) / w) = 36 * (y + w * (a + b)) / w := by ring
    rw [e0, le_div_iff₀ hw]
    have e : (3 * (2 * (1 / w * (1 / w) * (1 / w)) * y + 1 / w * (1 / w) * (b + a)) * (t * w) +
        2 * (3 * (1 / w * (1 / w)) * y + 1 / w * (b + 2 * a))) * (t * w) * w =
        t * t * (6 * y + 3 * (w * b) + 3 * (w * a)) + t * (6 * y + 2 * (w * b) + 4 * (w * a)) := by
      field_simp
      ring
    rw [e]
    have h2 := mul_le_mul_of_nonneg_right t2 (show 0 ≤ 6 * y + 3 * (w * b) + 3 * (w * a) by linarith)
    have h3 := mul_le_mul_of_nonneg_right ht1 (show 0 ≤ 6 * y + 2 * (w * b) + 4 * (w * a) by linarith)
    rw [mul_add w]
    linarith

section Scaled

variable {w x k o : ℚ} {i : CubicInit ℚ} {p : Cubic ℚ}

/-- The value of a scaled and shifted curve. -/
theorem scaled_value (h : Nearest f32 rnd) (hi : Floats i) (hv : |i.widthX - w| ≤ w / 2 ^ 24)
    (hw0 : 1 / 2 ^ 30 ≤ w) (hw1 : w ≤ 2 ^ 30) (hp : Through i w p) (hx : |x| ≤ 2 * w) (ho : f32.Mem o) :
    |eval rnd fused (shiftUp rnd (scaleUp rnd (init rnd i) k) o) x - (k * p.eval x + o)| ≤
      |k * p.eval x + o| / 2 ^ 24 + (|k * i.startY| + |o|) / 2 ^ 22 + |k| * change i w / 2 ^ 14 + (1 + |k|) / 2 ^ 45 := by
  have hw : 0 < w := lt_of_lt_of_le (by norm_num) hw0
  have hz : (2 : ℚ) ^ (-30 : ℤ) ≤ w := le_trans (by norm_num) hw0
  obtain ⟨k2, k3, k1, k0⟩ := coefficients h hi (by rw [u]; linarith) hz hw1 hp
  have hη := eta_pos
  have hx0 := abs_nonneg x
  have hk0 := abs_nonneg k
  have hu : u ≤ 1 / 8 := by norm_num [u]
  have hu0 := u_pos
  set E := eta * (1 + |k|) with hE
  have hE0 : 0 ≤ E := by positivity
  have hEe : eta ≤ E := by rw [hE]; nlinarith
  have hke : eta * |k| ≤ E := by rw [hE]; nlinarith
  have hke0 : 0 ≤ eta * |k| := by positivity
  have huke := mul_le_mul_of_nonneg_right hu hke0
  have s3 : Near 15 (bound3 i w * |k|) (6 * E) (rnd ((init rnd i).c3 * k)) (p.c3 * k) :=
    ((k3.mul_right (le_refl |k|)).round h).mono le_rfl le_rfl (by linarith)
  have s2 : Near 16 (bound2 i w * |k|) (6 * E) (rnd ((init rnd i).c2 * k)) (p.c2 * k) :=
    ((k2.mul_right (le_refl |k|)).round h).mono (by norm_num) le_rfl (by linarith)
  have e1 : p.c1 = i.startDerivative := by have := hp.2.1; simpa [Cubic.deriv] using this
  have e0 : p.c0 = i.startY := by have := hp.1; simpa [Cubic.eval] using this
  have s1 : Near 18 (|i.startDerivative| * |k|) E (rnd ((init rnd i).c1 * k)) (p.c1 * k) := by
    rw [k1, e1]
    exact (((Near.refl le_rfl).mul_right (le_refl |k|)).round h).mono (by norm_num) le_rfl (by linarith)
  have v2 := mulAdd_near (fused := fused) h (h.mem _) (by positivity) (by positivity) s3 s2 (le_refl |x|)
  have v1 := mulAdd_near (fused := fused) h (h.mem _) (by positivity) (by positivity) v2 s1 (le_refl |x|)
  set c0 := rnd (rnd ((init rnd i).c0 * k) + o) with hc0
  have fin := mulAdd_last (fused := fused) h (c := c0) (h.mem _) (by positivity) v1 (le_refl |x|)
  -- the constant coefficient
  have a1 := err_any h ((init rnd i).c0 * k)
  have a2 := err_add h (h.mem ((init rnd i).c0 * k)) ho
  rw [← hc0] at a2
  rw [k0, e0] at a1 a2
  set r := rnd (i.startY * k) with hr
  have ekk : |i.startY * k| = |k * i.startY| := by rw [mul_comm]
  rw [ekk] at a1
  have hA := abs_nonneg (k * i.startY)
  have hO := abs_nonneg o
  have hro : |r + o| ≤ |k * i.startY| + (u * |k * i.startY| + eta) + |o| := by
    have e : r + o = i.startY * k + ((r - i.startY * k) + o) := by ring
    rw [e]
    refine (abs_add_le _ _).trans ?_
    have := abs_add_le (r - i.startY * k) o
    rw [ekk]; linarith
  have hcd : |c0 - (k * i.startY + o)| ≤ 17 / 8 * u * (|k * i.startY| + |o|) + 2 * eta := by
    have e : c0 - (k * i.startY + o) = (c0 - (r + o)) + (r - i.startY * k) := by ring
    rw [e]
    refine (abs_add_le _ _).trans ?_
    have e2 : |r + o| / 2 ^ 24 = u * |r + o| := by rw [u]; ring
    rw [e2] at a2
    have h1 := mul_le_mul_of_nonneg_left hro hu0.le
    have h2 := mul_le_mul_of_nonneg_right hu (mul_nonneg hu0.le hA)
    have h3 := mul_le_mul_of_nonneg_right hu hη.le
    have h4 := mul_nonneg hu0.le hO
    have h5 := mul_nonneg hu0.le hA
    linarith
  -- the target
  set T := k * p.eval x + o with hT
  have eT : ((p.c3 * k * x + p.c2 * k) * x + p.c1 * k) * x + c0 = T + (c0 - (k * i.startY + o)) := by
    rw [hT, ← e0]; simp only [Cubic.eval]; ring
  rw [eT] at fin
  have hq : |T + (c0 - (k * i.startY + o))| ≤ |T| + |c0 - (k * i.startY + o)| := abs_add_le _ _
  have hev : eval rnd fused (shiftUp rnd (scaleUp rnd (init rnd i) k) o) x =
      mulAdd rnd fused (mulAdd rnd fused (mulAdd rnd fused (rnd ((init rnd i).c3 * k)) x (rnd ((init rnd i).c2 * k))) x
        (rnd ((init rnd i).c1 * k))) x c0 := rfl
  rw [hev]
  set v := mulAdd rnd fused (mulAdd rnd fused (mulAdd rnd fused (rnd ((init rnd i).c3 * k)) x (rnd ((init rnd i).c2 * k))) x
        (rnd ((init rnd i).c1 * k))) x c0 with hvv
  have hvT : |v - T| ≤ |v - (T + (c0 - (k * i.startY + o)))| + |c0 - (k * i.startY + o)| := by
    have e : v - T = (v - (T + (c0 - (k * i.startY + o)))) + (c0 - (k * i.startY + o)) := by ring
    calc |v - T| = |(v - (T + (c0 - (k * i.startY + o)))) + (c0 - (k * i.startY + o))| := by rw [← e]
      _ ≤ _ := abs_add_le _ _
  refine hvT.trans ?_
  have hb := (bounds_wide (i := i) hw hx).1
  have hpow : 0 ≤ ((1 + u) ^ 20 - 1 : ℚ) := by linarith [pow_ge 20]
  have hD := change_nonneg (i := i) hw.le
  have hkD := mul_nonneg hk0 hD
  have hbk : ((bound3 i w * |k| * |x| + bound2 i w * |k|) * |x| + |i.startDerivative| * |k|) * |x| ≤ 28 * (|k| * change i w) := by
    have := mul_le_mul_of_nonneg_left hb hk0
    linarith
  have h1 := mul_le_mul_of_nonneg_left hbk hpow
  have h2 : 9 / 8 * (((1 + u) ^ 20 - 1) * (28 * (|k| * change i w))) ≤ |k| * change i w / 2 ^ 14 := by
    have : 9 / 8 * (((1 + u) ^ 20 - 1) * 28) ≤ 1 / 2 ^ 14 := by norm_num [u]
    have := mul_le_mul_of_nonneg_right this hkD
    linarith
  have hX : |x| ≤ 2 ^ 31 := by
    refine hx.trans ?_
    have := mul_le_mul_of_nonneg_left hw1 (show (0 : ℚ) ≤ 2 by norm_num)
    refine this.trans (by norm_num)
  have h3 : 4 * (2 * (2 * (6 * E * |x| + 6 * E + eta) * |x| + E + eta) * |x| + eta) ≤ (1 + |k|) / 2 ^ 46 := by
    have : 4 * (2 * (2 * (6 * E * |x| + 6 * E + eta) * |x| + E + eta) * |x| + eta) ≤
        4 * (2 * (2 * (6 * E * 2 ^ 31 + 6 * E + E) * 2 ^ 31 + E + E) * 2 ^ 31 + E) := by gcongr
    refine this.trans ?_
    have e : 4 * (2 * (2 * (6 * E * 2 ^ 31 + 6 * E + E) * 2 ^ 31 + E + E) * 2 ^ 31 + E) =
        4 * (2 * (2 * (6 * 2 ^ 31 + 6 + 1) * 2 ^ 31 + 1 + 1) * 2 ^ 31 + 1) * eta * (1 + |k|) := by rw [hE]; ring
    rw [e, div_eq_inv_mul]
    exact mul_le_mul_of_nonneg_right (by norm_num [eta]) (by linarith)
  have h4 : u * |T| = |T| / 2 ^ 24 := by rw [u]; ring
  have h5 := mul_le_mul_of_nonneg_left hq hu0.le
  have h6 : (1 + u) * (17 / 8 * u * (|k * i.startY| + |o|) + 2 * eta) ≤
      (|k * i.startY| + |o|) / 2 ^ 22 + (1 + |k|) / 2 ^ 46 := by
    have c1 : (1 + u) * (17 / 8 * u) ≤ 1 / 2 ^ 22 := by norm_num [u]
    have c2 : (1 + u) * (2 * eta) ≤ 1 / 2 ^ 46 := by norm_num [u, eta]
    have c3 := mul_le_mul_of_nonneg_right c1 (show 0 ≤ |k * i.startY| + |o| by linarith)
    have c4 : (1 : ℚ) / 2 ^ 46 ≤ (1 + |k|) / 2 ^ 46 := by gcongr; linarith
    linarith
  have h7 : (1 + u) * |c0 - (k * i.startY + o)| ≤ (1 + u) * (17 / 8 * u * (|k * i.startY| + |o|) + 2 * eta) :=
    mul_le_mul_of_nonneg_left hcd (by linarith)
  have h8 : (1 + |k|) / 2 ^ 45 = (1 + |k|) / 2 ^ 46 + (1 + |k|) / 2 ^ 46 := by ring
  linarith

/-- The slope of a scaled and shifted curve. -/
theorem scaled_slope (h : Nearest f32 rnd) (hi : Floats i) (hv : |i.widthX - w| ≤ w / 2 ^ 24)
    (hw0 : 1 / 2 ^ 30 ≤ w) (hw1 : w ≤ 2 ^ 30) (hp : Through i w p) (hx : |x| ≤ 2 * w) :
    |deriv rnd fused (shiftUp rnd (scaleUp rnd (init rnd i) k) o) x - k * p.deriv x| ≤
      |k * p.deriv x| / 2 ^ 24 + |k| * (change i w / w) / 2 ^ 14 + (1 + |k|) / 2 ^ 75 := by
  have hw : 0 < w := lt_of_lt_of_le (by norm_num) hw0
  have hz : (2 : ℚ) ^ (-30 : ℤ) ≤ w := le_trans (by norm_num) hw0
  obtain ⟨k2, k3, k1, k0⟩ := coefficients h hi (by rw [u]; linarith) hz hw1 hp
  have hη := eta_pos
  have hx0 := abs_nonneg x
  have hk0 := abs_nonneg k
  have hu : u ≤ 1 / 8 := by norm_num [u]
  have hu0 := u_pos
  set E := eta * (1 + |k|) with hE
  have hE0 : 0 ≤ E := by positivity
  have hEe : eta ≤ E := by rw [hE]; nlinarith
  have hke : eta * |k| ≤ E := by rw [hE]; nlinarith
  have hke0 : 0 ≤ eta * |k| := by positivity
  have huke := mul_le_mul_of_nonneg_right hu hke0
  have huE := mul_le_mul_of_nonneg_right hu hE0
  have s3 : Near 15 (bound3 i w * |k|) (6 * E) (rnd ((init rnd i).c3 * k)) (p.c3 * k) :=
    ((k3.mul_right (le_refl |k|)).round h).mono le_rfl le_rfl (by linarith)
  have s2 : Near 16 (bound2 i w * |k|) (6 * E) (rnd ((init rnd i).c2 * k)) (p.c2 * k) :=
    ((k2.mul_right (le_refl |k|)).round h).mono (by norm_num) le_rfl (by linarith)
  have e1 : p.c1 = i.startDerivative := by have := hp.2.1; simpa [Cubic.deriv] using this
  have t3 : Near 16 (3 * (bound3 i w * |k|)) (22 * E) (rnd (3 * rnd ((init rnd i).c3 * k))) (3 * (p.c3 * k)) := by
    have := (s3.mul_left (c := 3) (C := 3) (by norm_num)).round h
    exact this.mono le_rfl le_rfl (by linarith)
  have t2 : Near 17 (2 * (bound2 i w * |k|)) (12 * E) (rnd (2 * rnd ((init rnd i).c2 * k))) (2 * (p.c2 * k)) := by
    rw [h.exact (double_mem (h.mem _))]
    have := s2.mul_left (c := 2) (C := 2) (by norm_num)
    exact this.mono (by norm_num) le_rfl (by linarith)
  have v1 := mulAdd_near (fused := fused) h (h.mem _) (by positivity) (by positivity) t3 t2 (le_refl |x|)
  set c1 := rnd ((init rnd i).c1 * k) with hc1
  have fin := mulAdd_last (fused := fused) h (c := c1) (h.mem _) (by positivity) v1 (le_refl |x|)
  have a1 := err_any h ((init rnd i).c1 * k)
  rw [← hc1, k1, e1] at a1
  set T := k * p.deriv x with hT
  have eT : (3 * (p.c3 * k) * x + 2 * (p.c2 * k)) * x + c1 = T + (c1 - i.startDerivative * k) := by
    rw [hT, ← e1]; simp only [Cubic.deriv]; ring
  rw [eT] at fin
  have hq : |T + (c1 - i.startDerivative * k)| ≤ |T| + |c1 - i.startDerivative * k| := abs_add_le _ _
  have hev : deriv rnd fused (shiftUp rnd (scaleUp rnd (init rnd i) k) o) x =
      mulAdd rnd fused (mulAdd rnd fused (rnd (3 * rnd ((init rnd i).c3 * k))) x (rnd (2 * rnd ((init rnd i).c2 * k)))) x c1 := rfl
  rw [hev]
  set v := mulAdd rnd fused (mulAdd rnd fused (rnd (3 * rnd ((init rnd i).c3 * k))) x (rnd (2 * rnd ((init rnd i).c2 * k)))) x c1
    with hvv
  have hvT : |v - T| ≤ |v - (T + (c1 - i.startDerivative * k))| + |c1 - i.startDerivative * k| := by
    have e : v - T = (v - (T + (c1 - i.startDerivative * k))) + (c1 - i.startDerivative * k) := by ring
    calc |v - T| = |(v - (T + (c1 - i.startDerivative * k))) + (c1 - i.startDerivative * k)| := by rw [← e]
      _ ≤ _ := abs_add_le _ _
  refine hvT.trans ?_
  have hb := (bounds_wide (i := i) hw hx).2
  have hpow : 0 ≤ ((1 + u) ^ 19 - 1 : ℚ) := by linarith [pow_ge 19]
  have hD : 0 ≤ change i w / w := div_nonneg (change_nonneg (i := i) hw.le) hw.le
  have hkD := mul_nonneg hk0 hD
  have hbk : (3 * (bound3 i w * |k|) * |x| + 2 * (bound2 i w * |k|)) * |x| ≤ 36 * (|k| * (change i w / w)) := by
    have := mul_le_mul_of_nonneg_left hb hk0
    linarith
  have h1 := mul_le_mul_of_nonneg_left hbk hpow
  have hs1 : |i.startDerivative * k| ≤ |k| * (change i w / w) := by
    rw [abs_mul, mul_comm]
    refine mul_le_mul_of_nonneg_left ?_ hk0
    rw [le_div_iff₀ hw]
    unfold change
    have := abs_nonneg (i.endY - i.startY)
    have := mul_nonneg hw.le (abs_nonneg i.endDerivative)
    linarith
  have h2 : 9 / 8 * (((1 + u) ^ 19 - 1) * (36 * (|k| * (change i w / w)))) + (1 + u) * (u * (|k| * (change i w / w))) ≤
      |k| * (change i w / w) / 2 ^ 14 := by
    have : 9 / 8 * (((1 + u) ^ 19 - 1) * 36) + (1 + u) * u ≤ 1 / 2 ^ 14 := by norm_num [u]
    have := mul_le_mul_of_nonneg_right this hkD
    linarith
  have hX : |x| ≤ 2 ^ 31 := by
    refine hx.trans ?_
    have := mul_le_mul_of_nonneg_left hw1 (show (0 : ℚ) ≤ 2 by norm_num)
    refine this.trans (by norm_num)
  have h3 : 4 * (2 * (22 * E * |x| + 12 * E + eta) * |x| + eta) + (1 + u) * eta ≤ (1 + |k|) / 2 ^ 75 := by
    have : 4 * (2 * (22 * E * |x| + 12 * E + eta) * |x| + eta) + (1 + u) * eta ≤
        4 * (2 * (22 * E * 2 ^ 31 + 12 * E + E) * 2 ^ 31 + E) + (1 + 1 / 8) * E := by gcongr
    refine this.trans ?_
    have e : 4 * (2 * (22 * E * 2 ^ 31 + 12 * E + E) * 2 ^ 31 + E) + (1 + 1 / 8) * E =
        (4 * (2 * (22 * 2 ^ 31 + 12 + 1) * 2 ^ 31 + 1) + (1 + 1 / 8)) * eta * (1 + |k|) := by rw [hE]; ring
    have e3 : (1 + |k|) / 2 ^ 75 = 1 / 2 ^ 75 * (1 + |k|) := by ring
    rw [e, e3]
    exact mul_le_mul_of_nonneg_right (by norm_num [eta]) (by linarith)
  have h4 : u * |T| = |T| / 2 ^ 24 := by rw [u]; ring
  have h5 := mul_le_mul_of_nonneg_left hq hu0.le
  have h7 : (1 + u) * |c1 - i.startDerivative * k| ≤ (1 + u) * (u * (|k| * (change i w / w)) + eta) := by
    refine mul_le_mul_of_nonneg_left (a1.trans ?_) (by linarith)
    have := mul_le_mul_of_nonneg_left hs1 hu0.le
    linarith
  linarith

end Scaled

end

end Motive.Float.Hermite
