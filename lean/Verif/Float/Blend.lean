import Verif.Float.PlayMove

/-!
# Blending to a spline in single precision (C102)

`Verif/Spline/BulkBlend.lean` models the blend to a new spline in exact arithmetic (C57).  Here it is set up and played with every
operation rounded to `float` (src/motive/math/bulk_spline_evaluator.cpp: `CalculateBlendInit`, `BlendToSpline`).  The curve of the
blend is shifted so that it lies over the new spline; the error of the shift grows with the third power of the distance from the
beginning of the spline's segment, measured in lengths of the blend.  Modular ranges are not modelled here.
-/

namespace Motive.Float.Hermite

open Motive.Curve (Cubic CubicInit)
open Motive.Math (Range)
open Motive.Splines (Node kBefore kAfter kInvalid outside SortedX)

noncomputable section

/-! ### Model -/

/-- The part of `SplinePlayback` that says how a spline is started (compact_spline.h:593-631): `start_x`, `blend_x` and
`playback_rate`. -/
structure Start where
  x : ℚ
  blend : ℚ
  rate : ℚ

section Model
variable (rnd : ℚ → ℚ) (fused : Bool) (slope : ℤ → ℚ)

/-- The end of the blend in `CalculateBlendInit` (bulk_spline_evaluator.cpp:74-98).  The width of the blend, its end, and the scaled
end value are variables and statements of their own; they are not fused here. -/
def blendEnd (s : Spline) (pb : Playback) (b : Start) : Option (ℚ × ℚ) :=
  (indexRepeat rnd s (rnd (b.x + rnd (b.blend * b.rate))) kInvalid pb.rep).bind fun p =>
    (if p.1 = kBefore then s.nodes.head?.map fun f => (nodeY rnd s f, 0)
     else if p.1 = kAfter then s.nodes.getLast?.map fun l => (nodeY rnd s l, 0)
     else (s.nodes[p.1]?).bind fun m => (s.nodes[p.1 + 1]?).map fun n =>
      (eval rnd fused (init rnd (cubicInit rnd slope s m n)) (rnd (p.2 - nodeX rnd s m)),
       deriv rnd fused (init rnd (cubicInit rnd slope s m n)) (rnd (p.2 - nodeX rnd s m)))).map fun e =>
        (rnd (rnd (e.1 * pb.yScale) + pb.yOffset), e.2)

/-- `CalculateBlendInit` (bulk_spline_evaluator.cpp:70-120) of an index that shows the value `y` and the derivative `d`, and has no
modular range. -/
def blendInit (s : Spline) (pb : Playback) (b : Start) (y d : ℚ) : Option (CubicInit ℚ) :=
  (blendEnd rnd fused slope s pb b).map fun e => ⟨y, d, e.1, e.2, rnd (b.blend * b.rate)⟩

/-- `SetSplines` of an index that blends (bulk_spline_evaluator.cpp:166-194): `BlendToSpline` (122-151) and `EvaluateIndex`. -/
def blendTo (s : Spline) (pb : Playback) (b : Start) (y d : ℚ) : Option Cursor :=
  (blendInit rnd fused slope s pb b y d).bind fun i =>
    (indexRepeat rnd s b.x kInvalid pb.rep).bind fun p => (startOf rnd s p.1).map fun x0 =>
      evaluate rnd fused
        { index := p.1
          x := rnd (p.2 - x0)
          xEnd := ((mulAdd rnd fused b.blend b.rate (rnd (p.2 - x0)) : ℚ) : WithTop ℚ)
          cubic := shiftLeft rnd fused (init rnd i) (-rnd (p.2 - x0))
          y := 0 }

/-- An index that shows the value `y` and the derivative `d` is told to blend to a spline, and plays for some frames. -/
def blendPlay (s : Spline) (pb : Playback) (b : Start) (y d : ℚ) (fs : List Frame) : Option Cursor :=
  (blendTo rnd fused slope s pb b y d).bind (frames rnd fused slope s pb fs)

end Model

/-! ### Specification -/

/-- Every segment of the spline that may contain the position `x` begins at most `A` before it.  (At a node, which of two
segments contains it is a matter of rounding.) -/
def Into (s : Spline) (x A : ℚ) : Prop :=
  0 ≤ A ∧ (∀ f, s.nodes.head? = some f → x ≤ f.x * s.g → x ≤ A) ∧
  ∀ (i : ℕ) (a b : Node), s.nodes[i]? = some a → s.nodes[i + 1]? = some b →
    (a.x - 9 / 16) * s.g ≤ x → x ≤ (b.x + 9 / 16) * s.g → |x - a.x * s.g| ≤ A

/-- `y` and `d` are the value, scaled and shifted, and the slope, not scaled, that the spline has at `X`.  (`Shows` says how
near they are to those of the exact curve.) -/
def Target (rnd : ℚ → ℚ) (fused : Bool) (slope : ℤ → ℚ) (s : Spline) (pb : Playback) (X eps y d : ℚ) : Prop :=
  (pb.rep = false ∧ ∃ l, s.nodes.getLast? = some l ∧ (l.x - 9 / 16) * s.g ≤ X + eps ∧ y = shownY rnd s pb l ∧ d = 0) ∨
  ∃ (c : Cursor) (k : ℕ) (P : ℚ) (l : Node), s.nodes.getLast? = some l ∧ (pb.rep = false → k = 0) ∧
    Shows rnd fused slope s ⟨pb.rep, 0, 1⟩ c P ∧
    |P + k * (l.x * s.g) - X| ≤ eps ∧ y = rnd (rnd (c.y * pb.yScale) + pb.yOffset) ∧ d = c.rawSlope rnd fused

/-! ### Proofs -/

variable {rnd : ℚ → ℚ} {fused : Bool} {slope : ℤ → ℚ} {s : Spline} {pb : Playback}

section Shift

variable {w x a A X : ℚ} {i : CubicInit ℚ} {p : Cubic ℚ}

/-- The coefficients of the shifted curve, if it is shifted at all. -/
theorem shifted (h : Nearest f32 rnd) (hi : Floats i) (hv : |i.widthX - w| ≤ w / 2 ^ 24)
    (hw0 : 1 / 2 ^ 30 ≤ w) (hw1 : w ≤ 2 ^ 30) (hp : Through i w p) (ha : |a| ≤ A) :
    Near 17 (bound3 i w) (4 * eta) (shiftLeft rnd fused (init rnd i) (-a)).c3 p.c3 ∧
    Near 18 (3 * bound3 i w * A + bound2 i w) (30 * eta * A + 12 * eta) (shiftLeft rnd fused (init rnd i) (-a)).c2 (p.c2 - 3 * p.c3 * a) ∧
    Near 20 ((3 * bound3 i w * A + 2 * bound2 i w) * A + |i.startDerivative|) (2 * (2 * (16 * eta * A + 9 * eta) * A + eta))
      (shiftLeft rnd fused (init rnd i) (-a)).c1 (p.deriv (-a)) ∧
    Near 22 (((bound3 i w * A + bound2 i w) * A + |i.startDerivative|) * A + |i.startY|)
      (2 * (2 * (2 * (4 * eta * A + 5 * eta) * A + eta) * A + eta)) (shiftLeft rnd fused (init rnd i) (-a)).c0 (p.eval (-a)) ∧
    f32.Mem (shiftLeft rnd fused (init rnd i) (-a)).c2 ∧ f32.Mem (shiftLeft rnd fused (init rnd i) (-a)).c1 ∧
    f32.Mem (shiftLeft rnd fused (init rnd i) (-a)).c0 := by
  have hz : (2 : ℚ) ^ (-30 : ℤ) ≤ w := le_trans (by norm_num) hw0
  have hw : 0 < w := lt_of_lt_of_le (by norm_num) hw0
  obtain ⟨k2, k3, k1, k0⟩ := coefficients h hi (by rw [u]; linarith) hz hw1 hp
  obtain ⟨m3, m2, m1, m0⟩ := init_mem h hi
  have hη := eta_pos
  have hA : 0 ≤ A := (abs_nonneg a).trans ha
  have hu : u ≤ 1 / 8 := by norm_num [u]
  have hue : u * eta ≤ 1 / 8 * eta := mul_le_mul_of_nonneg_right hu hη.le
  have hηA : 0 ≤ eta * A := by positivity
  have hb3 := k3.pos
  have hb2 := k2.pos
  have hd0 := abs_nonneg i.startDerivative
  have e1 : p.c1 = i.startDerivative := by have := hp.2.1; simpa [Cubic.deriv] using this
  have e0 : p.c0 = i.startY := by have := hp.1; simpa [Cubic.eval] using this
  have n1 : Near 0 |i.startDerivative| 0 (init rnd i).c1 p.c1 := by rw [k1, e1]; exact Near.refl le_rfl
  have n0 : Near 0 |i.startY| 0 (init rnd i).c0 p.c0 := by rw [k0, e0]; exact Near.refl le_rfl
  have hna : |-a| ≤ A := by rwa [abs_neg]
  unfold shiftLeft
  split
  · rename_i hs
    have ha0 : a = 0 := by linarith
    subst ha0
    have c2 : p.c2 - 3 * p.c3 * 0 = p.c2 := by ring
    have c1 : p.deriv (-0) = p.c1 := by simp [Cubic.deriv]
    have c0 : p.eval (-0) = p.c0 := by simp [Cubic.eval]
    rw [c2, c1, c0]
    have q3 : 0 ≤ 3 * bound3 i w * A := by positivity
    have q2 : 0 ≤ (3 * bound3 i w * A + 2 * bound2 i w) * A := by positivity
    have q1 : 0 ≤ ((bound3 i w * A + bound2 i w) * A + |i.startDerivative|) * A := by positivity
    refine ⟨k3.mono (by norm_num) le_rfl le_rfl, k2.mono (by norm_num) (by linarith) (by linarith),
      n1.mono (by norm_num) (by linarith) (by positivity), n0.mono (by norm_num) (by linarith) (by positivity), m2, m1, m0⟩
  · have six : Near 15 (6 * bound3 i w) (28 * eta) (rnd (6 * (init rnd i).c3)) (6 * p.c3) := by
      have := (k3.mul_left (c := 6) (C := 6) (by norm_num)).round h
      exact this.mono le_rfl le_rfl (by linarith)
    have three : Near 15 (3 * bound3 i w) (16 * eta) (rnd (3 * (init rnd i).c3)) (3 * p.c3) := by
      have := (k3.mul_left (c := 3) (C := 3) (by norm_num)).round h
      exact this.mono le_rfl le_rfl (by linarith)
    have two : Near 16 (2 * bound2 i w) (8 * eta) (rnd (2 * (init rnd i).c2)) (2 * p.c2) := by
      rw [h.exact (double_mem m2)]
      have := k2.mul_left (c := 2) (C := 2) (by norm_num)
      exact this.mono (by norm_num) le_rfl (by linarith)
    refine ⟨k3.mono (by norm_num) le_rfl le_rfl, ?_, ?_, ?_, h.mem _, mulAdd_mem h _ _ _, mulAdd_mem h _ _ _⟩
    · have v := mulAdd_near (fused := fused) h (h.mem _) (by positivity) (by positivity) six two hna
      have := v.mul_right (c := 1 / 2) (C := 1 / 2) (by norm_num)
      have hh := half_near h (mulAdd_mem (fused := fused) h (rnd (6 * (init rnd i).c3)) (-a) (rnd (2 * (init rnd i).c2)))
      have e : (6 * p.c3 * -a + 2 * p.c2) * (1 / 2) = p.c2 - 3 * p.c3 * a := by ring
      have eB : (6 * bound3 i w * A + 2 * bound2 i w) * (1 / 2) = 3 * bound3 i w * A + bound2 i w := by ring
      rw [e, eB] at this
      have fin := this.rnd_of (m := eta) (hh.trans (by
        have := mul_nonneg u_pos.le (abs_nonneg (mulAdd rnd fused (rnd (6 * (init rnd i).c3)) (-a) (rnd (2 * (init rnd i).c2)) * (1 / 2)))
        linarith))
      refine fin.mono le_rfl le_rfl ?_
      have := mul_le_mul_of_nonneg_right (show u ≤ 1 / 32 by norm_num [u]) (show 0 ≤ 28 * eta * A + 8 * eta + eta by linarith)
      linarith
    · have v1 := mulAdd_near (fused := fused) h (h.mem _) (by positivity) (by positivity) three two hna
      have v := mulAdd_near (fused := fused) h m1 (by positivity) le_rfl v1 (n1.mono (j := 18) (by norm_num) le_rfl le_rfl) hna
      have e : (3 * p.c3 * -a + 2 * p.c2) * -a + p.c1 = p.deriv (-a) := rfl
      rw [e] at v
      exact v.mono (by norm_num) le_rfl (by linarith)
    · have v2 := mulAdd_near (fused := fused) h m2 (by positivity) (by positivity) k3 (k2.mono (j := 15) (by norm_num) le_rfl le_rfl) hna
      have v1 := mulAdd_near (fused := fused) h m1 (by positivity) le_rfl v2 (n1.mono (j := 17) (by norm_num) le_rfl le_rfl) hna
      have v := mulAdd_near (fused := fused) h m0 (by positivity) le_rfl v1 (n0.mono (j := 19) (by norm_num) le_rfl le_rfl) hna
      have e : ((p.c3 * -a + p.c2) * -a + p.c1) * -a + p.c0 = p.eval (-a) := rfl
      rw [e] at v
      exact v.mono (by norm_num) le_rfl (by linarith)

/-- How much the curve and its slope may amount to at a distance of `τ` widths. -/
theorem far_bounds (hw : 0 < w) {τ : ℚ} (hτ : 1 ≤ τ) :
    ((bound3 i w * (τ * w) + bound2 i w) * (τ * w) + |i.startDerivative|) * (τ * w) + |i.startY| ≤
      |i.startY| + 5 * (τ ^ 3 * change i w) ∧
    (3 * bound3 i w * (τ * w) + 2 * bound2 i w) * (τ * w) + |i.startDerivative| ≤ 12 * (τ ^ 2 * (change i w / w)) := by
  have ha := abs_nonneg i.startDerivative
  have hb := abs_nonneg i.endDerivative
  have hc := abs_nonneg (i.endY - i.startY)
  unfold bound3 bound2 change
  generalize |i.startDerivative| = a at *
  generalize |i.endDerivative| = b at *
  generalize |i.endY - i.startY| = y at *
  have t1 : τ ≤ τ ^ 2 := by nlinarith
  have t2 : τ ^ 2 ≤ τ ^ 3 := by nlinarith [sq_nonneg τ]
  have hwa := mul_nonneg hw.le ha
  have hwb := mul_nonneg hw.le hb
  constructor
  · have e : ((( 2 * (1 / w * (1 / w) * (1 / w)) * y + 1 / w * (1 / w) * (b + a)) * (τ * w) +
        (3 * (1 / w * (1 / w)) * y + 1 / w * (b + 2 * a))) * (τ * w) + a) * (τ * w) =
        τ ^ 3 * (2 * y + w * b + w * a) + τ ^ 2 * (3 * y + w * b + 2 * (w * a)) + τ * (w * a) := by
      field_simp
      ring
    rw [e]
    have h1 := mul_le_mul_of_nonneg_right t2 (show 0 ≤ 3 * y + w * b + 2 * (w * a) by linarith)
    have h2 := mul_le_mul_of_nonneg_right (t1.trans t2) hwa
    have h3 : 0 ≤ τ ^ 3 * (w * a) := mul_nonneg (by positivity) hwa
    have h4 : 0 ≤ τ ^ 3 * (w * b) := mul_nonneg (by positivity) hwb
    have h5 : 0 ≤ τ ^ 3 * y := mul_nonneg (by positivity) hc
    nlinarith
  · have e0 : 12 * (τ ^ 2 * ((y + w * (a + b)) / w)) = 12 * τ ^ 2 * (y + w * (a + b)) / w := by ring
    rw [e0, le_div_iff₀ hw]
    have e : ((3 * (2 * (1 / w * (1 / w) * (1 / w)) * y + 1 / w * (1 / w) * (b + a)) * (τ * w) +
        2 * (3 * (1 / w * (1 / w)) * y + 1 / w * (b + 2 * a))) * (τ * w) + a) * w =
        τ ^ 2 * (6 * y + 3 * (w * b) + 3 * (w * a)) + τ * (6 * y + 2 * (w * b) + 4 * (w * a)) + w * a := by
      field_simp
      ring
    rw [e]
    have h2 := mul_le_mul_of_nonneg_right t1 (show 0 ≤ 6 * y + 2 * (w * b) + 4 * (w * a) by linarith)
    have h3 : w * a ≤ τ ^ 2 * (w * a) := le_mul_of_one_le_left hwa (hτ.trans t1)
    have h4 : 0 ≤ τ ^ 2 * (w * a) := mul_nonneg (by positivity) hwa
    have h5 : 0 ≤ τ ^ 2 * (w * b) := mul_nonneg (by positivity) hwb
    nlinarith

/-- The value of a curve that was shifted to the right by `a`. -/
theorem shifted_value (h : Nearest f32 rnd) (hi : Floats i) (hv : |i.widthX - w| ≤ w / 2 ^ 24)
    (hw0 : 1 / 2 ^ 30 ≤ w) (hw1 : w ≤ 2 ^ 30) (hp : Through i w p) (ha : |a| ≤ A) (hx : |x| ≤ X)
    (hA : A ≤ 2 ^ 31) (hX : X ≤ 2 ^ 31) {τ : ℚ} (hτ : 1 ≤ τ) (hAX : A + X ≤ 65 / 64 * (τ * w)) :
    |eval rnd fused (shiftLeft rnd fused (init rnd i) (-a)) x - p.eval (x - a)| ≤
      |i.startY| / 2 ^ 19 + τ ^ 3 * change i w / 2 ^ 17 + 1 / 2 ^ 45 ∧
    |deriv rnd fused (shiftLeft rnd fused (init rnd i) (-a)) x - p.deriv (x - a)| ≤
      τ ^ 2 * (change i w / w) / 2 ^ 15 + 1 / 2 ^ 75 := by
  have hw : 0 < w := lt_of_lt_of_le (by norm_num) hw0
  have hη := eta_pos
  have hA0 : 0 ≤ A := (abs_nonneg a).trans ha
  have hX0 : 0 ≤ X := (abs_nonneg x).trans hx
  have hu : u ≤ 1 / 8 := by norm_num [u]
  have hue : u * eta ≤ 1 / 8 * eta := mul_le_mul_of_nonneg_right hu hη.le
  obtain ⟨n3, n2, n1, n0, m2, m1, m0⟩ := shifted (fused := fused) h hi hv hw0 hw1 hp ha
  set c := shiftLeft rnd fused (init rnd i) (-a) with hc
  have hb3 := (n3.pos)
  have hD := change_nonneg (i := i) hw.le
  have hστ : 1 ≤ 65 / 64 * τ := by linarith
  have fb := far_bounds (i := i) hw hστ
  have hs : A + X ≤ 65 / 64 * τ * w := by linarith
  have hb2 : 0 ≤ bound2 i w := by unfold bound2; positivity
  have hd0 := abs_nonneg i.startDerivative
  constructor
  · have v2 := mulAdd_near (fused := fused) h m2 (by positivity) (by positivity) n3 n2 hx
    have v1 := mulAdd_near (fused := fused) h m1 (by positivity) (by positivity) v2 n1 hx
    have v := mulAdd_near (fused := fused) h m0 (by positivity) (by positivity) v1 n0 hx
    have e : ((p.c3 * x + (p.c2 - 3 * p.c3 * a)) * x + p.deriv (-a)) * x + p.eval (-a) = p.eval (x - a) := by
      simp only [Cubic.eval, Cubic.deriv]; ring
    rw [e] at v
    refine v.2.trans ?_
    have eB : ((bound3 i w * X + (3 * bound3 i w * A + bound2 i w)) * X + ((3 * bound3 i w * A + 2 * bound2 i w) * A + |i.startDerivative|)) * X +
        (((bound3 i w * A + bound2 i w) * A + |i.startDerivative|) * A + |i.startY|) =
        ((bound3 i w * (A + X) + bound2 i w) * (A + X) + |i.startDerivative|) * (A + X) + |i.startY| := by ring
    rw [eB]
    have g1 : ((bound3 i w * (A + X) + bound2 i w) * (A + X) + |i.startDerivative|) * (A + X) + |i.startY| ≤
        ((bound3 i w * (65 / 64 * τ * w) + bound2 i w) * (65 / 64 * τ * w) + |i.startDerivative|) * (65 / 64 * τ * w) + |i.startY| := by
      gcongr
    have g2 := g1.trans fb.1
    have hpow : 0 ≤ ((1 + u) ^ 23 - 1 : ℚ) := by linarith [pow_ge 23]
    have g3 := mul_le_mul_of_nonneg_left g2 hpow
    have hT : 0 ≤ τ ^ 3 * change i w := mul_nonneg (by positivity) hD
    have hy := abs_nonneg i.startY
    have g4 : ((1 + u) ^ 23 - 1) * (|i.startY| + 5 * ((65 / 64 * τ) ^ 3 * change i w)) ≤ |i.startY| / 2 ^ 19 + τ ^ 3 * change i w / 2 ^ 17 := by
      have c1 : (1 + u) ^ 23 - 1 ≤ 1 / 2 ^ 19 := by norm_num [u]
      have c2 : ((1 + u) ^ 23 - 1) * (5 * (65 / 64) ^ 3) ≤ 1 / 2 ^ 17 := by norm_num [u]
      have d1 := mul_le_mul_of_nonneg_right c1 hy
      have d2 := mul_le_mul_of_nonneg_right c2 hT
      have e : ((1 + u) ^ 23 - 1) * (|i.startY| + 5 * ((65 / 64 * τ) ^ 3 * change i w)) =
        ((1 + u) ^ 23 - 1) * |i.startY| + ((1 + u) ^ 23 - 1) * (5 * (65 / 64) ^ 3) * (τ ^ 3 * change i w) := by ring
      rw [e]
      linarith
    have g5 : 2 * (2 * (2 * (4 * eta * X + (30 * eta * A + 12 * eta) + eta) * X + 2 * (2 * (16 * eta * A + 9 * eta) * A + eta) + eta) * X +
        2 * (2 * (2 * (4 * eta * A + 5 * eta) * A + eta) * A + eta) + eta) ≤ 1 / 2 ^ 45 := by
      have : 2 * (2 * (2 * (4 * eta * X + (30 * eta * A + 12 * eta) + eta) * X + 2 * (2 * (16 * eta * A + 9 * eta) * A + eta) + eta) * X +
        2 * (2 * (2 * (4 * eta * A + 5 * eta) * A + eta) * A + eta) + eta) ≤
        2 * (2 * (2 * (4 * eta * 2 ^ 31 + (30 * eta * 2 ^ 31 + 12 * eta) + eta) * 2 ^ 31 + 2 * (2 * (16 * eta * 2 ^ 31 + 9 * eta) * 2 ^ 31 + eta) + eta) * 2 ^ 31 +
        2 * (2 * (2 * (4 * eta * 2 ^ 31 + 5 * eta) * 2 ^ 31 + eta) * 2 ^ 31 + eta) + eta) := by gcongr
      refine this.trans (by norm_num [eta])
    linarith
  · have t3 : Near 18 (3 * bound3 i w) (16 * eta) (rnd (3 * c.c3)) (3 * p.c3) := by
      have := (n3.mul_left (c := 3) (C := 3) (by norm_num)).round h
      exact this.mono le_rfl le_rfl (by linarith)
    have t2 : Near 19 (2 * (3 * bound3 i w * A + bound2 i w)) (2 * (30 * eta * A + 12 * eta)) (rnd (2 * c.c2)) (2 * (p.c2 - 3 * p.c3 * a)) := by
      rw [h.exact (double_mem m2)]
      have := n2.mul_left (c := 2) (C := 2) (by norm_num)
      exact this.mono (by norm_num) le_rfl le_rfl
    have v1 := mulAdd_near (fused := fused) h (h.mem _) (by positivity) (by positivity) t3 t2 hx
    have v := mulAdd_near (fused := fused) h m1 (by positivity) (by positivity) v1 (n1.mono (j := 21) (by norm_num) le_rfl le_rfl) hx
    have e : (3 * p.c3 * x + 2 * (p.c2 - 3 * p.c3 * a)) * x + p.deriv (-a) = p.deriv (x - a) := by
      simp only [Cubic.deriv]; ring
    rw [e] at v
    refine v.2.trans ?_
    have eB : (3 * bound3 i w * X + 2 * (3 * bound3 i w * A + bound2 i w)) * X + ((3 * bound3 i w * A + 2 * bound2 i w) * A + |i.startDerivative|) =
        (3 * bound3 i w * (A + X) + 2 * bound2 i w) * (A + X) + |i.startDerivative| := by ring
    rw [eB]
    have g1 : (3 * bound3 i w * (A + X) + 2 * bound2 i w) * (A + X) + |i.startDerivative| ≤
        (3 * bound3 i w * (65 / 64 * τ * w) + 2 * bound2 i w) * (65 / 64 * τ * w) + |i.startDerivative| := by
      gcongr
    have g2 := g1.trans fb.2
    have hpow : 0 ≤ ((1 + u) ^ 22 - 1 : ℚ) := by linarith [pow_ge 22]
    have g3 := mul_le_mul_of_nonneg_left g2 hpow
    have hT : 0 ≤ τ ^ 2 * (change i w / w) := mul_nonneg (by positivity) (div_nonneg hD hw.le)
    have g4 : ((1 + u) ^ 22 - 1) * (12 * ((65 / 64 * τ) ^ 2 * (change i w / w))) ≤ τ ^ 2 * (change i w / w) / 2 ^ 15 := by
      have c2 : ((1 + u) ^ 22 - 1) * (12 * (65 / 64) ^ 2) ≤ 1 / 2 ^ 15 := by norm_num [u]
      have d2 := mul_le_mul_of_nonneg_right c2 hT
      have e : ((1 + u) ^ 22 - 1) * (12 * ((65 / 64 * τ) ^ 2 * (change i w / w))) =
        ((1 + u) ^ 22 - 1) * (12 * (65 / 64) ^ 2) * (τ ^ 2 * (change i w / w)) := by ring
      rw [e]
      linarith
    have g5 : 2 * (2 * (16 * eta * X + 2 * (30 * eta * A + 12 * eta) + eta) * X + 2 * (2 * (16 * eta * A + 9 * eta) * A + eta) + eta) ≤ 1 / 2 ^ 75 := by
      have : 2 * (2 * (16 * eta * X + 2 * (30 * eta * A + 12 * eta) + eta) * X + 2 * (2 * (16 * eta * A + 9 * eta) * A + eta) + eta) ≤
        2 * (2 * (16 * eta * 2 ^ 31 + 2 * (30 * eta * 2 ^ 31 + 12 * eta) + eta) * 2 ^ 31 + 2 * (2 * (16 * eta * 2 ^ 31 + 9 * eta) * 2 ^ 31 + eta) + eta) := by
        gcongr
      refine this.trans (by norm_num [eta])
    linarith

end Shift

end

end Motive.Float.Hermite
