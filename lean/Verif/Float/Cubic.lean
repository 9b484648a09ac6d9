import Verif.Float.Near
import Verif.Curve.Props

/-!
# Cubic curves in single precision (C99)

`Verif/Curve/Model.lean` models `CubicCurve` (src/motive/math/curve.cpp, include/motive/math/curve.h) in exact arithmetic.
Here the curve is set up and evaluated as the code does, with every operation rounded to `float`.

Compilers may fuse a multiplication and the addition that follows it into one operation that rounds once; the flag `fused`
says whether they do so in the evaluation, and the theorems hold for both.  Simplifications: the operations of `Init` are
not fused, and exponents are not bounded above (see `Verif/Float/Basic.lean`).
-/

namespace Motive.Float.Hermite

open Motive.Curve (Cubic CubicInit)
open Motive.Float.Quantize (err_add memI)

/-! ### Model -/

section Model
variable (rnd : ℚ → ℚ) (fused : Bool)

/-- `a * b + c`, with one or two roundings. -/
def mulAdd (a b c : ℚ) : ℚ := if fused then rnd (a * b + c) else rnd (rnd (a * b) + c)

/-- `Evaluate` (curve.h:389-392). -/
def eval (c : Cubic ℚ) (x : ℚ) : ℚ := mulAdd rnd fused (mulAdd rnd fused (mulAdd rnd fused c.c3 x c.c2) x c.c1) x c.c0

/-- `Derivative` (curve.h:396-398). -/
def deriv (c : Cubic ℚ) (x : ℚ) : ℚ :=
  mulAdd rnd fused (mulAdd rnd fused (rnd (3 * c.c3)) x (rnd (2 * c.c2))) x c.c1

/-- `SecondDerivative` (curve.h:402-404). -/
def second (c : Cubic ℚ) (x : ℚ) : ℚ := mulAdd rnd fused (rnd (6 * c.c3)) x (rnd (2 * c.c2))

/-- `ThirdDerivative` (curve.h:410-413). -/
def third (c : Cubic ℚ) : ℚ := rnd (6 * c.c3)

/-- `Init(CubicInit)` (curve.cpp:285-317). -/
def init (i : CubicInit ℚ) : Cubic ℚ :=
  let oneOverW := if 0 < i.widthX then rnd (1 / i.widthX) else 1
  let oneOverWSq := rnd (oneOverW * oneOverW)
  let oneOverWCubed := rnd (oneOverWSq * oneOverW)
  { c0 := i.startY
    c1 := if 0 < i.widthX then i.startDerivative else 0
    c2 := rnd (rnd (rnd (3 * oneOverWSq) * rnd (i.endY - i.startY)) -
      rnd (oneOverW * rnd (i.endDerivative + rnd (2 * i.startDerivative))))
    c3 := rnd (rnd (rnd (2 * oneOverWCubed) * rnd (i.startY - i.endY)) +
      rnd (oneOverWSq * rnd (i.endDerivative + i.startDerivative))) }

/-- `ShiftLeft` (curve.cpp:319-338). -/
def shiftLeft (c : Cubic ℚ) (s : ℚ) : Cubic ℚ :=
  if s = 0 then c else ⟨c.c3, rnd (second rnd fused c s * (1 / 2)), deriv rnd fused c s, eval rnd fused c s⟩

end Model

/-! ### Specification -/

/-- `p` is the cubic with the values and slopes of `i` at 0 and at `w`. -/
def Through (i : CubicInit ℚ) (w : ℚ) (p : Cubic ℚ) : Prop :=
  p.eval 0 = i.startY ∧ p.deriv 0 = i.startDerivative ∧ p.eval w = i.endY ∧ p.deriv w = i.endDerivative

/-- The values and slopes are floats. -/
def Floats (i : CubicInit ℚ) : Prop :=
  f32.Mem i.startY ∧ f32.Mem i.startDerivative ∧ f32.Mem i.endY ∧ f32.Mem i.endDerivative ∧ f32.Mem i.widthX

/-- How much the curve may change over a width of `w`. -/
def change (i : CubicInit ℚ) (w : ℚ) : ℚ := |i.endY - i.startY| + w * (|i.startDerivative| + |i.endDerivative|)

/-! ### Proofs -/

variable {rnd : ℚ → ℚ} {fused : Bool}

theorem mulAdd_mem (h : Nearest f32 rnd) (a b c : ℚ) : f32.Mem (mulAdd rnd fused a b c) := by
  unfold mulAdd; split <;> exact h.mem _

theorem mulAdd_zero (h : Nearest f32 rnd) {c : ℚ} (hc : f32.Mem c) (a : ℚ) : mulAdd rnd fused a 0 c = c := by
  unfold mulAdd
  split <;> simp only [mul_zero, zero_add, h.zero, h.exact hc]

theorem mulAdd_near (h : Nearest f32 rnd) {k : ℕ} {B C X e f a b c d x : ℚ} (hc : f32.Mem c) (he : 0 ≤ e) (hf : 0 ≤ f)
    (g : Near k B e a b) (g' : Near (k + 1) C f c d) (hx : |x| ≤ X) :
    Near (k + 2) (B * X + C) (2 * (e * X + f + eta)) (mulAdd rnd fused a x c) (b * x + d) := by
  have hX : 0 ≤ X := (abs_nonneg x).trans hx
  have h1 := g.mul_right hx
  have heX : 0 ≤ e * X := mul_nonneg he hX
  have hu : u ≤ 1 / 8 := by norm_num [u]
  have hu0 := u_pos
  have hη := eta_pos
  unfold mulAdd
  split
  · have h2 := (h1.mono (Nat.le_succ k) le_rfl le_rfl).add g'
    refine (h2.round h).mono le_rfl le_rfl ?_
    nlinarith
  · have h2 := (h1.round h).add g'
    refine (h2.rnd_add h (h.mem _) hc).mono le_rfl le_rfl ?_
    have h3 := mul_le_mul_of_nonneg_right hu heX
    have h4 := mul_le_mul_of_nonneg_right hu (show 0 ≤ (1 + u) * (e * X) + eta + f by nlinarith)
    linarith

theorem mulAdd_last (h : Nearest f32 rnd) {k : ℕ} {B X e a b c x : ℚ} (hc : f32.Mem c) (he : 0 ≤ e)
    (g : Near k B e a b) (hx : |x| ≤ X) :
    |mulAdd rnd fused a x c - (b * x + c)| ≤ u * |b * x + c| + 9 / 8 * (((1 + u) ^ (k + 1) - 1) * (B * X)) + 4 * (e * X + eta) := by
  have hX : 0 ≤ X := (abs_nonneg x).trans hx
  have h1 := g.mul_right hx
  have heX : 0 ≤ e * X := mul_nonneg he hX
  have hu : u ≤ 1 / 8 := by norm_num [u]
  have hu0 := u_pos
  have hη := eta_pos
  have hBX : 0 ≤ B * X := h1.pos
  have hk := pow_ge (k + 1)
  unfold mulAdd
  split
  · have h2 := err_any h (a * x + c)
    have h3 := (h1.mono (Nat.le_succ k) le_rfl le_rfl).2
    have h4 : |a * x + c| ≤ |b * x + c| + |a * x - b * x| := by
      have : a * x + c = (b * x + c) + (a * x - b * x) := by ring
      rw [this]; exact abs_add_le _ _
    have h5 : rnd (a * x + c) - (b * x + c) = (rnd (a * x + c) - (a * x + c)) + (a * x - b * x) := by ring
    rw [h5]
    refine (abs_add_le _ _).trans ?_
    have h6 := mul_nonneg (sub_nonneg.mpr hk) hBX
    have h7 := mul_le_mul_of_nonneg_right hu (abs_nonneg (a * x - b * x))
    have h8 := mul_le_mul_of_nonneg_left h4 hu0.le
    rw [Nat.succ_eq_add_one] at h3
    linarith
  · have h2 := err_add h (h.mem (a * x)) hc
    have e2 : |rnd (a * x) + c| / 2 ^ 24 = u * |rnd (a * x) + c| := by rw [u]; ring
    rw [e2] at h2
    have h3 := (h1.round h).2
    have h4 : |rnd (a * x) + c| ≤ |b * x + c| + |rnd (a * x) - b * x| := by
      have : rnd (a * x) + c = (b * x + c) + (rnd (a * x) - b * x) := by ring
      rw [this]; exact abs_add_le _ _
    have h5 : rnd (rnd (a * x) + c) - (b * x + c) = (rnd (rnd (a * x) + c) - (rnd (a * x) + c)) + (rnd (a * x) - b * x) := by ring
    rw [h5]
    refine (abs_add_le _ _).trans ?_
    have h6 := mul_nonneg (sub_nonneg.mpr hk) hBX
    have h7 := mul_le_mul_of_nonneg_right hu (abs_nonneg (rnd (a * x) - b * x))
    have h8 := mul_le_mul_of_nonneg_left h4 hu0.le
    have h9 := mul_le_mul_of_nonneg_right hu heX
    linarith

/-! The coefficients -/

section Coefficients

variable {w v y0 s0 y1 s1 : ℚ}

theorem inv_near (h : Nearest f32 rnd) (hv : |v - w| ≤ u * w) (hw0 : (2 : ℚ) ^ (-30 : ℤ) ≤ w) (hw1 : w ≤ 2 ^ 30) :
    0 < v ∧ Near 3 (1 / w) 0 (rnd (1 / v)) (1 / w) ∧ (2 : ℚ) ^ (-32 : ℤ) ≤ rnd (1 / v) := by
  have hw : 0 < w := lt_of_lt_of_le (two_zpow_pos _) hw0
  have hu : u ≤ 1 / 8 := by norm_num [u]
  have hu0 := u_pos
  have hv' := abs_le.mp hv
  have huw : u * w ≤ 1 / 8 * w := mul_le_mul_of_nonneg_right hu hw.le
  have hv0 : 0 < v := by linarith
  have hv2 : v ≤ 2 ^ 32 := by
    have : w * (9 / 8) ≤ 2 ^ 30 * (9 / 8) := mul_le_mul_of_nonneg_right hw1 (by norm_num)
    have e : (2 : ℚ) ^ 30 * (9 / 8) ≤ 2 ^ 32 := by norm_num
    linarith
  have hlow : (2 : ℚ) ^ (-32 : ℤ) ≤ 1 / v := by
    rw [le_div_iff₀ hv0, zpow_neg]
    have : ((2 : ℚ) ^ (32 : ℤ))⁻¹ * v ≤ ((2 : ℚ) ^ (32 : ℤ))⁻¹ * 2 ^ 32 := mul_le_mul_of_nonneg_left hv2 (by positivity)
    refine this.trans (by norm_num)
  have hn : Near 2 (1 / w) 0 (1 / v) (1 / w) := by
    refine ⟨by rw [abs_of_pos (by positivity)], ?_⟩
    have e : 1 / v - 1 / w = (w - v) * (1 / (v * w)) := by field_simp
    rw [e, abs_mul, abs_sub_comm, abs_of_pos (show 0 < 1 / (v * w) by positivity), add_zero]
    have h1 : |v - w| * (1 / (v * w)) ≤ u * w * (1 / (v * w)) := mul_le_mul_of_nonneg_right hv (by positivity)
    refine h1.trans ?_
    have e2 : u * w * (1 / (v * w)) = u / v := by field_simp
    rw [e2, div_le_iff₀ hv0]
    have e3 : ((1 + u) ^ 2 - 1) * (1 / w) * v = (2 * u + u ^ 2) * v / w := by ring
    rw [e3, le_div_iff₀ hw]
    have : (2 * u + u ^ 2) * ((1 - u) * w) ≤ (2 * u + u ^ 2) * v := mul_le_mul_of_nonneg_left (by linarith) (by positivity)
    nlinarith [mul_pos hu0 hw, mul_pos (mul_pos hu0 hu0) hw, mul_pos (mul_pos (mul_pos hu0 hu0) hu0) hw]
  refine ⟨hv0, ?_, h.ge_of_ge (mem_zpow (by norm_num [f32])) hlow⟩
  have := hn.rnd_normal h (by
    rw [abs_of_pos (by positivity)]
    exact le_trans (zpow_le_zpow_right₀ (by norm_num) (by norm_num)) hlow)
  simpa using this

theorem zpow_mul_le {a b : ℤ} {x y : ℚ} (hx : (2 : ℚ) ^ a ≤ x) (hy : (2 : ℚ) ^ b ≤ y) : (2 : ℚ) ^ (a + b) ≤ x * y := by
  rw [zpow_split]
  exact mul_le_mul hx hy (two_zpow_pos _).le ((two_zpow_pos _).le.trans hx)

theorem double_mem {x : ℚ} (hx : f32.Mem x) : f32.Mem (2 * x) := by
  have := mem_mul_zpow (k := 1) (by norm_num) hx
  rw [zpow_one, mul_comm] at this; exact this

/-- Halving a float is exact, unless the result is so small that it is rounded to a multiple of the least positive float. -/
theorem half_near (h : Nearest f32 rnd) {x : ℚ} (hx : f32.Mem x) : |rnd (x * (1 / 2)) - x * (1 / 2)| ≤ eta := by
  obtain ⟨m, e, hm, he, rfl⟩ := hx
  have he' : -149 ≤ e := he
  rcases lt_or_ge (-149 : ℤ) e with hl | hl
  · have hmem : f32.Mem ((m : ℚ) * 2 ^ e * (1 / 2)) :=
      ⟨m, e - 1, hm, show (-149 : ℤ) ≤ e - 1 by omega, by rw [zpow_sub_one₀ (by norm_num)]; ring⟩
    rw [h.exact hmem, sub_self, abs_zero]
    exact eta_pos.le
  · obtain rfl : e = -149 := le_antisymm hl he'
    have hm' : |(m : ℚ)| ≤ 2 ^ 24 := by exact_mod_cast (show |m| < 2 ^ 24 from hm).le
    have hs : |(m : ℚ) * 2 ^ (-149 : ℤ) * (1 / 2)| ≤ 2 ^ (-125 : ℤ) := by
      rw [abs_mul, abs_mul, abs_of_pos (show (0 : ℚ) < 2 ^ (-149 : ℤ) by positivity), abs_of_pos (show (0 : ℚ) < 1 / 2 by norm_num)]
      have := mul_le_mul_of_nonneg_right hm' (show (0 : ℚ) ≤ 2 ^ (-149 : ℤ) * (1 / 2) by positivity)
      rw [← mul_assoc] at this
      refine this.trans (by norm_num)
    have := h.err (x := (m : ℚ) * 2 ^ (-149 : ℤ) * (1 / 2)) (k := -125) (by norm_num [f32]) hs
    have e1 : ((2 : ℚ) ^ ((-125 : ℤ) - (f32.p : ℤ) - 1)) = eta := by norm_num [f32, eta]
    rw [e1] at this
    exact this

/-- Bounds for the two upper coefficients. -/
def bound2 (i : CubicInit ℚ) (w : ℚ) : ℚ :=
  3 * (1 / w * (1 / w)) * |i.endY - i.startY| + 1 / w * (|i.endDerivative| + 2 * |i.startDerivative|)
def bound3 (i : CubicInit ℚ) (w : ℚ) : ℚ :=
  2 * (1 / w * (1 / w) * (1 / w)) * |i.endY - i.startY| + 1 / w * (1 / w) * (|i.endDerivative| + |i.startDerivative|)

theorem coefficients (h : Nearest f32 rnd) {i : CubicInit ℚ} (hi : Floats i) (hv : |i.widthX - w| ≤ u * w)
    (hw0 : (2 : ℚ) ^ (-30 : ℤ) ≤ w) (hw1 : w ≤ 2 ^ 30) {p : Cubic ℚ} (hp : Through i w p) :
    Near 11 (bound2 i w) (4 * eta) (init rnd i).c2 p.c2 ∧ Near 14 (bound3 i w) (4 * eta) (init rnd i).c3 p.c3 ∧
    (init rnd i).c1 = p.c1 ∧ (init rnd i).c0 = p.c0 := by
  have hw : 0 < w := lt_of_lt_of_le (two_zpow_pos _) hw0
  obtain ⟨my0, ms0, my1, ms1, mw⟩ := hi
  obtain ⟨hv0, ow, owl⟩ := inv_near h hv hw0 hw1
  -- the exact coefficients
  have hex : p = Cubic.init ⟨i.startY, i.startDerivative, i.endY, i.endDerivative, w⟩ :=
    (Motive.Curve.C29_hermite _ hw p).mpr hp
  have o0 : 0 < rnd (1 / i.widthX) := lt_of_lt_of_le (two_zpow_pos _) owl
  -- squares and cubes
  have sq := ow.mul ow
  have sql := zpow_mul_le owl owl
  have sq' := sq.rnd_normal h (by
    rw [abs_of_pos (mul_pos o0 o0)]; exact le_trans (zpow_le_zpow_right₀ (by norm_num) (by norm_num)) sql)
  have sql' : (2 : ℚ) ^ (-64 : ℤ) ≤ rnd (rnd (1 / i.widthX) * rnd (1 / i.widthX)) :=
    h.ge_of_ge (mem_zpow (by norm_num [f32])) sql
  set s := rnd (rnd (1 / i.widthX) * rnd (1 / i.widthX)) with hs
  have s0 : 0 < s := lt_of_lt_of_le (two_zpow_pos _) sql'
  simp only [zero_mul, mul_zero] at sq'
  have cu := sq'.mul ow
  have cul := zpow_mul_le sql' owl
  have cu' := cu.rnd_normal h (by
    rw [abs_of_pos (mul_pos s0 o0)]; exact le_trans (zpow_le_zpow_right₀ (by norm_num) (by norm_num)) cul)
  simp only [zero_mul, mul_zero] at cu'
  have ms : f32.Mem s := h.mem _
  set o := rnd (1 / i.widthX) with ho
  have mo : f32.Mem o := h.mem _
  set q := rnd (s * o) with hq
  have mq : f32.Mem q := h.mem _
  -- differences and sums of the data
  have dy : Near 1 |i.endY - i.startY| 0 (rnd (i.endY - i.startY)) (i.endY - i.startY) := by
    have := (Near.refl (le_refl |i.endY - i.startY|)).rnd_sub h my1 my0
    simpa using this
  have dy' : Near 1 |i.endY - i.startY| 0 (rnd (i.startY - i.endY)) (i.startY - i.endY) := by
    have := (Near.refl (le_of_eq (abs_sub_comm i.startY i.endY))).rnd_sub h my0 my1
    simpa using this
  have t2 : |i.endDerivative + 2 * i.startDerivative| ≤ |i.endDerivative| + 2 * |i.startDerivative| := by
    refine (abs_add_le _ _).trans ?_
    rw [abs_mul, abs_of_pos (show (0 : ℚ) < 2 by norm_num)]
  have ds : Near 1 (|i.endDerivative| + 2 * |i.startDerivative|) 0 (rnd (i.endDerivative + rnd (2 * i.startDerivative)))
      (i.endDerivative + 2 * i.startDerivative) := by
    rw [h.exact (double_mem ms0)]
    have := (Near.refl t2).rnd_add h ms1 (double_mem ms0)
    simpa using this
  have ds' : Near 1 (|i.endDerivative| + |i.startDerivative|) 0 (rnd (i.endDerivative + i.startDerivative))
      (i.endDerivative + i.startDerivative) := by
    have := (Near.refl (abs_add_le i.endDerivative i.startDerivative)).rnd_add h ms1 ms0
    simpa using this
  have hη := eta_pos
  have hu : u ≤ 1 / 8 := by norm_num [u]
  have hu0 := u_pos
  have hue : u * eta ≤ 1 / 8 * eta := mul_le_mul_of_nonneg_right hu hη.le
  -- the coefficients
  have three : Near 8 (3 * (1 / w * (1 / w))) 0 (rnd (3 * s)) (3 * (1 / w * (1 / w))) := by
    have e1 := sq'.mul_right (c := 3) (C := 3) (by norm_num)
    rw [mul_comm s 3, mul_comm _ (3 : ℚ), zero_mul] at e1
    have := e1.rnd_normal h (by
      rw [abs_of_pos (by positivity)]
      have : (2 : ℚ) ^ (-125 : ℤ) ≤ 2 ^ (-64 : ℤ) := zpow_le_zpow_right₀ (by norm_num) (by norm_num)
      linarith)
    simpa using this
  have two : Near 11 (2 * (1 / w * (1 / w) * (1 / w))) 0 (rnd (2 * q)) (2 * (1 / w * (1 / w) * (1 / w))) := by
    rw [h.exact (double_mem mq)]
    have e1 := cu'.mul_right (c := 2) (C := 2) (by norm_num)
    rw [mul_comm q 2, mul_comm _ (2 : ℚ), zero_mul] at e1
    exact e1
  have a2 := ((three.mul dy).round h)
  have b2 := ((ow.mul ds).round h)
  have c2 := (a2.sub (b2.mono (j := 10) (by norm_num) le_rfl le_rfl)).rnd_sub h (h.mem _) (h.mem _)
  have a3 := ((two.mul dy').round h)
  have b3 := ((sq'.mul ds').round h)
  have c3 := (a3.add (b3.mono (j := 13) (by norm_num) le_rfl le_rfl)).rnd_add h (h.mem _) (h.mem _)
  refine ⟨?_, ?_, ?_, ?_⟩
  · rw [hex]
    simp only [init, Cubic.init, if_pos hv0, if_pos hw]
    exact c2.mono (by norm_num) le_rfl (by nlinarith)
  · rw [hex]
    simp only [init, Cubic.init, if_pos hv0, if_pos hw]
    exact c3.mono (by norm_num) le_rfl (by nlinarith)
  · rw [hex]; simp only [init, Cubic.init, if_pos hv0, if_pos hw]
  · rw [hex]; simp only [init, Cubic.init]

end Coefficients

theorem init_mem (h : Nearest f32 rnd) {i : CubicInit ℚ} (hi : Floats i) :
    f32.Mem (init rnd i).c3 ∧ f32.Mem (init rnd i).c2 ∧ f32.Mem (init rnd i).c1 ∧ f32.Mem (init rnd i).c0 := by
  refine ⟨h.mem _, h.mem _, ?_, hi.1⟩
  simp only [init]
  split
  · exact hi.2.1
  · exact mem_zero

section Bounds

variable {w x : ℚ} {i : CubicInit ℚ} {p : Cubic ℚ}

theorem bounds_scaled (hw : 0 < w) (hx : |x| ≤ 65 / 64 * w) :
    ((bound3 i w * |x| + bound2 i w) * |x| + |i.startDerivative|) * |x| ≤ 21 / 4 * change i w ∧
    (3 * bound3 i w * |x| + 2 * bound2 i w) * |x| ≤ 25 / 2 * (change i w / w) := by
  have ht0 : 0 ≤ |x| / w := div_nonneg (abs_nonneg x) hw.le
  have ht1 : |x| / w ≤ 65 / 64 := by rwa [div_le_iff₀ hw]
  have hxt : |x| = |x| / w * w := by field_simp
  generalize |x| / w = t at ht0 ht1 hxt
  rw [hxt]
  have ha := abs_nonneg i.startDerivative
  have hb := abs_nonneg i.endDerivative
  have hc := abs_nonneg (i.endY - i.startY)
  unfold bound3 bound2 change
  generalize |i.startDerivative| = a at *
  generalize |i.endDerivative| = b at *
  generalize |i.endY - i.startY| = y at *
  have t2 : t * t ≤ 65 / 64 * (65 / 64) := mul_le_mul ht1 ht1 ht0 (by norm_num)
  have t20 : 0 ≤ t * t := mul_nonneg ht0 ht0
  have t3 : t * t * t ≤ 65 / 64 * (65 / 64) * (65 / 64) := mul_le_mul t2 ht1 ht0 (by norm_num)
  have hwa := mul_nonneg hw.le ha
  have hwb := mul_nonneg hw.le hb
  constructor
  · have e : ((( 2 * (1 / w * (1 / w) * (1 / w)) * y + 1 / w * (1 / w) * (b + a)) * (t * w) +
        (3 * (1 / w * (1 / w)) * y + 1 / w * (b + 2 * a))) * (t * w) + a) * (t * w) =
        t * t * t * (2 * y + w * b + w * a) + t * t * (3 * y + w * b + 2 * (w * a)) + t * (w * a) := by
      field_simp
      ring
    rw [e]
    have h1 := mul_le_mul_of_nonneg_right t3 (show 0 ≤ 2 * y + w * b + w * a by linarith)
    have h2 := mul_le_mul_of_nonneg_right t2 (show 0 ≤ 3 * y + w * b + 2 * (w * a) by linarith)
    have h3 := mul_le_mul_of_nonneg_right ht1 hwa
    rw [mul_add w]
    norm_num at h1 h2 h3 ⊢
    linarith
  · have e0 : 25 / 2 * ((y + w * (a + b)) / w) = 25 / 2 * (y + w * (a + b)) / w := by ring
    rw [e0, le_div_iff₀ hw]
    have e : (3 * (2 * (1 / w * (1 / w) * (1 / w)) * y + 1 / w * (1 / w) * (b + a)) * (t * w) +
        2 * (3 * (1 / w * (1 / w)) * y + 1 / w * (b + 2 * a))) * (t * w) * w =
        t * t * (6 * y + 3 * (w * b) + 3 * (w * a)) + t * (6 * y + 2 * (w * b) + 4 * (w * a)) := by
      field_simp
      ring
    rw [e]
    have h2 := mul_le_mul_of_nonneg_right t2 (show 0 ≤ 6 * y + 3 * (w * b) + 3 * (w * a) by linarith)
    have h3 := mul_le_mul_of_nonneg_right ht1 (show 0 ≤ 6 * y + 2 * (w * b) + 4 * (w * a) by linarith)
    rw [mul_add w]
    norm_num at h2 h3 ⊢
    linarith

theorem change_nonneg (hw : 0 ≤ w) : 0 ≤ change i w := by
  unfold change; positivity

/-- **C99**: in single precision the curve through the given values and slopes is accurate: anywhere on its width, and a
little beyond, the computed value differs from that of the exact cubic by half a unit in its last place, and `2 ^ -17`
of the amount by which the curve may change.  The width that is used may be a rounded one. -/
theorem C99_value (h : Nearest f32 rnd) (hi : Floats i) (hv : |i.widthX - w| ≤ w / 2 ^ 24)
    (hw0 : 1 / 2 ^ 30 ≤ w) (hw1 : w ≤ 2 ^ 30) (hp : Through i w p) (hx : |x| ≤ 65 / 64 * w) :
    |eval rnd fused (init rnd i) x - p.eval x| ≤ |p.eval x| / 2 ^ 24 + change i w / 2 ^ 17 + 1 / 2 ^ 50 := by
  have hw : 0 < w := lt_of_lt_of_le (by norm_num) hw0
  have hz : (2 : ℚ) ^ (-30 : ℤ) ≤ w := le_trans (by norm_num) hw0
  obtain ⟨k2, k3, k1, k0⟩ := coefficients h hi (by rw [u]; linarith) hz hw1 hp
  obtain ⟨m3, m2, m1, m0⟩ := init_mem h hi
  have hη := eta_pos
  have hx0 := abs_nonneg x
  have v2 := mulAdd_near (fused := fused) h m2 (by linarith) (by linarith) k3 (k2.mono (j := 15) (by norm_num) le_rfl le_rfl)
    (le_refl |x|)
  have n1 : Near 17 |i.startDerivative| 0 (init rnd i).c1 p.c1 := by
    rw [k1]
    have e : p.c1 = i.startDerivative := by
      have := hp.2.1; simpa [Cubic.deriv] using this
    rw [e]
    exact (Near.refl le_rfl).mono (by norm_num) le_rfl le_rfl
  have v1 := mulAdd_near (fused := fused) h m1 (by positivity) le_rfl v2 n1 (le_refl |x|)
  have fin := mulAdd_last (fused := fused) h m0 (by positivity) v1 (le_refl |x|)
  have e0 : ((p.c3 * x + p.c2) * x + p.c1) * x + (init rnd i).c0 = p.eval x := by rw [k0]; rfl
  rw [e0] at fin
  refine fin.trans ?_
  have hb := (bounds_scaled (i := i) hw hx).1
  have hpow : 0 ≤ ((1 + u) ^ 19 - 1 : ℚ) := by linarith [pow_ge 19]
  have h1 := mul_le_mul_of_nonneg_left hb hpow
  have hD := change_nonneg (i := i) hw.le
  have h2 : 9 / 8 * (((1 + u) ^ 19 - 1) * (21 / 4 * change i w)) ≤ change i w / 2 ^ 17 := by
    have : 9 / 8 * (((1 + u) ^ 19 - 1) * (21 / 4)) ≤ 1 / 2 ^ 17 := by norm_num [u]
    have := mul_le_mul_of_nonneg_right this hD
    linarith
  have hX : |x| ≤ 2 ^ 31 := by
    refine hx.trans ?_
    have := mul_le_mul_of_nonneg_left hw1 (show (0 : ℚ) ≤ 65 / 64 by norm_num)
    refine this.trans (by norm_num)
  have h3 : 4 * (2 * (2 * (4 * eta * |x| + 4 * eta + eta) * |x| + 0 + eta) * |x| + eta) ≤ 1 / 2 ^ 50 := by
    have : 4 * (2 * (2 * (4 * eta * |x| + 4 * eta + eta) * |x| + 0 + eta) * |x| + eta) ≤
        4 * (2 * (2 * (4 * eta * 2 ^ 31 + 4 * eta + eta) * 2 ^ 31 + 0 + eta) * 2 ^ 31 + eta) := by gcongr
    refine this.trans (by norm_num [eta])
  have h4 : u * |p.eval x| = |p.eval x| / 2 ^ 24 := by rw [u]; ring
  rw [h4]
  linarith

/-- **C99**: the computed slope differs from that of the exact cubic by half a unit in its last place, and `2 ^ -16` of the
mean rate at which the curve may change. -/
theorem C99_slope (h : Nearest f32 rnd) (hi : Floats i) (hv : |i.widthX - w| ≤ w / 2 ^ 24)
    (hw0 : 1 / 2 ^ 30 ≤ w) (hw1 : w ≤ 2 ^ 30) (hp : Through i w p) (hx : |x| ≤ 65 / 64 * w) :
    |deriv rnd fused (init rnd i) x - p.deriv x| ≤ |p.deriv x| / 2 ^ 24 + change i w / w / 2 ^ 16 + 1 / 2 ^ 80 := by
  have hw : 0 < w := lt_of_lt_of_le (by norm_num) hw0
  have hz : (2 : ℚ) ^ (-30 : ℤ) ≤ w := le_trans (by norm_num) hw0
  obtain ⟨k2, k3, k1, k0⟩ := coefficients h hi (by rw [u]; linarith) hz hw1 hp
  obtain ⟨m3, m2, m1, m0⟩ := init_mem h hi
  have hη := eta_pos
  have hx0 := abs_nonneg x
  have hu : u ≤ 1 / 8 := by norm_num [u]
  have hue : u * eta ≤ 1 / 8 * eta := mul_le_mul_of_nonneg_right hu hη.le
  have t3 : Near 15 (3 * bound3 i w) (16 * eta) (rnd (3 * (init rnd i).c3)) (3 * p.c3) := by
    have := (k3.mul_left (c := 3) (C := 3) (by norm_num)).round h
    exact this.mono le_rfl le_rfl (by linarith)
  have t2 : Near 16 (2 * bound2 i w) (8 * eta) (rnd (2 * (init rnd i).c2)) (2 * p.c2) := by
    rw [h.exact (double_mem m2)]
    have := k2.mul_left (c := 2) (C := 2) (by norm_num)
    exact this.mono (by norm_num) le_rfl (by linarith)
  have v1 := mulAdd_near (fused := fused) h (h.mem _) (by positivity) (by positivity) t3 t2 (le_refl |x|)
  have fin := mulAdd_last (fused := fused) h m1 (by positivity) v1 (le_refl |x|)
  have e0 : (3 * p.c3 * x + 2 * p.c2) * x + (init rnd i).c1 = p.deriv x := by rw [k1]; rfl
  rw [e0] at fin
  refine fin.trans ?_
  have hb := (bounds_scaled (i := i) hw hx).2
  have hpow : 0 ≤ ((1 + u) ^ 18 - 1 : ℚ) := by linarith [pow_ge 18]
  have h1 := mul_le_mul_of_nonneg_left hb hpow
  have hD : 0 ≤ change i w / w := div_nonneg (change_nonneg (i := i) hw.le) hw.le
  have h2 : 9 / 8 * (((1 + u) ^ 18 - 1) * (25 / 2 * (change i w / w))) ≤ change i w / w / 2 ^ 16 := by
    have : 9 / 8 * (((1 + u) ^ 18 - 1) * (25 / 2)) ≤ 1 / 2 ^ 16 := by norm_num [u]
    have := mul_le_mul_of_nonneg_right this hD
    linarith
  have hX : |x| ≤ 2 ^ 31 := by
    refine hx.trans ?_
    have := mul_le_mul_of_nonneg_left hw1 (show (0 : ℚ) ≤ 65 / 64 by norm_num)
    refine this.trans (by norm_num)
  have h3 : 4 * (2 * (16 * eta * |x| + 8 * eta + eta) * |x| + eta) ≤ 1 / 2 ^ 80 := by
    have : 4 * (2 * (16 * eta * |x| + 8 * eta + eta) * |x| + eta) ≤
        4 * (2 * (16 * eta * 2 ^ 31 + 8 * eta + eta) * 2 ^ 31 + eta) := by gcongr
    refine this.trans (by norm_num [eta])
  have h4 : u * |p.deriv x| = |p.deriv x| / 2 ^ 24 := by rw [u]; ring
  rw [h4]
  linarith

theorem bounds_second (hw : 0 < w) (hx : |x| ≤ 65 / 64 * w) :
    6 * bound3 i w * |x| + 2 * bound2 i w ≤ 37 / 2 * (change i w / w / w) ∧ 6 * bound3 i w ≤ 12 * (change i w / w / w / w) := by
  have ht0 : 0 ≤ |x| / w := div_nonneg (abs_nonneg x) hw.le
  have ht1 : |x| / w ≤ 65 / 64 := by rwa [div_le_iff₀ hw]
  have hxt : |x| = |x| / w * w := by field_simp
  generalize |x| / w = t at ht0 ht1 hxt
  rw [hxt]
  have ha := abs_nonneg i.startDerivative
  have hb := abs_nonneg i.endDerivative
  have hc := abs_nonneg (i.endY - i.startY)
  unfold bound3 bound2 change
  generalize |i.startDerivative| = a at *
  generalize |i.endDerivative| = b at *
  generalize |i.endY - i.startY| = y at *
  have hwa := mul_nonneg hw.le ha
  have hwb := mul_nonneg hw.le hb
  have hsq : 0 < w * w := mul_pos hw hw
  constructor
  · have e0 : 37 / 2 * ((y + w * (a + b)) / w / w) = 37 / 2 * (y + w * (a + b)) / (w * w) := by field_simp
    rw [e0, le_div_iff₀ hsq]
    have e : (6 * (2 * (1 / w * (1 / w) * (1 / w)) * y + 1 / w * (1 / w) * (b + a)) * (t * w) +
        2 * (3 * (1 / w * (1 / w)) * y + 1 / w * (b + 2 * a))) * (w * w) =
        t * (12 * y + 6 * (w * b) + 6 * (w * a)) + (6 * y + 2 * (w * b) + 4 * (w * a)) := by
      field_simp
      ring
    rw [e]
    have h3 := mul_le_mul_of_nonneg_right ht1 (show 0 ≤ 12 * y + 6 * (w * b) + 6 * (w * a) by linarith)
    rw [mul_add w]
    norm_num at h3 ⊢
    linarith
  · have e0 : 12 * ((y + w * (a + b)) / w / w / w) = 12 * (y + w * (a + b)) / (w * w * w) := by field_simp
    rw [e0, le_div_iff₀ (mul_pos hsq hw)]
    have e : 6 * (2 * (1 / w * (1 / w) * (1 / w)) * y + 1 / w * (1 / w) * (b + a)) * (w * w * w) = 12 * y + 6 * (w * b) + 6 * (w * a) := by
      field_simp
      ring
    rw [e]
    linarith

/-- **C99**: so do the second and the third derivative, by `2 ^ -15` and `2 ^ -16` of the change over the square and the cube of the width. -/
theorem C99_higher (h : Nearest f32 rnd) (hi : Floats i) (hv : |i.widthX - w| ≤ w / 2 ^ 24)
    (hw0 : 1 / 2 ^ 30 ≤ w) (hw1 : w ≤ 2 ^ 30) (hp : Through i w p) (hx : |x| ≤ 65 / 64 * w) :
    |second rnd fused (init rnd i) x - p.second x| ≤ change i w / w / w / 2 ^ 15 + 1 / 2 ^ 110 ∧
    |third rnd (init rnd i) - p.third| ≤ change i w / w / w / w / 2 ^ 16 + 1 / 2 ^ 140 := by
  have hw : 0 < w := lt_of_lt_of_le (by norm_num) hw0
  have hz : (2 : ℚ) ^ (-30 : ℤ) ≤ w := le_trans (by norm_num) hw0
  obtain ⟨k2, k3, k1, k0⟩ := coefficients h hi (by rw [u]; linarith) hz hw1 hp
  obtain ⟨m3, m2, m1, m0⟩ := init_mem h hi
  have hη := eta_pos
  have hx0 := abs_nonneg x
  have hu : u ≤ 1 / 8 := by norm_num [u]
  have hue : u * eta ≤ 1 / 8 * eta := mul_le_mul_of_nonneg_right hu hη.le
  have t3 : Near 15 (6 * bound3 i w) (32 * eta) (rnd (6 * (init rnd i).c3)) (6 * p.c3) := by
    have := (k3.mul_left (c := 6) (C := 6) (by norm_num)).round h
    exact this.mono le_rfl le_rfl (by linarith)
  have t2 : Near 16 (2 * bound2 i w) (8 * eta) (rnd (2 * (init rnd i).c2)) (2 * p.c2) := by
    rw [h.exact (double_mem m2)]
    have := k2.mul_left (c := 2) (C := 2) (by norm_num)
    exact this.mono (by norm_num) le_rfl (by linarith)
  have v1 := mulAdd_near (fused := fused) h (h.mem _) (by positivity) (by positivity) t3 t2 (le_refl |x|)
  obtain ⟨hb2, hb3⟩ := bounds_second (i := i) hw hx
  have hD := change_nonneg (i := i) hw.le
  constructor
  · have e0 : 6 * p.c3 * x + 2 * p.c2 = p.second x := rfl
    rw [e0] at v1
    refine v1.2.trans ?_
    have hpow : 0 ≤ ((1 + u) ^ 17 - 1 : ℚ) := by linarith [pow_ge 17]
    have h1 := mul_le_mul_of_nonneg_left hb2 hpow
    have h2 : ((1 + u) ^ 17 - 1) * (37 / 2 * (change i w / w / w)) ≤ change i w / w / w / 2 ^ 15 := by
      have : ((1 + u) ^ 17 - 1) * (37 / 2) ≤ 1 / 2 ^ 15 := by norm_num [u]
      have := mul_le_mul_of_nonneg_right this (show 0 ≤ change i w / w / w by positivity)
      linarith
    have hX : |x| ≤ 2 ^ 31 := by
      refine hx.trans ?_
      have := mul_le_mul_of_nonneg_left hw1 (show (0 : ℚ) ≤ 65 / 64 by norm_num)
      refine this.trans (by norm_num)
    have h3 : 2 * (32 * eta * |x| + 8 * eta + eta) ≤ 1 / 2 ^ 110 := by
      have : 2 * (32 * eta * |x| + 8 * eta + eta) ≤ 2 * (32 * eta * 2 ^ 31 + 8 * eta + eta) := by gcongr
      refine this.trans (by norm_num [eta])
    norm_num at h1 h2 h3 ⊢
    linarith
  · refine t3.2.trans ?_
    have hpow : 0 ≤ ((1 + u) ^ 15 - 1 : ℚ) := by linarith [pow_ge 15]
    have h1 := mul_le_mul_of_nonneg_left hb3 hpow
    have h2 : ((1 + u) ^ 15 - 1) * (12 * (change i w / w / w / w)) ≤ change i w / w / w / w / 2 ^ 16 := by
      have : ((1 + u) ^ 15 - 1) * 12 ≤ 1 / 2 ^ 16 := by norm_num [u]
      have := mul_le_mul_of_nonneg_right this (show 0 ≤ change i w / w / w / w by positivity)
      linarith
    have h3 : 32 * eta ≤ 1 / 2 ^ 140 := by norm_num [eta]
    linarith

/-- **C99**: the curve starts exactly with the given value and slope. -/
theorem C99_start (h : Nearest f32 rnd) (hi : Floats i) (hw : 0 < i.widthX) :
    eval rnd fused (init rnd i) 0 = i.startY ∧ deriv rnd fused (init rnd i) 0 = i.startDerivative := by
  obtain ⟨m3, m2, m1, m0⟩ := init_mem h hi
  refine ⟨mulAdd_zero h m0 _, ?_⟩
  have := mulAdd_zero (fused := fused) h m1 (mulAdd rnd fused (rnd (3 * (init rnd i).c3)) 0 (rnd (2 * (init rnd i).c2)))
  unfold deriv
  rw [this]
  simp only [init, if_pos hw]

/-- **C99**: a curve that is to stay where it is does so exactly, whatever its width. -/
theorem C99_flat (h : Nearest f32 rnd) {y w x : ℚ} (hy : f32.Mem y) :
    eval rnd fused (init rnd ⟨y, 0, y, 0, w⟩) x = y ∧ deriv rnd fused (init rnd ⟨y, 0, y, 0, w⟩) x = 0 := by
  have e : init rnd ⟨y, 0, y, 0, w⟩ = ⟨0, 0, 0, y⟩ := by
    simp [init, h.zero]
  rw [e]
  constructor
  · simp [eval, mulAdd, h.zero, h.exact hy]
  · simp [deriv, mulAdd, h.zero]

/-- **C99**: moving the origin of a curve keeps the value, the slope and the third derivative there exactly, and the second derivative too,
up to the least positive float. -/
theorem C99_shift (h : Nearest f32 rnd) (c : Cubic ℚ) (s : ℚ) :
    eval rnd fused (shiftLeft rnd fused c s) 0 = eval rnd fused c s ∧
    deriv rnd fused (shiftLeft rnd fused c s) 0 = deriv rnd fused c s ∧
    |second rnd fused (shiftLeft rnd fused c s) 0 - second rnd fused c s| ≤ 2 ^ (-149 : ℤ) ∧
    third rnd (shiftLeft rnd fused c s) = third rnd c := by
  unfold shiftLeft
  split
  · rename_i hs; rw [hs]; exact ⟨rfl, rfl, by rw [sub_self, abs_zero]; positivity, rfl⟩
  · refine ⟨mulAdd_zero h (mulAdd_mem h _ _ _) _, mulAdd_zero h (mulAdd_mem h _ _ _) _, ?_, rfl⟩
    have e : second rnd fused ⟨c.c3, rnd (second rnd fused c s * (1 / 2)), deriv rnd fused c s, eval rnd fused c s⟩ 0 =
        2 * rnd (second rnd fused c s * (1 / 2)) := by
      have := mulAdd_zero (fused := fused) h (h.mem (2 * rnd (second rnd fused c s * (1 / 2)))) (rnd (6 * c.c3))
      unfold second
      refine this.trans (h.exact (double_mem (h.mem _)))
    rw [e]
    have hm : f32.Mem (second rnd fused c s) := mulAdd_mem h _ _ _
    have := half_near h hm
    have e2 : 2 * rnd (second rnd fused c s * (1 / 2)) - second rnd fused c s =
        2 * (rnd (second rnd fused c s * (1 / 2)) - second rnd fused c s * (1 / 2)) := by ring
    rw [e2, abs_mul, abs_two]
    have e3 : (2 : ℚ) ^ (-149 : ℤ) = 2 * eta := by norm_num [eta]
    rw [e3]
    exact mul_le_mul_of_nonneg_left this (by norm_num)

end Bounds

/-- **C99** fails for the end of the curve: it need not be met exactly.  From 0 to 1 over a width of 3, with slope zero at
both ends, the computed value at the end is beyond 1; over a width of 5 it is short of 1. -/
theorem C99_end_inexact :
    eval (rne f32) false (init (rne f32) ⟨0, 0, 1, 0, 3⟩) 3 = 1 + 1 / 2 ^ 22 ∧
    eval (rne f32) false (init (rne f32) ⟨0, 0, 1, 0, 5⟩) 5 = 1 - 1 / 2 ^ 24 := by
  decide +kernel

/-- The theorems apply to the rounding of IEEE 754 and a curve with slopes. -/
example : ∃ p : Cubic ℚ, Floats ⟨1, -2, 5, 1 / 2, 3⟩ ∧ Through ⟨1, -2, 5, 1 / 2, 3⟩ 3 p ∧
    |eval (rne f32) true (init (rne f32) ⟨1, -2, 5, 1 / 2, 3⟩) 2 - p.eval 2| ≤
      |p.eval 2| / 2 ^ 24 + change ⟨1, -2, 5, 1 / 2, 3⟩ 3 / 2 ^ 17 + 1 / 2 ^ 50 := by
  have hi : Floats ⟨1, -2, 5, 1 / 2, 3⟩ := by
    refine ⟨?_, ?_, ?_, ?_, ?_⟩
    · exact Motive.Float.Range.mem32 1 0 _ (by norm_num) (by norm_num) (by norm_num)
    · exact Motive.Float.Range.mem32 (-2) 0 _ (by norm_num) (by norm_num) (by norm_num)
    · exact Motive.Float.Range.mem32 5 0 _ (by norm_num) (by norm_num) (by norm_num)
    · exact Motive.Float.Range.mem32 1 (-1) _ (by norm_num) (by norm_num) (by norm_num)
    · exact Motive.Float.Range.mem32 3 0 _ (by norm_num) (by norm_num) (by norm_num)
  have hp : Through ⟨1, -2, 5, 1 / 2, 3⟩ 3 (Cubic.init ⟨1, -2, 5, 1 / 2, 3⟩) :=
    (Motive.Curve.C29_hermite _ (by norm_num) _).mp rfl
  exact ⟨_, hi, hp, C99_value (rne_nearest f32) hi (by norm_num) (by norm_num) (by norm_num) hp (by norm_num)⟩

end Motive.Float.Hermite
