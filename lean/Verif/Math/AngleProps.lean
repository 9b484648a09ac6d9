import Verif.Math.Angle
import Verif.Math.RangeProps
import Mathlib.Tactic.LinearCombination

/-!
# Properties C19, C20 and C56: angles
-/

set_option linter.unusedSectionVars false

namespace Motive.Math.Angle

section Arithmetic
variable {K : Type} [Field K] [LinearOrder K] [IsStrictOrderedRing K]

theorem mk_valid {pi a : K} (h : Valid pi a) : mk pi a = some a := by unfold mk; rw [if_pos h]

/-- `y` is the representative of `x` modulo a full turn in `(-pi, pi]`. -/
def IsRep (pi x y : K) : Prop := (-pi < y ∧ y ≤ pi) ∧ ∃ k : ℤ, y = x + k * (2 * pi)

theorem IsRep.unique {pi x y z : K} (hpi : 0 < pi) (hy : IsRep pi x y) (hz : IsRep pi x z) : y = z := by
  obtain ⟨⟨a, b⟩, c⟩ := hy; obtain ⟨⟨d, e⟩, f⟩ := hz
  have c' : Cong (2 * pi) x y := c
  have f' : Cong (2 * pi) x z := f
  exact (c'.symm.trans f').eq_of_close (by linarith) (by linarith) (by linarith)

theorem IsRep.self {pi x : K} (h : Valid pi x) : IsRep pi x x := ⟨h, 0, by simp⟩

theorem modWithinThreePi_rep {pi : K} (hpi : 0 < pi) {x : K} (h1 : -(3 * pi) < x) (h2 : x < 3 * pi) :
    ∃ y, modWithinThreePi pi x = some y ∧ IsRep pi x y := by
  unfold modWithinThreePi
  rw [if_pos ⟨h1, h2⟩]
  by_cases c1 : x ≤ -pi
  · have c2 : ¬ pi < x + 2 * pi := by intro c; linarith
    have v : Valid pi (x + 2 * pi) := ⟨by linarith, by linarith⟩
    exact ⟨x + 2 * pi, by simp [c1, c2, v], v, 1, by simp⟩
  · by_cases c2 : pi < x
    · have v : Valid pi (x - 2 * pi) := ⟨by linarith, by linarith⟩
      exact ⟨x - 2 * pi, by simp [c1, c2, v], v, -1, by simp; ring⟩
    · have v : Valid pi x := ⟨by linarith, by linarith⟩
      exact ⟨x, by simp [c1, c2, v], v, 0, by simp⟩

theorem wrapAngle_rep [FloorRing K] {pi : K} (hpi : 0 < pi) (x : K) : IsRep pi x (wrapAngle pi x) := by
  have h2 : (0 : K) < 2 * pi := by linarith
  have f1 := Int.floor_le (x / (2 * pi))
  have f2 := Int.lt_floor_add_one (x / (2 * pi))
  rw [le_div_iff₀ h2] at f1
  rw [div_lt_iff₀ h2] at f2
  unfold wrapAngle
  set k := ⌊x / (2 * pi)⌋
  have e : ((k : K) + 1) * (2 * pi) = k * (2 * pi) + 2 * pi := by ring
  simp only [e] at f2 ⊢
  by_cases c : x - (k * (2 * pi) + 2 * pi) ≤ -pi
  · rw [if_pos c]
    exact ⟨⟨by linarith, by linarith⟩, -k, by push_cast; ring⟩
  · rw [if_neg c]
    exact ⟨⟨by linarith, by linarith⟩, -(k + 1), by push_cast; ring⟩

/-! ### C19 -/

/-- C19: each operation on valid angles yields (with no assertion failing) the unique number in `(-pi, pi]`
that differs from the mathematical result by a whole number of turns. -/
theorem C19_operations [FloorRing K] (pi : K) (hpi : 0 < pi) :
    (∀ a b, Valid pi a → Valid pi b → ∃ y, add pi a b = some y ∧ IsRep pi (a + b) y) ∧
    (∀ a b, Valid pi a → Valid pi b → ∃ y, sub pi a b = some y ∧ IsRep pi (a - b) y) ∧
    (∀ a, Valid pi a → ∃ y, neg pi a = some y ∧ IsRep pi (-a) y) ∧
    (∀ a r, IsRep pi (a * r) (mul pi a r)) ∧
    (∀ a r, r ≠ 0 → ∃ y, div pi a r = some y ∧ IsRep pi (a / r) y) ∧
    (∀ a, ∃ y, fromRadians pi a = some y ∧ IsRep pi a y) ∧
    (∀ d, ∃ y, fromDegrees pi d = some y ∧ IsRep pi (d * (pi / 180)) y) ∧
    (∀ a, -(3 * pi) < a → a < 3 * pi → ∃ y, fromWithinThreePi pi a = some y ∧ IsRep pi a y) ∧
    (∀ a, Valid pi a → abs pi a = some |a|) ∧
    (∀ x y z : K, IsRep pi x y → IsRep pi x z → y = z) := by
  have hrad : ∀ a, ∃ y, fromRadians pi a = some y ∧ IsRep pi a y := fun a =>
    ⟨_, mk_valid (wrapAngle_rep hpi a).1, wrapAngle_rep hpi a⟩
  refine ⟨?_, ?_, ?_, ?_, ?_, hrad, fun d => hrad _, ?_, ?_, fun x y z => IsRep.unique hpi⟩
  · rintro a b ⟨a1, a2⟩ ⟨b1, b2⟩
    exact modWithinThreePi_rep hpi (by linarith) (by linarith)
  · rintro a b ⟨a1, a2⟩ ⟨b1, b2⟩
    exact modWithinThreePi_rep hpi (by linarith) (by linarith)
  · rintro a ⟨a1, a2⟩
    by_cases h : -a ≤ -pi
    · have : IsRep pi (-a) pi := ⟨⟨by linarith, le_refl _⟩, 1, by push_cast; linarith⟩
      refine ⟨pi, ?_, this⟩
      unfold neg modIfNegativePi; rw [if_pos h, mk_valid this.1]
    · have : Valid pi (-a) := ⟨by linarith, by linarith⟩
      refine ⟨-a, ?_, IsRep.self this⟩
      unfold neg modIfNegativePi; rw [if_neg h, mk_valid this]
  · intro a r; exact wrapAngle_rep hpi _
  · intro a r hr; exact ⟨_, by unfold div; rw [if_neg hr], wrapAngle_rep hpi _⟩
  · intro a h1 h2
    obtain ⟨y, hy, hrep⟩ := modWithinThreePi_rep hpi h1 h2
    exact ⟨y, by simp [fromWithinThreePi, hy, mk_valid hrep.1], hrep⟩
  · rintro a ⟨a1, a2⟩
    exact mk_valid ⟨lt_of_lt_of_le (by linarith) (abs_nonneg a), abs_le.mpr ⟨by linarith, a2⟩⟩

/-- C19: addition, subtraction and negation make the valid angles a commutative group: commutativity,
associativity, zero, inverse, and `a - b = a + (-b)`. (`do` blocks: none of the operations fails.) -/
theorem C19_group (pi : K) (hpi : 0 < pi) (a b c : K) (ha : Valid pi a) (hb : Valid pi b) (hc : Valid pi c) :
    add pi a b = add pi b a ∧
    (∃ ab bc abc, add pi a b = some ab ∧ add pi b c = some bc ∧ add pi ab c = some abc ∧
      add pi a bc = some abc) ∧
    add pi a 0 = some a ∧
    (∃ na, neg pi a = some na ∧ add pi a na = some 0) ∧
    (∃ nb d, neg pi b = some nb ∧ sub pi a b = some d ∧ add pi a nb = some d) ∧
    (∃ d, sub pi a b = some d ∧ add pi d b = some a) := by
  have hadd : ∀ a b, Valid pi a → Valid pi b → ∃ y, add pi a b = some y ∧ IsRep pi (a + b) y := by
    rintro a b ⟨a1, a2⟩ ⟨b1, b2⟩
    exact modWithinThreePi_rep hpi (by linarith) (by linarith)
  have hsub : ∀ a b, Valid pi a → Valid pi b → ∃ y, sub pi a b = some y ∧ IsRep pi (a - b) y := by
    rintro a b ⟨a1, a2⟩ ⟨b1, b2⟩
    exact modWithinThreePi_rep hpi (by linarith) (by linarith)
  have hneg : ∀ a, Valid pi a → ∃ y, neg pi a = some y ∧ IsRep pi (-a) y := by
    rintro a ⟨a1, a2⟩
    by_cases h : -a ≤ -pi
    · have : IsRep pi (-a) pi := ⟨⟨by linarith, le_refl _⟩, 1, by push_cast; linarith⟩
      refine ⟨pi, ?_, this⟩
      unfold neg modIfNegativePi; rw [if_pos h, mk_valid this.1]
    · have : Valid pi (-a) := ⟨by linarith, by linarith⟩
      refine ⟨-a, ?_, IsRep.self this⟩
      unfold neg modIfNegativePi; rw [if_neg h, mk_valid this]
  have of : ∀ a b x z, Valid pi a → Valid pi b → IsRep pi x z → Cong (2 * pi) x (a + b) →
      add pi a b = some z := by
    intro a b x z ha hb hz hc
    obtain ⟨y, hy, hr⟩ := hadd a b ha hb
    rw [hy, IsRep.unique hpi ⟨hr.1, hc.trans hr.2⟩ hz]
  have v0 : Valid pi (0 : K) := ⟨by linarith, hpi.le⟩
  obtain ⟨ab, hab, rab⟩ := hadd a b ha hb
  obtain ⟨bc, hbc, rbc⟩ := hadd b c hb hc
  obtain ⟨abc, habc, rabc⟩ := hadd ab c rab.1 hc
  obtain ⟨na, hna, rna⟩ := hneg a ha
  obtain ⟨nb, hnb, rnb⟩ := hneg b hb
  obtain ⟨d, hd, rd⟩ := hsub a b ha hb
  have cab : Cong (2 * pi) (a + b) ab := rab.2
  have cbc : Cong (2 * pi) (b + c) bc := rbc.2
  have cna : Cong (2 * pi) (-a) na := rna.2
  have cnb : Cong (2 * pi) (-b) nb := rnb.2
  have cd : Cong (2 * pi) (a - b) d := rd.2
  refine ⟨by unfold add; rw [add_comm], ⟨ab, bc, abc, hab, hbc, habc, ?_⟩, ?_, ⟨na, hna, ?_⟩,
    ⟨nb, d, hnb, hd, ?_⟩, ⟨d, hd, ?_⟩⟩
  · refine of a bc (ab + c) abc ha rbc.1 rabc ?_
    have h1 : Cong (2 * pi) (ab + c) (a + b + c) := cab.symm.add (Cong.refl _ c)
    have h2 : Cong (2 * pi) (a + (b + c)) (a + bc) := (Cong.refl _ a).add cbc
    rw [← add_assoc] at h2
    exact h1.trans h2
  · refine of a 0 a a ha v0 (IsRep.self ha) ?_
    rw [add_zero]; exact Cong.refl _ _
  · refine of a na 0 0 ha rna.1 (IsRep.self v0) ?_
    have := (Cong.refl (2 * pi) a).add cna
    rwa [add_neg_cancel] at this
  · refine of a nb (a - b) d ha rnb.1 rd ?_
    rw [sub_eq_add_neg]; exact (Cong.refl _ a).add cnb
  · refine of d b a a rd.1 hb (IsRep.self ha) ?_
    have := cd.add (Cong.refl _ b)
    rwa [sub_add_cancel] at this

/-- C19: angles compare equal exactly when they are congruent modulo a full turn. -/
theorem C19_equal_iff_congruent [FloorRing K] (pi : K) (hpi : 0 < pi) (x y : K) :
    fromRadians pi x = fromRadians pi y ↔ ∃ k : ℤ, y = x + k * (2 * pi) := by
  have hx := wrapAngle_rep hpi x
  have hy := wrapAngle_rep hpi y
  have cx : Cong (2 * pi) x (wrapAngle pi x) := hx.2
  have cy : Cong (2 * pi) y (wrapAngle pi y) := hy.2
  unfold fromRadians
  rw [mk_valid hx.1, mk_valid hy.1]
  constructor
  · intro h
    rw [Option.some.injEq] at h
    rw [h] at cx
    exact cx.trans cy.symm
  · intro h
    have h' : Cong (2 * pi) x y := h
    rw [hx.unique hpi ⟨hy.1, h'.trans cy⟩]

example : add (22/7 : ℚ) 3 2 = some (-9/7) ∧ sub (22/7 : ℚ) (-3) 3 = some (2/7) ∧
    neg (22/7 : ℚ) (22/7) = some (22/7) ∧ mul (22/7 : ℚ) 3 (-5) = -17/7 ∧
    fromRadians (22/7 : ℚ) 100 = some (-4/7) ∧ Valid (22/7 : ℚ) 3 ∧ ¬ Valid (22/7 : ℚ) (-22/7) := by
  decide +kernel

/-! ### C20 -/

/-- C20: for `0 ≤ maxDiff ≤ pi`, `a.Clamp(center, maxDiff)` is a valid angle, its wrapped distance from
`center` is at most `maxDiff`, it is `a` itself when `a` was already that close to `center`, and otherwise
it is exactly `maxDiff` away on the same side. -/
theorem C20_clamp (pi : K) (hpi : 0 < pi) (a center maxDiff : K) (ha : Valid pi a)
    (hc : Valid pi center) (hm : 0 ≤ maxDiff) (hm' : maxDiff ≤ pi) :
    ∃ y d d', clamp pi a center maxDiff = some y ∧ Valid pi y ∧
      sub pi a center = some d ∧ sub pi y center = some d' ∧
      |d'| ≤ maxDiff ∧ (|d| ≤ maxDiff → y = a) ∧
      (maxDiff < |d| → |d'| = maxDiff ∧ 0 ≤ d * d') := by
  have hmod : ∀ x, -(3 * pi) < x → x < 3 * pi → ∃ y, modWithinThreePi pi x = some y ∧ IsRep pi x y :=
    fun x => modWithinThreePi_rep hpi
  obtain ⟨d, hd, rd⟩ := hmod (a - center) (by linarith [ha.1, hc.2]) (by linarith [ha.2, hc.1])
  have hcl : Valid pi (max (-maxDiff) (min d maxDiff)) := by
    refine ⟨?_, max_le (by linarith) (min_le_of_right_le hm')⟩
    rcases le_total d maxDiff with h | h
    · rw [min_eq_left h]; exact lt_of_lt_of_le rd.1.1 (le_max_right _ _)
    · rw [min_eq_right h]; exact lt_of_lt_of_le (by linarith) (le_max_right _ _)
  set e := max (-maxDiff) (min d maxDiff) with he
  obtain ⟨y, hy, ry⟩ := hmod (center + e) (by linarith [hc.1, hcl.1]) (by linarith [hc.2, hcl.2])
  obtain ⟨d', hd', rd'⟩ := hmod (y - center) (by linarith [ry.1.1, hc.2]) (by linarith [ry.1.2, hc.1])
  have cy : Cong (2 * pi) (center + e) y := ry.2
  have cd' : Cong (2 * pi) (y - center) d' := rd'.2
  have cd : Cong (2 * pi) (a - center) d := rd.2
  have hde : d' = e := by
    refine IsRep.unique hpi (x := e) ⟨rd'.1, ?_⟩ (IsRep.self hcl)
    have h1 : Cong (2 * pi) (center + e - center) (y - center) := cy.sub (Cong.refl _ center)
    rw [add_sub_cancel_left] at h1
    exact h1.trans cd'
  have hin : -maxDiff ≤ e ∧ e ≤ maxDiff := ⟨le_max_left _ _, max_le (by linarith) (min_le_right _ _)⟩
  refine ⟨y, d, d', ?_, ry.1, hd, hd', ?_, ?_, ?_⟩
  · unfold clamp; rw [if_pos ⟨hm, hm'⟩]
    simp only [sub, hd, Option.bind_eq_bind, Option.bind_some]
    rw [← he, mk_valid hcl]
    exact hy
  · rw [hde]; exact abs_le.mpr hin
  · intro h
    have h' := abs_le.mp h
    have hed : e = d := by rw [he, min_eq_left h'.2, max_eq_right h'.1]
    refine IsRep.unique hpi (x := center + e) ry ⟨ha, ?_⟩
    have h1 : Cong (2 * pi) (center + d) (center + (a - center)) := (Cong.refl _ center).add cd.symm
    rw [add_sub_cancel] at h1
    rw [hed]; exact h1
  · intro h
    rw [hde]
    rcases lt_abs.mp h with h | h
    · have : e = maxDiff := by rw [he, min_eq_right h.le, max_eq_right (by linarith)]
      rw [this]; exact ⟨abs_of_nonneg hm, mul_nonneg (by linarith) hm⟩
    · have : e = -maxDiff := by
        rw [he, min_eq_left (by linarith), max_eq_left (by linarith)]
      rw [this]
      exact ⟨by rw [abs_neg]; exact abs_of_nonneg hm, mul_nonneg_of_nonpos_of_nonpos (by linarith) (by linarith)⟩

example : clamp (22/7 : ℚ) (-3) 3 (1/7) = some (22/7) ∧
    clamp (22/7 : ℚ) (-3) 3 (2/7) = some (-3) ∧ clamp (22/7 : ℚ) 1 (-1) 1 = some 0 := by decide +kernel

/-- C19, degrees: the angle of `d` degrees, for any real `d`, reads back in degrees as a number in `(-180, 180]` that differs
from `d` by a whole number of full circles; so numbers in `(-180, 180]` survive the round trip. -/
theorem C19_degrees_round_trip [FloorRing K] {pi : K} (hpi : 0 < pi) (d : K) :
    ∃ a, fromDegrees pi d = some a ∧ (∃ k : ℤ, toDegrees pi a = d + k * 360) ∧ -180 < toDegrees pi a ∧
      toDegrees pi a ≤ 180 ∧ (-180 < d → d ≤ 180 → toDegrees pi a = d) := by
  obtain ⟨⟨v1, v2⟩, k, hk⟩ := wrapAngle_rep hpi (d * (pi / 180))
  refine ⟨_, mk_valid (wrapAngle_rep hpi _).1, ?_⟩
  have hne := hpi.ne'
  have hp : 0 < 180 / pi := by positivity
  have e : toDegrees pi (wrapAngle pi (d * (pi / 180))) = d + k * 360 := by
    rw [hk]; unfold toDegrees; field_simp; ring
  have b1 : -180 < toDegrees pi (wrapAngle pi (d * (pi / 180))) := by
    have := mul_lt_mul_of_pos_left v1 hp
    have e2 : 180 / pi * -pi = -180 := by field_simp
    unfold toDegrees; linarith
  have b2 : toDegrees pi (wrapAngle pi (d * (pi / 180))) ≤ 180 := by
    have := mul_le_mul_of_nonneg_left v2 hp.le
    have e2 : 180 / pi * pi = 180 := by field_simp
    unfold toDegrees; linarith
  refine ⟨⟨k, e⟩, b1, b2, fun h1 h2 => ?_⟩
  rw [e] at b1 b2 ⊢
  have k1 : (k : K) < 1 := by linarith
  have k2 : (-1 : K) < k := by linarith
  have : k = 0 := by
    have a : k < 1 := by exact_mod_cast k1
    have b : -1 < k := by exact_mod_cast k2
    omega
  simp [this]

example : (fromDegrees (22/7 : ℚ) 270).map (toDegrees (22/7)) = some (-90) := by decide +kernel

end Arithmetic

/-! ### C56: vectors and rotations -/

section Vectors

open Real

theorem toVector_unit (s : System) (a : ℝ) : (toVector s a).dot (toVector s a) = 1 := by
  have h := Real.sin_sq_add_cos_sq a
  cases s <;> simp only [toVector, Vec3.dot] <;> linear_combination h

theorem atan2_polar (r a : ℝ) (hr : 0 < r) (ha : Valid π a) : atan2 (r * sin a) (r * cos a) = a := by
  unfold atan2
  have : (⟨r * cos a, r * sin a⟩ : ℂ) = r * (Complex.cos a + Complex.sin a * Complex.I) := by
    apply Complex.ext <;> simp [Complex.cos_ofReal_re, Complex.sin_ofReal_re]
  rw [this, Complex.arg_mul_cos_add_sin_mul_I hr ⟨ha.1, ha.2⟩]

/-- C56: converting an angle to a vector gives a unit vector, and converting any positive multiple of that
vector back gives the same angle, in each of the six vector systems. -/
theorem C56_vector_round_trip (s : System) (a r : ℝ) (ha : Valid π a) (hr : 0 < r) :
    (toVector s a).dot (toVector s a) = 1 ∧
    fromVector s ((toVector s a).smul r) = some a := by
  refine ⟨toVector_unit s a, ?_⟩
  have hm : modIfNegativePi π a = a := by unfold modIfNegativePi; rw [if_neg]; linarith [ha.1]
  cases s <;> simp only [fromVector, toVector, Vec3.smul, atan2_polar r a hr ha, hm, mk_valid ha]

theorem atan2_valid (y x : ℝ) : Valid π (atan2 y x) := ⟨Complex.neg_pi_lt_arg _, Complex.arg_le_pi _⟩

theorem atan2_norm (y x : ℝ) : ∃ r, 0 ≤ r ∧ r * cos (atan2 y x) = x ∧ r * sin (atan2 y x) = y :=
  ⟨‖(⟨x, y⟩ : ℂ)‖, norm_nonneg _, Complex.norm_mul_cos_arg (⟨x, y⟩ : ℂ),
    Complex.norm_mul_sin_arg (⟨x, y⟩ : ℂ)⟩

/-- C56: `FromVectorSystem` of any vector, in each of the six systems, is a valid angle pointing along the
vector's projection on the plane of the system: the vector is a non-negative multiple of the angle's unit
vector plus a multiple of the up axis. -/
theorem C56_from_vector (s : System) (v : Vec3) :
    ∃ a, fromVector s v = some a ∧ Valid π a ∧
      ∃ r u, 0 ≤ r ∧ v = ((toVector s a).smul r).add ((up s).smul u) := by
  have hm : ∀ y x, modIfNegativePi π (atan2 y x) = atan2 y x := by
    intro y x; unfold modIfNegativePi; rw [if_neg]; linarith [(atan2_valid y x).1]
  have fin : ∀ y x, mk π (modIfNegativePi π (atan2 y x)) = some (atan2 y x) := by
    intro y x; rw [hm, mk_valid (atan2_valid y x)]
  obtain ⟨x, y, z⟩ := v
  cases s
  · obtain ⟨r, h0, h1, h2⟩ := atan2_norm y x
    exact ⟨_, fin y x, atan2_valid _ _, r, z, h0, by simp [toVector, Vec3.smul, Vec3.add, up, h1, h2]⟩
  · obtain ⟨r, h0, h1, h2⟩ := atan2_norm z x
    exact ⟨_, fin z x, atan2_valid _ _, r, y, h0, by simp [toVector, Vec3.smul, Vec3.add, up, h1, h2]⟩
  · obtain ⟨r, h0, h1, h2⟩ := atan2_norm z y
    exact ⟨_, fin z y, atan2_valid _ _, r, x, h0, by simp [toVector, Vec3.smul, Vec3.add, up, h1, h2]⟩
  · obtain ⟨r, h0, h1, h2⟩ := atan2_norm x y
    exact ⟨_, fin x y, atan2_valid _ _, r, -z, h0, by simp [toVector, Vec3.smul, Vec3.add, up, h1, h2]⟩
  · obtain ⟨r, h0, h1, h2⟩ := atan2_norm x z
    exact ⟨_, fin x z, atan2_valid _ _, r, -y, h0, by simp [toVector, Vec3.smul, Vec3.add, up, h1, h2]⟩
  · obtain ⟨r, h0, h1, h2⟩ := atan2_norm y z
    exact ⟨_, fin y z, atan2_valid _ _, r, -x, h0, by simp [toVector, Vec3.smul, Vec3.add, up, h1, h2]⟩

theorem neg_real {a : ℝ} (ha : Valid π a) : ∃ n, neg π a = some n ∧ cos n = cos a ∧ sin n = -sin a := by
  by_cases h : -a ≤ -π
  · have e : a = π := le_antisymm ha.2 (by linarith)
    refine ⟨π, ?_, ?_, ?_⟩
    · unfold neg modIfNegativePi
      rw [if_pos h]; exact mk_valid ⟨by linarith [pi_pos], le_refl _⟩
    · rw [e]
    · rw [e]; simp
  · refine ⟨-a, ?_, cos_neg a, sin_neg a⟩
    unfold neg modIfNegativePi
    rw [if_neg h]; exact mk_valid ⟨by linarith, by linarith [ha.1]⟩

/-- C56: the rotation matrix of an angle `a` turns the vector of any angle `b` into the vector of `a + b`,
in each of the six vector systems, and it fixes the system's up axis. -/
theorem C56_rotation (s : System) (a : ℝ) (ha : Valid π a) :
    ∃ m, rotation s a = some m ∧ (∀ b, m.apply (toVector s b) = toVector s (a + b)) ∧
      m.apply (up s) = up s := by
  obtain ⟨n, hn, cn, sn⟩ := neg_real ha
  cases s <;> simp only [rotation, hn, Option.map_some]
  all_goals
    refine ⟨_, rfl, fun b => ?_, ?_⟩
    · simp only [Mat3.apply, toVector, Vec3.smul, Vec3.add, rotXY, rotXZ, rotYZ, cos_add, sin_add,
        Vec3.mk.injEq, cn, sn]
      refine ⟨?_, ?_, ?_⟩ <;> ring
    · simp only [Mat3.apply, up, Vec3.smul, Vec3.add, rotXY, rotXZ, rotYZ, Vec3.mk.injEq]
      refine ⟨?_, ?_, ?_⟩ <;> ring

/-- C56: `LatitudeAndLongitudeToUnitSphere` returns a point on the unit sphere whose height along the up axis
is the sine of the latitude, and which for latitudes in `[-pi/2, pi/2]` is the rotation of the meridian by
the longitude: its horizontal part is `cos latitude` times the longitude's unit vector. -/
theorem C56_lat_long (s : System) (lat long : ℝ) :
    (latLong s lat long).dot (latLong s lat long) = 1 ∧
    (latLong s lat long).dot (up s) = sin lat ∧
    (-(π / 2) ≤ lat → lat ≤ π / 2 →
      (latLong s lat long).dot (toVector s long) = cos lat) := by
  have h1 := sin_sq_add_cos_sq lat
  have h2 := sin_sq_add_cos_sq long
  have h3 := sq_abs (cos lat)
  refine ⟨?_, ?_, ?_⟩
  · cases s <;> simp only [latLong, toVector, up, Vec3.dot, Vec3.smul, Vec3.add] <;>
      linear_combination h1 + |cos lat| ^ 2 * h2 + h3
  · cases s <;> simp only [latLong, toVector, up, Vec3.dot, Vec3.smul, Vec3.add] <;> ring
  · intro l1 l2
    have hc : |cos lat| = cos lat := abs_of_nonneg (cos_nonneg_of_neg_pi_div_two_le_of_le l1 l2)
    cases s <;> simp only [latLong, toVector, up, Vec3.dot, Vec3.smul, Vec3.add, hc] <;>
      linear_combination cos lat * h2

example : Valid π (π / 3) ∧ Valid π π ∧ ¬ Valid π (-π) := by
  refine ⟨⟨?_, ?_⟩, ⟨?_, ?_⟩, ?_⟩ <;> (try unfold Valid) <;> (try simp) <;> linarith [pi_pos]

end Vectors
end Motive.Math.Angle
