import Verif.Curve.Roots
import Verif.Math.RangeSets
import Mathlib.Tactic.Linarith
import Mathlib.Tactic.Ring
import Mathlib.Tactic.FieldSimp
import Mathlib.Tactic.NormNum
import Mathlib.Tactic.Positivity
import Mathlib.Tactic.LinearCombination
import Mathlib.Topology.Order.IntermediateValue
import Mathlib.Topology.Instances.Real.Lemmas
import Mathlib.Topology.Algebra.Ring.Basic

/-!
# Property C30: roots of quadratics
-/

namespace Motive.Curve

/-! ### Exponent helpers -/

theorem two_zpow_pos (i : Int) : (0 : ℝ) < 2 ^ i := zpow_pos (by norm_num) i

theorem exponentFromInt_mid {i : Int} (h1 : -126 ≤ i) (h2 : i ≤ 127) : exponentFromInt i = some (2 ^ i) := by
  unfold exponentFromInt
  have e : (i + 127) % 256 = i + 127 := by omega
  simp only [e]
  rw [if_neg (by omega), if_neg (by omega)]
  congr 2; omega

theorem exponentAsInt_bounds (f : ℝ) : -127 ≤ exponentAsInt f ∧ exponentAsInt f ≤ 128 := by
  unfold exponentAsInt
  split_ifs with h1 h2
  · omega
  · have hp : 0 < |f| := lt_of_lt_of_le (by positivity) (not_lt.mp h1)
    have a : (-126 : Int) ≤ Int.log 2 |f| :=
      (Int.zpow_le_iff_le_log (b := 2) (by norm_num) hp).mp (by exact_mod_cast not_lt.mp h1)
    have b : Int.log 2 |f| < 128 :=
      (Int.lt_zpow_iff_log_lt (b := 2) (by norm_num) hp).mp (by exact_mod_cast h2)
    omega
  · omega

theorem exponentAsInt_eq {f : ℝ} {k : Int} (h1 : (2 : ℝ) ^ k ≤ |f|) (h2 : |f| < 2 ^ (k + 1))
    (hk : -126 ≤ k) (hk2 : k ≤ 127) : exponentAsInt f = k := by
  have hp : 0 < |f| := lt_of_lt_of_le (two_zpow_pos k) h1
  unfold exponentAsInt
  have n1 : ¬ |f| < 2 ^ (-126 : Int) :=
    not_lt.mpr (le_trans (zpow_le_zpow_right₀ (by norm_num) hk) h1)
  have n2 : |f| < 2 ^ (128 : Int) := lt_of_lt_of_le h2 (zpow_le_zpow_right₀ (by norm_num) (by omega))
  rw [if_neg n1, if_pos n2]
  have a : k ≤ Int.log 2 |f| := (Int.zpow_le_iff_le_log (b := 2) (by norm_num) hp).mp (by exact_mod_cast h1)
  have b : Int.log 2 |f| < k + 1 := (Int.lt_zpow_iff_log_lt (b := 2) (by norm_num) hp).mp (by exact_mod_cast h2)
  omega

theorem exponentAsInt_inv {f : ℝ} (h : invertableRange.contains f) :
    -126 ≤ exponentAsInt f ∧ exponentAsInt f ≤ 126 := by
  obtain ⟨h1, h2⟩ := h
  simp only [invertableRange] at h1 h2
  have hp : 0 < f := lt_of_lt_of_le (by positivity) h1
  unfold exponentAsInt
  rw [abs_of_pos hp]
  have n2 : f < 2 ^ (127 : Int) := lt_of_le_of_lt h2 (zpow_lt_zpow_right₀ (by norm_num) (by norm_num))
  have n3 : f < 2 ^ (128 : Int) := n2.trans (zpow_lt_zpow_right₀ (by norm_num) (by norm_num))
  rw [if_neg (not_lt.mpr h1), if_pos n3]
  have a : (-126 : Int) ≤ Int.log 2 f :=
    (Int.zpow_le_iff_le_log (b := 2) (by norm_num) hp).mp (by exact_mod_cast h1)
  have b : Int.log 2 f < 127 := (Int.lt_zpow_iff_log_lt (b := 2) (by norm_num) hp).mp (by exact_mod_cast n2)
  omega

theorem reciprocalExponent_pos {f : ℝ} (h : invertableRange.contains f) :
    ∃ s, reciprocalExponent f = some s ∧ 0 < s := by
  have := exponentAsInt_inv h
  exact ⟨_, exponentFromInt_mid (by omega) (by omega), two_zpow_pos _⟩

theorem sqrtReciprocalExponent_pos {f : ℝ} (h : invertableRange.contains f) :
    ∃ s, sqrtReciprocalExponent f = some s ∧ 0 < s := by
  have := exponentAsInt_inv h
  refine ⟨_, exponentFromInt_mid (i := (-exponentAsInt f).tdiv 2) ?_ ?_, two_zpow_pos _⟩ <;>
  · rcases Int.le_total 0 (-exponentAsInt f) with h | h
    · rw [Int.tdiv_eq_ediv_of_nonneg h]; omega
    · rw [← neg_neg (-exponentAsInt f), Int.neg_tdiv, Int.tdiv_eq_ediv_of_nonneg (by omega)]; omega

theorem maxPowerOf2Scale_pos (f : ℝ) {m : Int} (h1 : 125 ≤ m) :
    ∃ s, maxPowerOf2Scale f m = some s ∧ 0 < s := by
  have := exponentAsInt_bounds f
  refine ⟨_, exponentFromInt_mid (i := min 127 (m - exponentAsInt f)) ?_ ?_, two_zpow_pos _⟩ <;> omega

namespace Quad

theorem xScaleReciprocal_pos (q : Quad ℝ) : ∃ s, q.xScaleReciprocal = some s ∧ 0 < s := by
  obtain ⟨m, hm, hm0⟩ := maxPowerOf2Scale_pos |q.c1| (m := 126) (by norm_num)
  have key : ∃ s, q.xScaleUnclamped = some s ∧ 0 < s := by
    unfold xScaleUnclamped
    simp only
    split_ifs with h1 h2 h3
    · exact ⟨1, rfl, one_pos⟩
    · exact reciprocalExponent_pos h2
    · exact sqrtReciprocalExponent_pos h2
    · exact ⟨1, rfl, one_pos⟩
  obtain ⟨s, hs, hs0⟩ := key
  exact ⟨min s m, by simp [xScaleReciprocal, hs, hm], lt_min hs0 hm0⟩

theorem yScale_pos (q : Quad ℝ) : ∃ s, q.yScale = some s ∧ 0 < s := by
  obtain ⟨m0, hm, hm0⟩ := maxPowerOf2Scale_pos |q.c0| (m := 125) (by norm_num)
  obtain ⟨m1, hm', hm1⟩ := maxPowerOf2Scale_pos |q.c1| (m := 125) (by norm_num)
  have hv : invertableRange.valid := by
    unfold Math.Range.valid invertableRange
    exact zpow_le_zpow_right₀ (by norm_num) (by norm_num)
  obtain ⟨u, hu, hu0⟩ := reciprocalExponent_pos (Math.Range.clamp_mem invertableRange hv |q.c2|)
  exact ⟨min (min m0 m1) u, by simp [yScale, hm, hm', hu], lt_min (lt_min hm0 hm1) hu0⟩

/-- The normalisation always succeeds, and describes the same curve with both axes scaled by positive factors. -/
theorem normalized_spec (q : Quad ℝ) : ∃ n xr ys, q.normalized = some (n, xr) ∧ 0 < xr ∧ 0 < ys ∧
    ∀ x, n.eval x = ys * q.eval (x * xr) := by
  obtain ⟨xr, hx, hx0⟩ := xScaleReciprocal_pos q
  obtain ⟨ys, hy, hy0⟩ := yScale_pos (q.scaleInXByReciprocal xr)
  refine ⟨(q.scaleInXByReciprocal xr).scaleUp ys, xr, ys, ?_, hx0, hy0, ?_⟩
  · simp [normalized, hx, hy]
  · intro x
    simp only [scaleUp, scaleInXByReciprocal, eval]; ring

/-- The quadratic is not zero and is clear of the tolerance bands of the root finder: each quantity it
compares with zero (`c2`, then `c1` or the discriminant) is exactly zero or not below the rounding tolerance. -/
def Separated (q : Quad ℝ) : Prop :=
  (q.c2 = 0 ∧ (q.c1 = 0 ∧ q.c0 ≠ 0 ∨ q.c1 ≠ 0 ∧ q.epsilon ≤ |q.c1|)) ∨
  (q.c2 ≠ 0 ∧ q.epsilon ≤ |q.c2| ∧ (q.discriminant = 0 ∨ q.epsilon < |q.discriminant|))

theorem epsilon_nonneg (q : Quad ℝ) : 0 ≤ q.epsilon := by
  unfold epsilon maxCoeff epsScale
  exact mul_nonneg (le_trans (abs_nonneg q.c0) (le_max_right _ _)) (by norm_num)

theorem epsilon_pos {q : Quad ℝ} (h : q.c2 ≠ 0 ∨ q.c1 ≠ 0 ∨ q.c0 ≠ 0) : 0 < q.epsilon := by
  unfold epsilon maxCoeff epsScale
  refine mul_pos ?_ (by norm_num)
  rcases h with h | h | h
  · exact lt_of_lt_of_le (abs_pos.mpr h) ((le_max_left _ _).trans (le_max_left _ _))
  · exact lt_of_lt_of_le (abs_pos.mpr h) ((le_max_right _ _).trans (le_max_left _ _))
  · exact lt_of_lt_of_le (abs_pos.mpr h) (le_max_right _ _)

theorem four_c2_eval (q : Quad ℝ) (x : ℝ) :
    4 * q.c2 * q.eval x = (2 * q.c2 * x + q.c1) ^ 2 - q.discriminant := by
  simp only [eval, discriminant]; ring

theorem rootsWithoutNormalizing_exact {q : Quad ℝ} (h : q.Separated) :
    ∃ rs, q.rootsWithoutNormalizing = some rs ∧ rs.Pairwise (· < ·) ∧ ∀ x, x ∈ rs ↔ q.eval x = 0 := by
  have he := q.epsilon_nonneg
  unfold rootsWithoutNormalizing
  rcases h with ⟨h2, h1⟩ | ⟨hc, h2, hd⟩
  · have hne : q.c2 ≠ 0 ∨ q.c1 ≠ 0 ∨ q.c0 ≠ 0 := by
      rcases h1 with h | h
      · exact Or.inr (Or.inr h.2)
      · exact Or.inr (Or.inl h.1)
    have hep := epsilon_pos hne
    have a : |q.c2| < q.epsilon := by rw [h2, abs_zero]; exact hep
    rcases h1 with ⟨h1, h0⟩ | ⟨hc, h1⟩
    · have b : |q.c1| < q.epsilon := by rw [h1, abs_zero]; exact hep
      refine ⟨[], by simp only [if_pos a, if_pos b], List.Pairwise.nil, fun x => ?_⟩
      simp [eval, h2, h1, h0]
    · have b : ¬ |q.c1| < q.epsilon := not_lt.mpr h1
      refine ⟨[-q.c0 / q.c1], by simp only [if_pos a, if_neg b, if_neg hc], List.pairwise_singleton _ _,
        fun x => ?_⟩
      simp only [List.mem_singleton, eval, h2]
      constructor
      · rintro rfl; field_simp; ring
      · intro h; field_simp; linear_combination h
  · have a : ¬ |q.c2| < q.epsilon := not_lt.mpr h2
    have hdisc : q.reliableDiscriminant q.epsilon = q.discriminant := by
      unfold reliableDiscriminant clampNearZero
      rcases hd with h | h
      · rw [h]; simp
      · rw [if_neg (not_le.mpr h)]
    have hroot : ∀ x, q.eval x = 0 ↔ (2 * q.c2 * x + q.c1) ^ 2 = q.discriminant := by
      intro x
      have := four_c2_eval q x
      constructor
      · intro h; rw [h, mul_zero] at this; linarith
      · intro h
        have : 4 * q.c2 * q.eval x = 0 := by rw [this, h]; ring
        rcases mul_eq_zero.mp this with h | h
        · exact absurd h (mul_ne_zero (by norm_num) hc)
        · exact h
    simp only [if_neg a, hdisc, if_neg hc]
    rcases lt_trichotomy q.discriminant 0 with hlt | heq | hgt
    · refine ⟨[], by rw [if_pos hlt], List.Pairwise.nil, fun x => ?_⟩
      rw [hroot]
      simp only [List.not_mem_nil, false_iff]
      intro h; nlinarith [sq_nonneg (2 * q.c2 * x + q.c1)]
    · refine ⟨[-q.c1 * (1 / q.c2 * (1 / 2))], by rw [if_neg (by linarith), if_pos heq],
        List.pairwise_singleton _ _, fun x => ?_⟩
      rw [hroot, heq]
      simp only [List.mem_singleton, ne_eq, OfNat.ofNat_ne_zero, not_false_eq_true, pow_eq_zero_iff]
      constructor
      · rintro rfl; field_simp; ring
      · intro h; field_simp; linear_combination h
    · have hs : 0 < Real.sqrt q.discriminant := Real.sqrt_pos.mpr hgt
      have hss : Real.sqrt q.discriminant ^ 2 = q.discriminant := Real.sq_sqrt hgt.le
      set s := Real.sqrt q.discriminant with hsdef
      have hne : (-q.c1 - s) * (1 / q.c2 * (1 / 2)) ≠ (-q.c1 + s) * (1 / q.c2 * (1 / 2)) := by
        intro h
        have h' := mul_right_cancel₀ (mul_ne_zero (one_div_ne_zero hc) (by norm_num)) h
        linarith
      refine ⟨_, by rw [if_neg (by linarith), if_neg hgt.ne', if_neg hne], ?_, fun x => ?_⟩
      · refine List.pairwise_pair.mpr ?_
        rcases lt_or_gt_of_ne hne with h | h
        · rw [min_eq_left h.le, max_eq_right h.le]; exact h
        · rw [min_eq_right h.le, max_eq_left h.le]; exact h
      · have hmem : x ∈ [min ((-q.c1 - s) * (1 / q.c2 * (1 / 2))) ((-q.c1 + s) * (1 / q.c2 * (1 / 2))),
            max ((-q.c1 - s) * (1 / q.c2 * (1 / 2))) ((-q.c1 + s) * (1 / q.c2 * (1 / 2)))] ↔
            x = (-q.c1 - s) * (1 / q.c2 * (1 / 2)) ∨ x = (-q.c1 + s) * (1 / q.c2 * (1 / 2)) := by
          simp only [List.mem_cons, List.not_mem_nil, or_false]
          rcases lt_or_gt_of_ne hne with h | h
          · rw [min_eq_left h.le, max_eq_right h.le]
          · rw [min_eq_right h.le, max_eq_left h.le]; tauto
        rw [hmem, hroot, ← hss, sq_eq_sq_iff_eq_or_eq_neg]
        constructor
        · rintro (rfl | rfl)
          · right; field_simp; ring
          · left; field_simp; ring
        · rintro (h | h)
          · right; field_simp; linear_combination h
          · left; field_simp; linear_combination h

/-- The quadratic that `Roots` actually solves, after scaling both axes by powers of two, is clear of the
tolerance bands. -/
def WellConditioned (q : Quad ℝ) : Prop := ∀ n xr, q.normalized = some (n, xr) → n.Separated

/-- C30, exact part: for every quadratic clear of the root finder's tolerance bands, `Roots` returns exactly the
real roots, in increasing order, each once.

Partial: inside the tolerance bands the claim is false, see `C30_roots_inexact`. -/
theorem C30_roots_partial {q : Quad ℝ} (h : q.WellConditioned) :
    ∃ rs, q.roots = some rs ∧ rs.Pairwise (· < ·) ∧ ∀ x, x ∈ rs ↔ q.eval x = 0 := by
  obtain ⟨n, xr, ys, hn, hx, hy, hev⟩ := normalized_spec q
  obtain ⟨rs, h1, h2, h3⟩ := rootsWithoutNormalizing_exact (h n xr hn)
  refine ⟨rs.map (· * xr), by simp [roots, hn, h1], ?_, fun x => ?_⟩
  · rw [List.pairwise_map]
    exact h2.imp fun h => mul_lt_mul_of_pos_right h hx
  · simp only [List.mem_map, h3]
    constructor
    · rintro ⟨a, ha, rfl⟩
      rw [hev] at ha
      exact (mul_eq_zero.mp ha).resolve_left hy.ne'
    · intro hx'
      refine ⟨x / xr, ?_, by field_simp⟩
      rw [hev, div_mul_cancel₀ _ hx.ne', hx', mul_zero]

/-- C30, unconditional part: whenever `Roots` reports two roots they are exactly the real roots of the
quadratic, in increasing order, whatever the coefficients. -/
theorem C30_two_roots {q : Quad ℝ} {a b : ℝ} (h : q.roots = some [a, b]) :
    a < b ∧ ∀ x, q.eval x = 0 ↔ x = a ∨ x = b := by
  obtain ⟨n, xr, ys, hn, hx, hy, hev⟩ := normalized_spec q
  have he := n.epsilon_nonneg
  have hsep : n.Separated := by
    have hr : ∃ l, n.rootsWithoutNormalizing = some l ∧ l.length = 2 := by
      unfold roots at h
      simp only [hn, Option.bind_eq_bind, Option.bind_some] at h
      cases hl : n.rootsWithoutNormalizing with
      | none => rw [hl] at h; simp at h
      | some l =>
        rw [hl] at h
        simp only [Option.bind_some, Option.some.injEq] at h
        exact ⟨l, rfl, by have := congrArg List.length h; simpa using this⟩
    obtain ⟨l, hl, hlen⟩ := hr
    unfold rootsWithoutNormalizing at hl
    simp only at hl
    right
    split_ifs at hl with h1 h2 h3 h4 h5 h6 h7 <;>
      (try (simp only [Option.some.injEq] at hl; subst hl; simp at hlen; done))
    have hdisc : n.epsilon < |n.discriminant| := by
      by_contra hc
      apply h6
      unfold reliableDiscriminant clampNearZero
      rw [if_pos (not_lt.mp hc)]
    exact ⟨h5, not_lt.mp h1, Or.inr hdisc⟩
  have hw : q.WellConditioned := by
    intro n' xr' h'
    rw [hn] at h'
    cases h'; exact hsep
  obtain ⟨rs, h1, h2, h3⟩ := C30_roots_partial hw
  rw [h] at h1
  cases h1
  refine ⟨List.pairwise_pair.mp h2, fun x => ?_⟩
  rw [← h3]; simp

/-! ### Ranges of a given sign -/

theorem eval_continuous (q : Quad ℝ) : Continuous q.eval := by
  unfold eval; fun_prop

/-- Between two points with no root between them the sign does not change. -/
theorem same_sign {q : Quad ℝ} {a b : ℝ} (hab : a ≤ b) (h : ∀ x, a ≤ x → x ≤ b → q.eval x ≠ 0) :
    (0 < q.eval a ∧ 0 < q.eval b) ∨ (q.eval a < 0 ∧ q.eval b < 0) := by
  have hc := q.eval_continuous.continuousOn (s := Set.Icc a b)
  rcases lt_or_gt_of_ne (h a le_rfl hab) with ha | ha <;>
  rcases lt_or_gt_of_ne (h b hab le_rfl) with hb | hb
  · exact Or.inr ⟨ha, hb⟩
  · obtain ⟨x, hx, hx0⟩ := intermediate_value_Icc hab hc ⟨ha.le, hb.le⟩
    exact absurd hx0 (h x hx.1 hx.2)
  · obtain ⟨x, hx, hx0⟩ := intermediate_value_Icc' hab hc ⟨hb.le, ha.le⟩
    exact absurd hx0 (h x hx.1 hx.2)
  · exact Or.inl ⟨ha, hb⟩

theorem sign_iff {q : Quad ℝ} {a b s : ℝ} (hab : a ≤ b) (h : ∀ x, a ≤ x → x ≤ b → q.eval x ≠ 0) :
    (0 ≤ s * q.eval a ↔ 0 ≤ s * q.eval b) := by
  rcases same_sign hab h with ⟨ha, hb⟩ | ⟨ha, hb⟩
  · rw [mul_nonneg_iff_of_pos_right ha, mul_nonneg_iff_of_pos_right hb]
  · constructor <;> intro h' <;> nlinarith [h', ha, hb, mul_pos_of_neg_of_neg ha hb]

/-- No root lies outside the limits by as little as the snapping tolerance, nor exactly on a limit. -/
def ClearOfLimits (q : Quad ℝ) (lim : Math.Range ℝ) : Prop :=
  ∀ x, q.eval x = 0 → (lim.start < x ∧ x < lim.stop) ∨ lim.length * epsScale < lim.distanceFrom x

theorem rootsInRange_exact {q : Quad ℝ} {lim : Math.Range ℝ} (h : q.WellConditioned) (hv : lim.valid)
    (hc : q.ClearOfLimits lim) :
    ∃ rs, q.rootsInRange lim = some rs ∧ rs.Pairwise (· < ·) ∧
      ∀ x, x ∈ rs ↔ q.eval x = 0 ∧ lim.contains x := by
  obtain ⟨rs, h1, h2, h3⟩ := C30_roots_partial h
  have hlen : 0 ≤ lim.length * epsScale := by
    unfold Math.Range.length epsScale
    exact mul_nonneg (sub_nonneg.mpr hv) (by norm_num)
  have hmem : ∀ x ∈ rs, (lim.distanceFrom x ≤ lim.length * epsScale ↔ lim.contains x) := by
    intro x hx
    rcases hc x ((h3 x).mp hx) with h | h
    · have : lim.contains x := ⟨h.1.le, h.2.le⟩
      refine iff_of_true ?_ this
      unfold Math.Range.distanceFrom
      rw [Math.Range.clamp_of_mem this]; simpa using hlen
    · refine iff_of_false (not_le.mpr h) fun hcon => ?_
      unfold Math.Range.distanceFrom at h
      rw [Math.Range.clamp_of_mem hcon] at h
      simp only [sub_self, abs_zero] at h; linarith
  have hval : lim.valuesInRange (lim.length * epsScale) rs =
      rs.filter (fun v => lim.distanceFrom v ≤ lim.length * epsScale) := by
    rw [Math.Range.C18_values_in_range]
    conv_rhs => rw [← List.map_id (rs.filter _)]
    apply List.map_congr_left
    intro x hx
    rw [List.mem_filter, decide_eq_true_iff] at hx
    exact Math.Range.clamp_of_mem ((hmem x hx.1).mp hx.2)
  refine ⟨rs.filter (fun v => lim.distanceFrom v ≤ lim.length * epsScale),
    by simp only [rootsInRange, h1, Option.bind_eq_bind, Option.bind_some, hval], h2.filter _,
    fun x => ?_⟩
  · rw [List.mem_filter, decide_eq_true_iff]
    constructor
    · rintro ⟨a, b⟩; exact ⟨(h3 x).mp a, (hmem x a).mp b⟩
    · rintro ⟨a, b⟩; exact ⟨(h3 x).mpr a, (hmem x ((h3 x).mpr a)).mpr b⟩

/-- A quadratic with two different roots factors. -/
theorem factor {q : Quad ℝ} {a b : ℝ} (hab : a < b) (ha : q.eval a = 0) (hb : q.eval b = 0) (x : ℝ) :
    q.eval x = q.c2 * ((x - a) * (x - b)) := by
  have h1 : q.c1 = -q.c2 * (a + b) := by
    have : (b - a) * (q.c1 + q.c2 * (a + b)) = 0 := by
      simp only [eval] at ha hb; linear_combination hb - ha
    rcases mul_eq_zero.mp this with h | h
    · linarith
    · linear_combination h
  simp only [eval] at *
  linear_combination ha + (x - a) * h1

theorem rangesForRoots_spec {q : Quad ℝ} {lim : Math.Range ℝ} {s : ℝ} (hv : lim.valid)
    (hs : q.eval lim.start ≠ 0) (he : q.eval lim.stop ≠ 0) (hnz : ∃ x, q.eval x ≠ 0) (hs0 : s ≠ 0)
    {rs : List ℝ} (hp : rs.Pairwise (· < ·)) (hm : ∀ x, x ∈ rs ↔ q.eval x = 0 ∧ lim.contains x) :
    ∃ l, rangesForRoots rs (decide (0 ≤ s * q.eval lim.start)) (decide (0 ≤ s * q.eval lim.stop)) lim = some l ∧
      (∀ r ∈ l, r.valid ∧ lim.start ≤ r.start ∧ r.stop ≤ lim.stop) ∧
      l.Pairwise (fun a b => a.stop < b.start) ∧
      ∀ x, lim.contains x → ((∃ r ∈ l, r.contains x) ↔ 0 ≤ s * q.eval x) := by
  obtain ⟨x0, x1⟩ := lim
  simp only [Math.Range.valid, Math.Range.contains] at *
  match rs, hp, hm with
  | [], _, hm =>
    have hno : ∀ x, x0 ≤ x → x ≤ x1 → q.eval x ≠ 0 := by
      intro x h1 h2 h3; exact List.not_mem_nil ((hm x).mpr ⟨h3, h1, h2⟩)
    have hse := sign_iff (s := s) hv hno
    have hx : ∀ x, x0 ≤ x → x ≤ x1 → (0 ≤ s * q.eval x0 ↔ 0 ≤ s * q.eval x) := fun x h1 h2 =>
      sign_iff h1 fun y g1 g2 => hno y g1 (g2.trans h2)
    unfold rangesForRoots
    rw [if_neg (by simpa using hse)]
    by_cases h : 0 ≤ s * q.eval x0
    · refine ⟨[⟨x0, x1⟩], by simp [h], by simpa using hv, List.pairwise_singleton _ _, ?_⟩
      rintro x ⟨h1, h2⟩
      simp only [List.mem_singleton, exists_eq_left]
      exact iff_of_true ⟨h1, h2⟩ ((hx x h1 h2).mp h)
    · refine ⟨[], by simp [h], by simp, List.Pairwise.nil, ?_⟩
      rintro x ⟨h1, h2⟩
      refine iff_of_false (by simp) fun h' => h ((hx x h1 h2).mpr h')
  | [r], _, hm =>
    obtain ⟨hr0, hr1, hr2⟩ := (hm r).mp (by simp)
    have hno : ∀ x, x0 ≤ x → x ≤ x1 → x ≠ r → q.eval x ≠ 0 := by
      intro x h1 h2 h4 h3; exact h4 (by simpa using (hm x).mpr ⟨h3, h1, h2⟩)
    have hl : ∀ x, x0 ≤ x → x < r → (0 ≤ s * q.eval x0 ↔ 0 ≤ s * q.eval x) := fun x h1 h2 =>
      sign_iff h1 fun y g1 g2 => hno y g1 (by linarith) (by intro h; linarith)
    have hr : ∀ x, r < x → x ≤ x1 → (0 ≤ s * q.eval x1 ↔ 0 ≤ s * q.eval x) := fun x h1 h2 =>
      (sign_iff h2 fun y g1 g2 => hno y (by linarith) g2 (by intro h; linarith)).symm
    refine ⟨_, rfl, ?_, List.pairwise_singleton _ _, ?_⟩
    · simp only [List.mem_singleton, decide_eq_true_eq, forall_eq]
      split_ifs <;> refine ⟨?_, ?_, ?_⟩ <;> linarith
    · rintro x ⟨h1, h2⟩
      simp only [List.mem_singleton, exists_eq_left, decide_eq_true_eq]
      rcases lt_trichotomy x r with h | h | h
      · rw [← hl x h1 h]
        split_ifs with g1 g2 g2
        · exact iff_of_true ⟨h1, h2⟩ g1
        · exact iff_of_true ⟨h1, h.le⟩ g1
        · exact iff_of_false (fun h' => by linarith [h'.1]) g1
        · exact iff_of_false (fun h' => by linarith [h'.1]) g1
      · subst h
        rw [hr0, mul_zero]
        refine iff_of_true ⟨?_, ?_⟩ le_rfl
        · split_ifs <;> linarith
        · split_ifs <;> linarith
      · rw [← hr x h h2]
        split_ifs with g1 g2 g2
        · exact iff_of_true ⟨h1, h2⟩ g2
        · exact iff_of_false (fun h' => by linarith [h'.2]) g2
        · exact iff_of_true ⟨h.le, h2⟩ g2
        · exact iff_of_false (fun h' => by linarith [h'.2]) g2
  | [a, b], hp, hm =>
    have hab : a < b := List.pairwise_pair.mp hp
    obtain ⟨ha0, ha1, ha2⟩ := (hm a).mp (by simp)
    obtain ⟨hb0, hb1, hb2⟩ := (hm b).mp (by simp)
    have hf := factor hab ha0 hb0
    have hax : x0 < a := lt_of_le_of_ne ha1 fun h => hs (by rw [h]; exact ha0)
    have hbx : b < x1 := lt_of_le_of_ne hb2 fun h => he (by rw [← h]; exact hb0)
    have hc2 : q.c2 ≠ 0 := by
      obtain ⟨x, hx⟩ := hnz
      intro h; apply hx; rw [hf, h, zero_mul]
    have hout : ∀ x, (x < a ∨ b < x) → (0 ≤ s * q.eval x ↔ 0 ≤ s * q.c2) := by
      intro x hx
      have : 0 < (x - a) * (x - b) := by
        rcases hx with h | h
        · exact mul_pos_of_neg_of_neg (by linarith) (by linarith)
        · exact mul_pos (by linarith) (by linarith)
      rw [hf, ← mul_assoc, mul_nonneg_iff_of_pos_right this]
    have hin : ∀ x, a < x → x < b → (0 ≤ s * q.eval x ↔ ¬ 0 ≤ s * q.c2) := by
      intro x h1 h2
      have hneg : (x - a) * (x - b) < 0 := mul_neg_of_pos_of_neg (by linarith) (by linarith)
      have hne : s * q.c2 ≠ 0 := mul_ne_zero hs0 hc2
      rw [hf, ← mul_assoc]
      constructor
      · intro h g
        have : 0 < s * q.c2 := lt_of_le_of_ne g hne.symm
        nlinarith
      · intro g
        exact (mul_pos_of_neg_of_neg (not_le.mp g) hneg).le
    have h0 := hout x0 (Or.inl hax)
    have h1 := hout x1 (Or.inr hbx)
    unfold rangesForRoots
    simp only [h0, h1, ne_eq, not_true_eq_false, if_false, decide_eq_true_eq]
    by_cases h : 0 ≤ s * q.c2
    · refine ⟨_, by rw [if_pos h], ?_, ?_, ?_⟩
      · simp only [List.mem_cons, List.not_mem_nil, or_false]
        rintro r (rfl | rfl) <;> refine ⟨?_, ?_, ?_⟩ <;> simp only [] <;> linarith
      · exact List.pairwise_pair.mpr hab
      · rintro x ⟨g1, g2⟩
        simp only [List.mem_cons, List.not_mem_nil, or_false, exists_eq_or_imp, exists_eq_left]
        rcases lt_trichotomy x a with k | k | k
        · rw [hout x (Or.inl k)]; exact iff_of_true (Or.inl ⟨g1, k.le⟩) h
        · subst k; rw [ha0, mul_zero]; exact iff_of_true (Or.inl ⟨g1, le_rfl⟩) le_rfl
        · rcases lt_trichotomy x b with k' | k' | k'
          · rw [hin x k k']
            refine iff_of_false ?_ (not_not.mpr h)
            rintro (⟨_, h'⟩ | ⟨h', _⟩) <;> linarith
          · subst k'; rw [hb0, mul_zero]; exact iff_of_true (Or.inr ⟨le_rfl, g2⟩) le_rfl
          · rw [hout x (Or.inr k')]; exact iff_of_true (Or.inr ⟨k'.le, g2⟩) h
    · refine ⟨_, by rw [if_neg h], ?_, List.pairwise_singleton _ _, ?_⟩
      · simp only [List.mem_singleton, forall_eq]
        refine ⟨?_, ?_, ?_⟩ <;> linarith
      · rintro x ⟨g1, g2⟩
        simp only [List.mem_singleton, exists_eq_left]
        rcases lt_trichotomy x a with k | k | k
        · rw [hout x (Or.inl k)]; exact iff_of_false (fun h' => by linarith [h'.1]) h
        · subst k; rw [ha0, mul_zero]; exact iff_of_true ⟨le_rfl, hab.le⟩ le_rfl
        · rcases lt_trichotomy x b with k' | k' | k'
          · rw [hin x k k']; exact iff_of_true ⟨k.le, k'.le⟩ h
          · subst k'; rw [hb0, mul_zero]; exact iff_of_true ⟨hab.le, le_rfl⟩ le_rfl
          · rw [hout x (Or.inr k')]; exact iff_of_false (fun h' => by linarith [h'.2]) h
  | a :: b :: c :: l, hp, hm =>
    exfalso
    simp only [List.pairwise_cons, List.mem_cons] at hp
    obtain ⟨p1, p2, -⟩ := hp
    have hab : a < b := p1 b (Or.inl rfl)
    have hbc : b < c := p2 c (Or.inl rfl)
    have hf := factor hab ((hm a).mp (by simp)).1 ((hm b).mp (by simp)).1
    have hc0 := ((hm c).mp (by simp)).1
    rw [hf] at hc0
    have hc2 : q.c2 = 0 := by
      rcases mul_eq_zero.mp hc0 with h | h
      · exact h
      · rcases mul_eq_zero.mp h with h | h <;> linarith
    obtain ⟨x, hx⟩ := hnz
    apply hx; rw [hf, hc2, zero_mul]

/-- C30, `RootsInRange` and `RangesMatchingSign`: when the quadratic is clear of the tolerance bands and no
root lies on or within the snapping tolerance of a limit, the roots reported are exactly those inside the
limits, and the ranges reported are disjoint, ordered sub-ranges of the limits that cover exactly the points
where the curve has the requested sign (or is zero).

Partial: with a root on a limit the claim is false, see `C30_ranges_root_at_limit`. -/
theorem C30_ranges_matching_sign_partial {q : Quad ℝ} {lim : Math.Range ℝ} {s : ℝ} (h : q.WellConditioned)
    (hv : lim.valid) (hc : q.ClearOfLimits lim) (hs : s ≠ 0) :
    (∃ rs, q.rootsInRange lim = some rs ∧ rs.Pairwise (· < ·) ∧
      ∀ x, x ∈ rs ↔ q.eval x = 0 ∧ lim.contains x) ∧
    ∃ l, q.rangesMatchingSign lim s = some l ∧
      (∀ r ∈ l, r.valid ∧ lim.start ≤ r.start ∧ r.stop ≤ lim.stop) ∧
      l.Pairwise (fun a b => a.stop < b.start) ∧
      ∀ x, lim.contains x → ((∃ r ∈ l, r.contains x) ↔ 0 ≤ s * q.eval x) := by
  obtain ⟨rs, h1, h2, h3⟩ := rootsInRange_exact h hv hc
  refine ⟨⟨rs, h1, h2, h3⟩, ?_⟩
  have hlen : 0 ≤ lim.length * epsScale := by
    unfold Math.Range.length epsScale
    exact mul_nonneg (sub_nonneg.mpr hv) (by norm_num)
  have hend : ∀ x, x = lim.start ∨ x = lim.stop → q.eval x ≠ 0 := by
    intro x hx h0
    have hcon : lim.contains x := by
      unfold Math.Range.valid at hv
      rcases hx with rfl | rfl
      · exact ⟨le_rfl, hv⟩
      · exact ⟨hv, le_rfl⟩
    rcases hc x h0 with h | h
    · rcases hx with rfl | rfl <;> linarith [h.1, h.2]
    · unfold Math.Range.distanceFrom at h
      rw [Math.Range.clamp_of_mem hcon] at h
      simp only [sub_self, abs_zero] at h; linarith
  obtain ⟨l, g1, g2⟩ := rangesForRoots_spec (s := s) hv (hend _ (Or.inl rfl)) (hend _ (Or.inr rfl))
    ⟨_, hend _ (Or.inl rfl)⟩ hs h2 h3
  exact ⟨l, by simp [rangesMatchingSign, h1, g1], g2⟩

/-! ### Concrete cases -/

theorem exponentAsInt_one : exponentAsInt 1 = 0 :=
  exponentAsInt_eq (by norm_num) (by norm_num) (by norm_num) (by norm_num)

theorem invertable_one_le : (2 : ℝ) ^ (-126 : Int) ≤ 1 ∧ (1 : ℝ) ≤ 2 ^ (126 : Int) := by
  constructor
  · exact zpow_le_one_of_nonpos₀ (by norm_num) (by norm_num)
  · exact one_le_zpow₀ (by norm_num) (by norm_num)

/-- When `c2` and the quotient that controls the scaling both have exponent zero, and `c0`, `c1` are at most one,
normalisation changes nothing. -/
theorem normalized_id {q : Quad ℝ} (h2 : |q.c2| = 1) (h1 : |q.c1| ≤ 1) (h0 : |q.c0| ≤ |q.c1|)
    (hq : 1 / 2 < |q.c1|) : q.normalized = some (q, 1) := by
  have hmx : max |q.c1| |q.c0| = |q.c1| := max_eq_left h0
  have hpos : 0 < |q.c1| := by linarith
  have hquo : 1 ≤ 1 / |q.c1| ∧ 1 / |q.c1| < 2 := by
    constructor
    · rw [le_div_iff₀ hpos]; linarith
    · rw [div_lt_iff₀ hpos]; linarith
  have habs : |(1 / |q.c1| : ℝ)| = 1 / |q.c1| := abs_of_pos (by positivity)
  have he : exponentAsInt (1 / |q.c1|) = 0 :=
    exponentAsInt_eq (by rw [habs]; simpa using hquo.1) (by rw [habs]; simpa using hquo.2) (by norm_num)
      (by norm_num)
  have hexp : ∀ f : ℝ, |f| ≤ 1 → ∀ m : Int, 125 ≤ m → ∃ s, maxPowerOf2Scale f m = some s ∧ 1 ≤ s := by
    intro f hf m hm
    have b := exponentAsInt_bounds f
    have hle : exponentAsInt f ≤ 0 := by
      unfold exponentAsInt
      split_ifs with g1 g2
      · norm_num
      · have hp : 0 < |f| := lt_of_lt_of_le (two_zpow_pos _) (not_lt.mp g1)
        have : Int.log 2 |f| < 1 :=
          (Int.lt_zpow_iff_log_lt (b := 2) (by norm_num) hp).mp (lt_of_le_of_lt hf (by norm_num))
        omega
      · exfalso
        have : (1 : ℝ) < 2 ^ (128 : Int) := one_lt_zpow₀ (by norm_num) (by norm_num)
        linarith [not_lt.mp g2]
    refine ⟨_, exponentFromInt_mid (i := min 127 (m - exponentAsInt f)) (by omega) (by omega), ?_⟩
    exact one_le_zpow₀ (by norm_num) (by omega)
  have hrec1 : exponentFromInt 0 = some 1 := by
    rw [exponentFromInt_mid (by norm_num) (by norm_num)]; norm_num
  have hx : q.xScaleReciprocal = some 1 := by
    obtain ⟨m, hm, hm1⟩ := hexp |q.c1| (by rw [abs_abs]; exact h1) 126 (by norm_num)
    have hu : q.xScaleUnclamped = some 1 := by
      unfold xScaleUnclamped
      simp only [hmx, h2]
      rw [if_neg hpos.ne', if_neg, if_pos h0]
      · unfold reciprocalExponent; rw [he, neg_zero, hrec1]
      · rw [not_not, hmx, h2]
        refine ⟨invertable_one_le.1.trans hquo.1, hquo.2.le.trans ?_⟩
        simp only [invertableRange]
        calc (2 : ℝ) = 2 ^ (1 : Int) := by norm_num
          _ ≤ 2 ^ (126 : Int) := zpow_le_zpow_right₀ (by norm_num) (by norm_num)
    simp [xScaleReciprocal, hu, hm, min_eq_left hm1]
  have hsc : q.scaleInXByReciprocal 1 = q := by simp [scaleInXByReciprocal]
  have hy : q.yScale = some 1 := by
    obtain ⟨m0, hm0, hm01⟩ := hexp |q.c0| (by rw [abs_abs]; linarith) 125 (by norm_num)
    obtain ⟨m1, hm1, hm11⟩ := hexp |q.c1| (by rw [abs_abs]; exact h1) 125 (by norm_num)
    have hcl : invertableRange.clamp 1 = 1 := Math.Range.clamp_of_mem ⟨invertable_one_le.1, invertable_one_le.2⟩
    have hr : reciprocalExponent (invertableRange.clamp |q.c2|) = some 1 := by
      rw [h2, hcl]; unfold reciprocalExponent; rw [exponentAsInt_one, neg_zero, hrec1]
    simp [yScale, hr, hm0, hm1, hm01, hm11]
  simp [normalized, hx, hsc, hy, scaleUp]

/-- `x - x^2` satisfies the hypotheses of `C30_roots_partial`. -/
theorem wellConditioned_witness : (⟨-1, 1, 0⟩ : Quad ℝ).WellConditioned := by
  intro n xr h
  rw [normalized_id (by norm_num) (by norm_num) (by norm_num) (by norm_num)] at h
  cases h
  right
  simp only [epsilon, maxCoeff, epsScale, discriminant]
  norm_num

example : ∃ rs, (⟨-1, 1, 0⟩ : Quad ℝ).roots = some rs ∧ rs.Pairwise (· < ·) ∧
    ∀ x, x ∈ rs ↔ (⟨-1, 1, 0⟩ : Quad ℝ).eval x = 0 := C30_roots_partial wellConditioned_witness

/-- `x - x^2` on `[-1, 2]` satisfies the hypotheses of `C30_ranges_matching_sign_partial`. -/
example : (⟨-1, 1, 0⟩ : Quad ℝ).ClearOfLimits ⟨-1, 2⟩ := by
  intro x hx
  left
  have : x * (1 - x) = 0 := by simp only [eval] at hx; linear_combination hx
  rcases mul_eq_zero.mp this with h | h
  · subst h; norm_num
  · have : x = 1 := by linarith
    subst this; norm_num

/-- Full exactness of `Roots` is false: `(x - 1/2) (x - 1/2 + 2^-11)` has two roots, but `Roots` reports one
number, their midpoint, which is not a root. -/
theorem C30_roots_inexact :
    ∃ (q : Quad ℝ) (r : ℝ), q.roots = some [r] ∧ q.eval r ≠ 0 ∧
      q.eval (1 / 2) = 0 ∧ q.eval (1 / 2 - 1 / 2048) = 0 := by
  refine ⟨⟨1, -(2047 / 2048), 1 / 4 - 1 / 4096⟩, 2047 / 4096, ?_, ?_, ?_, ?_⟩
  · have hn : (⟨1, -(2047 / 2048), 1 / 4 - 1 / 4096⟩ : Quad ℝ).normalized =
        some (⟨1, -(2047 / 2048), 1 / 4 - 1 / 4096⟩, 1) := by
      apply normalized_id
      · norm_num
      · rw [abs_neg, abs_of_pos] <;> norm_num
      · rw [abs_neg, abs_of_pos, abs_of_pos] <;> norm_num
      · rw [abs_neg, abs_of_pos] <;> norm_num
    have he : (⟨1, -(2047 / 2048), 1 / 4 - 1 / 4096⟩ : Quad ℝ).epsilon = 1 / 4194304 := by
      simp only [epsilon, maxCoeff, epsScale]
      rw [abs_one, abs_neg, abs_of_pos (by norm_num), abs_of_pos (by norm_num), max_eq_left (by norm_num),
        max_eq_left (by norm_num)]
      norm_num
    have hd : (⟨1, -(2047 / 2048), 1 / 4 - 1 / 4096⟩ : Quad ℝ).reliableDiscriminant (1 / 4194304) = 0 := by
      unfold reliableDiscriminant clampNearZero discriminant
      rw [if_pos]
      rw [abs_le]; constructor <;> norm_num
    have hr : (⟨1, -(2047 / 2048), 1 / 4 - 1 / 4096⟩ : Quad ℝ).rootsWithoutNormalizing =
        some [2047 / 4096] := by
      unfold rootsWithoutNormalizing
      simp only [he, hd]
      rw [if_neg (by norm_num), if_neg (by norm_num), if_neg (by norm_num)]
      norm_num
    simp only [roots, hn, hr, Option.bind_eq_bind, Option.bind_some, List.map_cons, mul_one, List.map_nil]
  · simp only [eval]; norm_num
  · simp only [eval]; norm_num
  · simp only [eval]; norm_num

/-- The comment "If constant, even if zero, return no roots" is not met by the zero quadratic: the code goes on
to divide by `c2 = 0`. -/
theorem C30_zero_quadratic : (⟨0, 0, 0⟩ : Quad ℝ).rootsWithoutNormalizing = none ∧ (⟨0, 0, 0⟩ : Quad ℝ).roots = none := by
  have h : (⟨0, 0, 0⟩ : Quad ℝ).rootsWithoutNormalizing = none := by
    simp [rootsWithoutNormalizing, epsilon, maxCoeff, reliableDiscriminant, clampNearZero, discriminant]
  refine ⟨h, ?_⟩
  obtain ⟨xr, hx, -⟩ := xScaleReciprocal_pos (⟨0, 0, 0⟩ : Quad ℝ)
  have hz : (⟨0, 0, 0⟩ : Quad ℝ).scaleInXByReciprocal xr = ⟨0, 0, 0⟩ := by simp [scaleInXByReciprocal]
  obtain ⟨ys, hy, -⟩ := yScale_pos (⟨0, 0, 0⟩ : Quad ℝ)
  simp [roots, normalized, hx, hz, hy, scaleUp, h]

/-- `RangesMatchingSign` with a root exactly on a limit: for `x - x^2` on `[0, 2]` the curve is not negative
exactly on `[0, 1]`, but the assertion in the code fails. -/
theorem C30_ranges_root_at_limit :
    (⟨-1, 1, 0⟩ : Quad ℝ).rangesMatchingSign ⟨0, 2⟩ 1 = none ∧
    ∀ x : ℝ, 0 ≤ x → x ≤ 2 → (0 ≤ 1 * (⟨-1, 1, 0⟩ : Quad ℝ).eval x ↔ 0 ≤ x ∧ x ≤ 1) := by
  constructor
  · obtain ⟨rs, h1, h2, h3⟩ := C30_roots_partial wellConditioned_witness
    have h0 : (0 : ℝ) ∈ rs := (h3 0).mpr (by simp [eval])
    have h1' : (1 : ℝ) ∈ rs := (h3 1).mpr (by simp [eval])
    have hall : ∀ x ∈ rs, x = 0 ∨ x = 1 := by
      intro x hx
      have := (h3 x).mp hx
      have : x * (1 - x) = 0 := by simp only [eval] at this; linear_combination this
      rcases mul_eq_zero.mp this with h | h
      · exact Or.inl h
      · right; linarith
    have hval : ∃ a b, (⟨-1, 1, 0⟩ : Quad ℝ).rootsInRange ⟨0, 2⟩ = some [a, b] := by
      have hv : (⟨0, 2⟩ : Math.Range ℝ).valuesInRange ((⟨0, 2⟩ : Math.Range ℝ).length * epsScale) rs = rs := by
        rw [Math.Range.C18_values_in_range]
        have hin : ∀ x ∈ rs, (⟨0, 2⟩ : Math.Range ℝ).clamp x = x := by
          intro x hx
          apply Math.Range.clamp_of_mem
          rcases hall x hx with rfl | rfl <;> constructor <;> norm_num
        rw [List.filter_eq_self.mpr]
        · conv_rhs => rw [← List.map_id rs]
          exact List.map_congr_left fun x hx => by rw [hin x hx]; rfl
        · intro x hx
          unfold Math.Range.distanceFrom
          rw [hin x hx]
          simp [epsScale, Math.Range.length]
      have hlen : rs.length = 2 := by
        match rs, h2, h0, h1', hall with
        | [], _, h0, _, _ => simp at h0
        | [a], _, h0, h1', _ =>
          simp only [List.mem_singleton] at h0 h1'
          exfalso; linarith
        | [a, b], _, _, _, _ => rfl
        | a :: b :: c :: l, hp, _, _, hall =>
          exfalso
          simp only [List.pairwise_cons, List.mem_cons] at hp
          obtain ⟨p1, p2, -⟩ := hp
          have q1 := p1 b (Or.inl rfl)
          have q2 := p2 c (Or.inl rfl)
          rcases hall a (by simp) with h | h <;> rcases hall b (by simp) with h' | h' <;>
            rcases hall c (by simp) with h'' | h'' <;> linarith
      match rs, hlen, hv with
      | [a, b], _, hv => exact ⟨a, b, by simp only [rootsInRange, h1, Option.bind_eq_bind, Option.bind_some, hv]⟩
    obtain ⟨a, b, hab⟩ := hval
    unfold rangesMatchingSign
    simp only [hab, Option.bind_eq_bind, Option.bind_some, rangesForRoots, eval]
    norm_num
  · intro x h1 h2
    simp only [eval]
    constructor
    · intro h
      refine ⟨h1, ?_⟩
      by_contra hc
      nlinarith [not_le.mp hc]
    · rintro ⟨-, h⟩; nlinarith

end Quad
end Motive.Curve
