import Verif.Curve.Ease
import Verif.Curve.RootProps
import Verif.Curve.RootScale
import Mathlib.Algebra.QuadraticDiscriminant
/-!
# C36: the ease-in-ease-out curve reaches its target
-/

namespace Motive.Curve

open Quad

noncomputable section

/-! ### Specification -/

/-- What a user of an ease curve from `start` (moving at `startD`) to `endV` relies on. `s` and `e` are the accelerations
of the two pieces and `typX` the typical duration; they only enter the size of the step tolerated at a junction that the
code has snapped to `x = 0`. -/
structure EaseSpec (c : EaseCurve) (start startD endV s e typX : ℝ) : Prop where
  /-- it starts at the start value -/
  starts : c.eval 0 = start
  /-- it starts with the start velocity -/
  startsMoving : c.deriv 0 = startD
  /-- the junction lies within the duration -/
  ordered : 0 ≤ c.inter ∧ c.inter ≤ c.total
  /-- the last piece arrives at the end value at the end of the duration -/
  arrives : c.outC.eval c.total = endV
  /-- so does the curve itself -/
  ends : 0 < c.total → c.eval c.total = endV
  /-- the pieces meet with equal value and velocity -/
  joined : c.inter ≠ 0 → c.inC.eval c.inter = c.outC.eval c.inter ∧ c.inC.deriv c.inter = c.outC.deriv c.inter
  /-- the step in value at a junction snapped to zero is tiny -/
  step : |c.inC.eval c.inter - c.outC.eval c.inter| ≤ (s + e) / 2 * (typX / 10000) ^ 2
  /-- and so is the step in velocity -/
  stepVelocity : |c.inC.deriv c.inter - c.outC.deriv c.inter| ≤ (s + e) * (typX / 10000)

/-- There is a way to leave `start` at velocity `startD` with constant acceleration `k * s`, switch after time `u` to the
constant acceleration `-k * e`, and be at `endV` with velocity `endD` at time `t`. -/
def TwoPhase (start startD s endV endD e k u t : ℝ) : Prop :=
  0 ≤ u ∧ u ≤ t ∧
    start + startD * u + k * s / 2 * u ^ 2 = endV + endD * (u - t) - k * e / 2 * (u - t) ^ 2 ∧
    startD + k * s * u = endD - k * e * (u - t)

namespace Ease

/-! ### Roots -/

theorem getLast?_greatest : ∀ {rs : List ℝ}, rs.Pairwise (· < ·) → rs ≠ [] →
    ∃ s, rs.getLast? = some s ∧ s ∈ rs ∧ ∀ x ∈ rs, x ≤ s := by
  intro rs h hne
  refine ⟨rs.getLast hne, List.getLast?_eq_getLast_of_ne_nil hne, List.getLast_mem hne, fun x hx => ?_⟩
  rw [← List.dropLast_append_getLast hne, List.mem_append] at hx
  rw [← List.dropLast_append_getLast hne] at h
  rcases hx with hx | hx
  · exact le_of_lt ((List.pairwise_append.mp h).2.2 x hx _ (by simp))
  · simp at hx; exact le_of_eq hx

theorem exists_root {q : Quad ℝ} (h2 : q.c2 ≠ 0) (hd : 0 ≤ q.discriminant) : ∃ x, q.eval x = 0 := by
  obtain ⟨x, hx⟩ := exists_quadratic_eq_zero (a := q.c2) (b := q.c1) (c := q.c0) h2
    ⟨Real.sqrt q.discriminant, by
      rw [Real.mul_self_sqrt hd]; simp only [discrim, discriminant]; ring⟩
  exact ⟨x, by simp only [eval]; linear_combination hx⟩

/-- The greatest root, as the code obtains it. -/
theorem greatest_root {q : Quad ℝ} (hw : q.WellConditioned) (h2 : q.c2 ≠ 0) (hd : 0 ≤ q.discriminant) :
    ∃ rs s, q.roots = some rs ∧ rs.getLast? = some s ∧ q.eval s = 0 ∧ ∀ x, q.eval x = 0 → x ≤ s := by
  obtain ⟨rs, h1, h3, h4⟩ := C30_roots_partial hw
  obtain ⟨x, hx⟩ := exists_root h2 hd
  have hne : rs ≠ [] := List.ne_nil_of_mem ((h4 x).mpr hx)
  obtain ⟨s, hs, hm, hg⟩ := getLast?_greatest h3 hne
  exact ⟨rs, s, h1, hs, (h4 s).mp hm, fun x hx => hg x ((h4 x).mpr hx)⟩

/-! ### Fly-out and fly-in -/

/-- A quadratic whose constant term has the opposite sign to its leading term has a root on each side of zero. -/
theorem signed_roots {q : Quad ℝ} (hw : q.WellConditioned) (h : q.c2 * q.c0 ≤ 0) (h2 : q.c2 ≠ 0) :
    ∃ rs a b, q.roots = some rs ∧ rs.head? = some a ∧ a ≤ 0 ∧ q.eval a = 0 ∧ pickEnd rs = some b ∧ 0 ≤ b ∧
      q.eval b = 0 := by
  obtain ⟨rs, h1, h3, h4⟩ := C30_roots_partial hw
  have hdisc : 0 ≤ q.discriminant := by simp only [discriminant]; nlinarith [mul_self_nonneg q.c1]
  obtain ⟨x, hx⟩ := exists_root h2 hdisc
  -- the other root
  have hy : q.eval (-q.c1 / q.c2 - x) = 0 := by
    simp only [eval] at hx ⊢; field_simp; linear_combination (q.c2) * hx
  have hprod : x * (-q.c1 / q.c2 - x) ≤ 0 := by
    have : x * (-q.c1 / q.c2 - x) = q.c0 * q.c2 / q.c2 ^ 2 := by
      simp only [eval] at hx; field_simp; linear_combination (-1) * hx
    rw [this]
    exact div_nonpos_of_nonpos_of_nonneg (by linarith) (sq_nonneg _)
  have hmm : ∃ m M, q.eval m = 0 ∧ q.eval M = 0 ∧ m ≤ 0 ∧ 0 ≤ M := by
    rcases le_total x 0 with h0 | h0
    · rcases h0.lt_or_eq with h0 | h0
      · exact ⟨x, _, hx, hy, h0.le, by by_contra hc; push Not at hc; nlinarith⟩
      · exact ⟨x, x, hx, hx, h0.le, h0.ge⟩
    · rcases h0.lt_or_eq with h0 | h0
      · exact ⟨_, x, hy, hx, by by_contra hc; push Not at hc; nlinarith, h0.le⟩
      · exact ⟨x, x, hx, hx, h0.ge, h0.le⟩
  obtain ⟨m, M, hm, hM, hm0, hM0⟩ := hmm
  have hm' := (h4 m).mpr hm
  have hM' := (h4 M).mpr hM
  match rs, h1, h3, h4, hm', hM' with
  | [], _, _, _, hm', _ => simp at hm'
  | [a], h1, h3, h4, hm', hM' =>
    simp only [List.mem_singleton] at hm' hM'
    subst hm'
    have : m = 0 := le_antisymm hm0 (hM' ▸ hM0)
    exact ⟨[m], m, m, h1, rfl, hm0, hm, by simp [pickEnd, this], this.ge, hm⟩
  | a :: b :: l, h1, h3, h4, hm', hM' =>
    have hab : a < b := (List.pairwise_cons.mp h3).1 b (by simp)
    have ham : a ≤ m := by
      rcases List.mem_cons.mp hm' with h | h
      · exact h.ge
      · exact ((List.pairwise_cons.mp h3).1 m h).le
    have ha := (h4 a).mp (by simp)
    have hb := (h4 b).mp (by simp)
    refine ⟨_, a, if 0 ≤ a then a else b, h1, rfl, ham.trans hm0, ha, ?_, ?_, ?_⟩
    · have : ¬ 0 ≤ a → 0 ≤ b := by
        intro hna
        -- roots are only a and b
        have : M = a ∨ M = b := by
          by_contra hc
          push Not at hc
          simp only [eval] at ha hb hM
          have e1 : q.c2 * (a + b) + q.c1 = 0 := by
            have : (a - b) * (q.c2 * (a + b) + q.c1) = 0 := by linear_combination ha - hb
            exact (mul_eq_zero.mp this).resolve_left (sub_ne_zero.mpr hab.ne)
          have e2 : q.c2 * (a + M) + q.c1 = 0 := by
            have : (a - M) * (q.c2 * (a + M) + q.c1) = 0 := by linear_combination ha - hM
            exact (mul_eq_zero.mp this).resolve_left (sub_ne_zero.mpr hc.1.symm)
          have : q.c2 * (b - M) = 0 := by linear_combination e1 - e2
          rcases mul_eq_zero.mp this with h | h
          · exact h2 h
          · exact hc.2 (by linarith)
        rcases this with h | h
        · exact absurd (h ▸ hM0) hna
        · exact h ▸ hM0
      unfold pickEnd
      by_cases h0 : 0 ≤ a
      · simp [h0]
      · simp [h0, this h0]
    · by_cases h0 : 0 ≤ a
      · simp [h0]
      · simp only [h0, if_false]
        by_contra hc
        push Not at hc
        -- two negative roots
        simp only [eval] at ha hb
        have e1 : q.c2 * (a + b) + q.c1 = 0 := by
          have : (a - b) * (q.c2 * (a + b) + q.c1) = 0 := by linear_combination ha - hb
          exact (mul_eq_zero.mp this).resolve_left (sub_ne_zero.mpr hab.ne)
        have e2 : q.c0 = q.c2 * (a * b) := by linear_combination ha - a * e1
        push Not at h0
        have : 0 < a * b := mul_pos_of_neg_of_neg h0 hc
        have h5 : q.c2 * q.c0 = q.c2 ^ 2 * (a * b) := by rw [e2]; ring
        have : 0 < q.c2 ^ 2 * (a * b) := mul_pos (by positivity) this
        linarith
    · split_ifs <;> assumption

/-- The quadratic whose roots are the times at which a fly-out is at its end value. -/
def flyOutEq (start endV startD second : ℝ) : Quad ℝ :=
  ⟨(if start ≤ endV then 1 else -1) * second / 2, startD, start - endV⟩

/-- The quadratic whose roots are the times at which a fly-in, before it is shifted, is at its start value. -/
def flyInEq (start endV endD second : ℝ) : Quad ℝ :=
  ⟨(if endV ≤ start then 1 else -1) * second / 2, endD, endV - start⟩

theorem flyOut_spec {start endV startD second : ℝ} (h : 0 < second)
    (hw : (flyOutEq start endV startD second).WellConditioned) :
    ∃ c : EaseCurve, flyOut start endV startD second = some c ∧ c.inC = c.outC ∧ c.inter = c.total ∧ 0 ≤ c.total ∧
      c.inC.eval 0 = start ∧ c.inC.deriv 0 = startD ∧ c.outC.eval c.total = endV := by
  obtain ⟨rs, a, b, h1, h2, h3, h4, h5, h6, h7⟩ := signed_roots hw
    (by simp only [flyOutEq]; split_ifs <;> nlinarith)
    (by simp only [flyOutEq]; split_ifs <;> simp <;> linarith)
  have hx : (flyOutCurve start endV startD second).xsForValue endV = some rs := by
    rw [← h1]; simp only [xsForValue, flyOutCurve, initOrigin, flyOutEq]; congr 2; ring
  refine ⟨EaseCurve.single (flyOutCurve start endV startD second) b, by simp [flyOut, hx, h5], rfl, rfl, h6, ?_, ?_, ?_⟩
  · simp [EaseCurve.single, flyOutCurve, initOrigin, eval]
  · simp [EaseCurve.single, flyOutCurve, initOrigin, deriv]
  · simp only [EaseCurve.single, flyOutCurve, initOrigin, eval, flyOutEq] at h7 ⊢
    linear_combination h7

theorem flyIn_spec {start endV endD second : ℝ} (h : 0 < second)
    (hw : (flyInEq start endV endD second).WellConditioned) :
    ∃ c : EaseCurve, flyIn start endV endD second = some c ∧ c.inC = c.outC ∧ c.inter = c.total ∧ 0 ≤ c.total ∧
      c.inC.eval 0 = start ∧ c.outC.eval c.total = endV ∧ c.outC.deriv c.total = endD := by
  obtain ⟨rs, a, b, h1, h2, h3, h4, -⟩ := signed_roots hw
    (by simp only [flyInEq]; split_ifs <;> nlinarith)
    (by simp only [flyInEq]; split_ifs <;> simp <;> linarith)
  have hx : (flyInCurve start endV endD second).xsForValue start = some rs := by
    rw [← h1]; simp only [xsForValue, flyInCurve, initOrigin, flyInEq]; congr 2; ring
  have hsh : ∀ (q : Quad ℝ) (s : ℝ), q.shiftRight s = ⟨q.c2, q.deriv (-s), q.eval (-s)⟩ := by
    intro q s
    unfold shiftRight shiftLeft
    split_ifs with h0
    · simp [h0, deriv, eval]
    · rfl
  refine ⟨EaseCurve.single ((flyInCurve start endV endD second).shiftRight (-a)) (-a), by simp [flyIn, hx, h2, h3],
    rfl, rfl, by simpa [EaseCurve.single] using h3, ?_, ?_, ?_⟩
  all_goals simp only [EaseCurve.single, hsh, flyInCurve, initOrigin, eval, deriv, flyInEq] at h4 ⊢
  · linear_combination h4
  · ring
  · ring

/-! ### The two-piece curve -/

section Touch

variable {start startD s endV endD e k : ℝ}

/-- Touching parabolas: when `t` is a root of the shift quadratic, the in piece and the out piece moved right by `t`
differ by a multiple of a square. -/
theorem touch (hk : k = 1 ∨ k = -1) (hs : 0 < s) (he : 0 < e) {t : ℝ}
    (ht : (shiftQuad (inPiece start startD s k) (outPiece endV endD e k)).eval t = 0) (x : ℝ) :
    (inPiece start startD s k).eval x - (outPiece endV endD e k).eval (x - t) =
      k * (s + e) / 2 * (x - touchX (inPiece start startD s k) (outPiece endV endD e k) t) ^ 2 := by
  have hse : s + e ≠ 0 := by linarith
  have hk0 : k ≠ 0 := by rcases hk with h | h <;> rw [h] <;> norm_num
  simp only [shiftQuad, inPiece, outPiece, initOrigin, Quad.sub, eval, touchX] at ht ⊢
  have hd : 1 / 2 * (k * s) - 1 / 2 * (-k * e) = k * (s + e) / 2 := by ring
  rw [hd] at ht ⊢
  have hne : k * (s + e) / 2 ≠ 0 := by positivity
  field_simp
  ring_nf at ht ⊢
  linear_combination (-1) * ht

theorem touchX_eq (hk : k = 1 ∨ k = -1) (hs : 0 < s) (he : 0 < e) (t : ℝ) :
    touchX (inPiece start startD s k) (outPiece endV endD e k) t = (k * (endD - startD) + e * t) / (s + e) := by
  have hse : s + e ≠ 0 := by linarith
  have h1 : 2 * (1 / 2 * (1 * s) - 1 / 2 * (-1 * e)) = s + e := by ring
  have h2 : 2 * (1 / 2 * (-1 * s) - 1 / 2 * (-(-1) * e)) = -(s + e) := by ring
  rcases hk with h | h <;> subst h <;>
    simp only [touchX, inPiece, outPiece, initOrigin, Quad.sub]
  · rw [h1]; congr 1; ring
  · rw [h2, div_neg, ← neg_div]; congr 1; ring

theorem touch_deriv (hk : k = 1 ∨ k = -1) (hs : 0 < s) (he : 0 < e) (t x : ℝ) :
    (inPiece start startD s k).deriv x - (outPiece endV endD e k).deriv (x - t) =
      k * (s + e) * (x - touchX (inPiece start startD s k) (outPiece endV endD e k) t) := by
  have hse : s + e ≠ 0 := by linarith
  rw [touchX_eq hk hs he]
  rcases hk with h | h <;> subst h <;>
    simp only [inPiece, outPiece, initOrigin, deriv] <;> field_simp <;> ring

theorem shiftQuad_c2 (hk : k = 1 ∨ k = -1) (hs : 0 < s) (he : 0 < e) :
    (shiftQuad (inPiece start startD s k) (outPiece endV endD e k)).c2 ≠ 0 := by
  have : 0 < s * e := mul_pos hs he
  rcases hk with h | h <;> subst h <;> simp only [shiftQuad, inPiece, outPiece, initOrigin] <;> nlinarith

/-- When the in piece curves towards the end value there is always an admissible shift. -/
theorem shiftQuad_disc (hk : k = 1 ∨ k = -1) (hs : 0 < s) (he : 0 < e) (hv : 0 ≤ k * (endV - start)) :
    0 ≤ (shiftQuad (inPiece start startD s k) (outPiece endV endD e k)).discriminant := by
  have hk2 : k * k = 1 := by rcases hk with h | h <;> rw [h] <;> norm_num
  have : (shiftQuad (inPiece start startD s k) (outPiece endV endD e k)).discriminant =
      (s + e) * (4 * (s * endD ^ 2 + e * startD ^ 2) + 8 * (s * e) * (k * (endV - start))) := by
    rcases hk with h | h <;> subst h <;>
      simp only [discriminant, shiftQuad, inPiece, outPiece, initOrigin, Quad.sub] <;> ring
  rw [this]
  have := mul_nonneg (mul_pos hs he).le hv
  positivity

/-- A two-phase motion is exactly a root of the shift quadratic together with its touching point. -/
theorem twoPhase_iff (hk : k = 1 ∨ k = -1) (hs : 0 < s) (he : 0 < e) {u t : ℝ} :
    TwoPhase start startD s endV endD e k u t ↔
      0 ≤ u ∧ u ≤ t ∧ u = touchX (inPiece start startD s k) (outPiece endV endD e k) t ∧
        (shiftQuad (inPiece start startD s k) (outPiece endV endD e k)).eval t = 0 := by
  have hse : s + e ≠ 0 := by linarith
  have hk2 : k * k = 1 := by rcases hk with h | h <;> rw [h] <;> norm_num
  rw [touchX_eq hk hs he]
  unfold TwoPhase
  constructor
  · rintro ⟨h0, h1, h2, h3⟩
    have hu : u = (k * (endD - startD) + e * t) / (s + e) := by
      rw [eq_div_iff hse]
      linear_combination k * h3 - (s * u - e * (t - u)) * hk2
    refine ⟨h0, h1, hu, ?_⟩
    rw [eq_div_iff hse] at hu
    rcases hk with h | h <;> subst h <;>
      simp only [shiftQuad, inPiece, outPiece, initOrigin, Quad.sub, eval]
    · have e1 : endD = startD + (s + e) * u - e * t := by linarith
      subst e1
      linear_combination (-2) * (s + e) * h2
    · have e1 : endD = startD - (s + e) * u + e * t := by linarith
      subst e1
      linear_combination (2) * (s + e) * h2
  · rintro ⟨h0, h1, hu, ht⟩
    have hT := touch (endD := endD) hk hs he ht u
    have hD := touch_deriv (start := start) (endV := endV) (startD := startD) (endD := endD) hk hs he t u
    rw [touchX_eq hk hs he, ← hu] at hT hD
    refine ⟨h0, h1, ?_, ?_⟩
    · simp only [inPiece, outPiece, initOrigin, eval] at hT
      linear_combination hT
    · simp only [inPiece, outPiece, initOrigin, deriv] at hD
      linear_combination hD

end Touch

theorem shiftRight_eval (q : Quad ℝ) (s x : ℝ) : (q.shiftRight s).eval x = q.eval (x - s) := by
  unfold shiftRight shiftLeft
  split_ifs with h0
  · rw [show s = 0 by linarith, sub_zero]
  · simp only [eval, deriv]; ring

theorem shiftRight_deriv (q : Quad ℝ) (s x : ℝ) : (q.shiftRight s).deriv x = q.deriv (x - s) := by
  unfold shiftRight shiftLeft
  split_ifs with h0
  · rw [show s = 0 by linarith, sub_zero]
  · simp only [deriv]; ring

/-- What `CalculateShiftForUniqueIntersection` returns. -/
theorem uniqueIntersection_spec {start startD s endV endD e k typX : ℝ} (hk : k = 1 ∨ k = -1) (hs : 0 < s) (he : 0 < e)
    (hv : 0 ≤ k * (endV - start)) (hx : 0 < typX)
    (hw : (shiftQuad (inPiece start startD s k) (outPiece endV endD e k)).WellConditioned) :
    ∃ t u, uniqueIntersection (inPiece start startD s k) (outPiece endV endD e k) typX =
        some (if |u| < typX * (1 / 10000) then 0 else u, t) ∧
      u = touchX (inPiece start startD s k) (outPiece endV endD e k) t ∧
      (shiftQuad (inPiece start startD s k) (outPiece endV endD e k)).eval t = 0 ∧
      ∀ x, (shiftQuad (inPiece start startD s k) (outPiece endV endD e k)).eval x = 0 → x ≤ t := by
  obtain ⟨rs, t, h1, h2, h3, h4⟩ := greatest_root hw (shiftQuad_c2 hk hs he) (shiftQuad_disc hk hs he hv)
  refine ⟨t, _, ?_, rfl, h3, h4⟩
  have hp : ((inPiece start startD s k).sub (outPiece endV endD e k)).c2 ≠ 0 := by
    rcases hk with h | h <;> subst h <;> simp only [inPiece, outPiece, initOrigin, Quad.sub] <;> nlinarith
  simp only [uniqueIntersection, h1, h2, Option.bind_some, finishIntersection, if_neg hp]
  rw [if_pos]
  have hT := touch hk hs he h3 (touchX (inPiece start startD s k) (outPiece endV endD e k) t)
  set u := touchX (inPiece start startD s k) (outPiece endV endD e k) t
  have : (⟨((inPiece start startD s k).sub (outPiece endV endD e k)).c2,
      ((inPiece start startD s k).sub (outPiece endV endD e k)).c1 + 2 * (outPiece endV endD e k).c2 * t,
      ((inPiece start startD s k).sub (outPiece endV endD e k)).c0 - (outPiece endV endD e k).c2 * t * t +
        (outPiece endV endD e k).c1 * t⟩ : Quad ℝ).eval u = 0 := by
    simp only [Quad.sub, eval] at hT ⊢
    linear_combination hT
  rw [this, abs_zero]
  positivity

theorem curvature_spec {start startD endV typDelta : ℝ}
    (far : |endV - start| ≤ epsScale * typDelta → endV = start) :
    (curvature start startD endV typDelta = 1 ∨ curvature start startD endV typDelta = -1) ∧
      0 ≤ curvature start startD endV typDelta * (endV - start) := by
  unfold curvature
  split_ifs with h1 h2 h3
  · rw [far h1]; simp
  · rw [far h1]; simp
  · exact ⟨Or.inl rfl, by linarith⟩
  · exact ⟨Or.inr rfl, by linarith⟩

theorem single_spec {c : EaseCurve} {start startD endV s e typX : ℝ} (hs : 0 < s) (he : 0 < e)
    (h1 : c.inC = c.outC) (h2 : c.inter = c.total)
    (h3 : 0 ≤ c.total) (h4 : c.inC.eval 0 = start) (h5 : c.inC.deriv 0 = startD) (h6 : c.outC.eval c.total = endV)
    (hx : 0 < typX) : EaseSpec c start startD endV s e typX := by
  refine ⟨?_, ?_, ⟨by rw [h2]; exact h3, h2.le⟩, h6, fun _ => ?_, fun _ => by rw [h1]; simp, ?_, ?_⟩
  · simp [EaseCurve.eval, EaseCurve.curve, h2, h3, h4]
  · simp [EaseCurve.deriv, EaseCurve.curve, h2, h3, h5]
  · simp [EaseCurve.eval, EaseCurve.curve, h2, h1, h6]
  · rw [h1, sub_self, abs_zero]; positivity
  · rw [h1, sub_self, abs_zero]; positivity

/-- The two-piece construction, with the end velocity and the reason for falling back. -/
theorem twoPiece_spec {start startD s endV endD e k typX : ℝ} (hk : k = 1 ∨ k = -1) (hs : 0 < s) (he : 0 < e)
    (hv : 0 ≤ k * (endV - start)) (hx : 0 < typX)
    (hw : (shiftQuad (inPiece start startD s k) (outPiece endV endD e k)).WellConditioned)
    (hw' : (¬ ∃ u t, TwoPhase start startD s endV endD e k u t) →
      (flyOutEq start endV startD (max s e)).WellConditioned) :
    ∃ c, twoPiece start startD s endV endD e k typX = some c ∧ EaseSpec c start startD endV s e typX ∧
      ∀ u t, TwoPhase start startD s endV endD e k u t → c.outC.deriv c.total = endD := by
  obtain ⟨t, u, h1, h2, h3, h4⟩ := uniqueIntersection_spec (endD := endD) hk hs he hv hx hw
  simp only [twoPiece, h1, Option.bind_some]
  set i : ℝ := if |u| < typX * (1 / 10000) then 0 else u with hi
  have hiu : i - u = 0 ∨ i = 0 ∧ |i - u| < typX / 10000 := by
    by_cases h : |u| < typX * (1 / 10000)
    · rw [if_pos h] at hi
      right; rw [hi]; exact ⟨rfl, by simp only [zero_sub, abs_neg]; linarith⟩
    · rw [if_neg h] at hi
      left; rw [hi]; ring
  by_cases hfb : t < i ∨ i < 0
  · rw [if_pos hfb]
    suffices hno : ¬ ∃ u t, TwoPhase start startD s endV endD e k u t by
      obtain ⟨c, g1, g2, g3, g4, g5, g6, g7⟩ := flyOut_spec (lt_max_of_lt_left hs) (hw' hno)
      exact ⟨c, g1, single_spec hs he g2 g3 g4 g5 g6 g7 hx, fun u' t' hp => absurd ⟨u', t', hp⟩ hno⟩
    rintro ⟨u', t', hp⟩
    obtain ⟨q0, q1, q2, q3⟩ := (twoPhase_iff hk hs he).mp hp
    have hle : t' ≤ t := h4 t' q3
    rw [touchX_eq hk hs he] at h2 q2
    have hse : 0 < s + e := by linarith
    have e1 : u - u' = e / (s + e) * (t - t') := by rw [h2, q2]; field_simp; ring
    have hr0 : 0 ≤ e / (s + e) := by positivity
    have hr1 : e / (s + e) ≤ 1 := by rw [div_le_one hse]; linarith
    have hu : 0 ≤ u := by nlinarith [mul_nonneg hr0 (sub_nonneg.mpr hle)]
    have hut : u ≤ t := by nlinarith [mul_le_mul_of_nonneg_right hr1 (sub_nonneg.mpr hle)]
    rcases hiu with h | ⟨h, -⟩
    · rcases hfb with g | g <;> linarith
    · rcases hfb with g | g <;> linarith
  · rw [if_neg hfb]
    push Not at hfb
    refine ⟨_, rfl, ?_, fun _ _ _ => ?_⟩
    · have hval : ∀ x, (inPiece start startD s k).eval x - ((outPiece endV endD e k).shiftRight t).eval x =
          k * (s + e) / 2 * (x - u) ^ 2 := by
        intro x; rw [shiftRight_eval, touch hk hs he h3 x, h2]
      have hder : ∀ x, (inPiece start startD s k).deriv x - ((outPiece endV endD e k).shiftRight t).deriv x =
          k * (s + e) * (x - u) := by
        intro x; rw [shiftRight_deriv, touch_deriv hk hs he t x, h2]
      have hend : ((outPiece endV endD e k).shiftRight t).eval t = endV := by
        rw [shiftRight_eval, sub_self]; simp [outPiece, initOrigin, eval]
      have hkabs : |k| = 1 := by rcases hk with h | h <;> rw [h] <;> norm_num
      refine ⟨?_, ?_, ⟨hfb.2, hfb.1⟩, hend, fun ht0 => ?_, fun hne => ?_, ?_, ?_⟩
      · simp [EaseCurve.eval, EaseCurve.curve, hfb.2, inPiece, initOrigin, eval]
      · simp [EaseCurve.deriv, EaseCurve.curve, hfb.2, inPiece, initOrigin, deriv]
      · simp only [EaseCurve.eval, EaseCurve.curve] at ht0 ⊢
        by_cases hti : t ≤ i
        · rw [if_pos hti]
          have : i = t := le_antisymm hfb.1 hti
          have hiu0 : i - u = 0 := hiu.resolve_right fun h => by linarith [h.1]
          have := hval t
          rw [show t - u = 0 by linarith] at this
          linarith
        · rw [if_neg hti]; exact hend
      · have hiu0 : i - u = 0 := hiu.resolve_right fun h => hne h.1
        have a1 := hval i
        have a2 := hder i
        rw [hiu0] at a1 a2
        exact ⟨by simp only; linarith, by simp only; linarith⟩
      · simp only
        rw [hval i, abs_mul, abs_div, abs_mul, hkabs, one_mul, abs_of_pos (by linarith : 0 < s + e),
          abs_of_pos (by norm_num : (0 : ℝ) < 2), abs_of_nonneg (sq_nonneg _)]
        refine mul_le_mul_of_nonneg_left ?_ (by linarith)
        rw [← sq_abs]
        refine pow_le_pow_left₀ (abs_nonneg _) ?_ 2
        rcases hiu with h | ⟨-, h⟩
        · rw [h, abs_zero]; positivity
        · exact h.le
      · simp only
        rw [hder i, abs_mul, abs_mul, hkabs, one_mul, abs_of_pos (by linarith : 0 < s + e)]
        refine mul_le_mul_of_nonneg_left ?_ (by linarith)
        rcases hiu with h | ⟨-, h⟩
        · rw [h, abs_zero]; positivity
        · exact h.le
    · simp only [shiftRight_deriv, sub_self]
      simp [outPiece, initOrigin, deriv]

end Ease

open Ease

/-! ### Property theorems -/

/-- C36 (main case): for all start and end states and all finite accelerations the generated curve exists (no assert
fires), starts at the start value and velocity, has its pieces meet with equal value and velocity, and ends at the end
value. It also ends at the end velocity (up to the code's comparison tolerance) whenever some two-phase motion with
these accelerations does; when none does the code deliberately gives up the end velocity.

Partial: the quadratics handed to the root finder must be clear of its tolerance bands (`WellConditioned`, see C30; the
second one is only looked at when no two-phase motion exists), and
start and end values that compare equal must be equal. A junction that the code snaps to `x = 0` may have the tiny steps
bounded in `EaseSpec`. -/
theorem C36_ease_partial (start startD s endV endD e typDelta typX : ℝ) (hs : 0 < s) (he : 0 < e) (hd : 0 < typDelta)
    (hx : 0 < typX) (far : |endV - start| ≤ epsScale * typDelta → endV = start)
    (hw : (shiftQuad (inPiece start startD s (curvature start startD endV typDelta))
      (outPiece endV endD e (curvature start startD endV typDelta))).WellConditioned)
    (hw' : (¬ ∃ u t, TwoPhase start startD s endV endD e (curvature start startD endV typDelta) u t) →
      (flyOutEq start endV startD (max s e)).WellConditioned) :
    ∃ c, calculate start startD s endV endD e typDelta typX = some c ∧ EaseSpec c start startD endV s e typX ∧
      ∀ u t, TwoPhase start startD s endV endD e (curvature start startD endV typDelta) u t →
        |c.outC.deriv c.total - endD| ≤ epsScale * (typDelta / typX) := by
  have hpos : (0 : WithTop ℝ) < (s : WithTop ℝ) ∧ (0 : WithTop ℝ) < (e : WithTop ℝ) ∧ 0 < typDelta ∧ 0 < typX :=
    ⟨by exact_mod_cast hs, by exact_mod_cast he, hd, hx⟩
  unfold calculate
  rw [if_neg (not_not.mpr hpos)]
  by_cases hc : |endV - start| ≤ epsScale * typDelta ∧ |endD - startD| ≤ epsScale * (typDelta / typX)
  · rw [if_pos hc]
    refine ⟨_, rfl, single_spec hs he rfl rfl (by simp [EaseCurve.single]) ?_ ?_ ?_ hx, fun _ _ _ => ?_⟩
    · simp [EaseCurve.single, initOrigin, eval]
    · simp [EaseCurve.single, initOrigin, deriv]
    · simp [EaseCurve.single, initOrigin, eval, far hc.1]
    · simp only [EaseCurve.single, initOrigin, deriv]
      rw [mul_zero, zero_add, abs_sub_comm]; exact hc.2
  · rw [if_neg hc]
    obtain ⟨hk, hv⟩ := curvature_spec (startD := startD) far
    obtain ⟨c, h1, h2, h3⟩ := twoPiece_spec (endD := endD) hk hs he hv hx hw hw'
    refine ⟨c, h1, h2, fun u t h => ?_⟩
    rw [h3 u t h, sub_self, abs_zero]
    unfold epsScale
    positivity

/-- C36, bias 1 (no ease-out: the end acceleration is infinite): the curve starts at the start value and velocity and
ends at the end value. Partial for the same reason as `C36_ease_partial`. -/
theorem C36_fly_out_partial (start startD s endV endD typDelta typX : ℝ) (hs : 0 < s) (hd : 0 < typDelta)
    (hx : 0 < typX) (far : |endV - start| ≤ epsScale * typDelta → endV = start)
    (hw : (flyOutEq start endV startD s).WellConditioned) :
    ∃ c, calculate start startD s endV endD ⊤ typDelta typX = some c ∧
      EaseSpec c start startD endV s s typX := by
  have hpos : (0 : WithTop ℝ) < (s : WithTop ℝ) ∧ (0 : WithTop ℝ) < ⊤ ∧ 0 < typDelta ∧ 0 < typX :=
    ⟨by exact_mod_cast hs, by exact_mod_cast WithTop.coe_lt_top (0 : ℝ), hd, hx⟩
  unfold calculate
  rw [if_neg (not_not.mpr hpos)]
  by_cases hc : |endV - start| ≤ epsScale * typDelta ∧ |endD - startD| ≤ epsScale * (typDelta / typX)
  · rw [if_pos hc]
    refine ⟨_, rfl, single_spec hs hs rfl rfl (by simp [EaseCurve.single]) ?_ ?_ ?_ hx⟩
    · simp [EaseCurve.single, initOrigin, eval]
    · simp [EaseCurve.single, initOrigin, deriv]
    · simp [EaseCurve.single, initOrigin, eval, far hc.1]
  · rw [if_neg hc]
    obtain ⟨c, g1, g2, g3, g4, g5, g6, g7⟩ := flyOut_spec hs hw
    exact ⟨c, g1, single_spec hs hs g2 g3 g4 g5 g6 g7 hx⟩

/-- C36, bias 0 (no ease-in: the start acceleration is infinite): the curve starts at the start value and ends at the
end value with the end velocity; the start velocity is given up. Partial for the same reason as `C36_ease_partial`. -/
theorem C36_fly_in_partial (start startD endV endD e typDelta typX : ℝ) (he : 0 < e) (hd : 0 < typDelta)
    (hx : 0 < typX) (far : |endV - start| ≤ epsScale * typDelta → endV = start)
    (hw : (flyInEq start endV endD e).WellConditioned) :
    ∃ c, calculate start startD ⊤ endV endD e typDelta typX = some c ∧ 0 ≤ c.total ∧
      c.eval 0 = start ∧ c.eval c.total = endV ∧ |c.deriv c.total - endD| ≤ epsScale * (typDelta / typX) := by
  have hpos : (0 : WithTop ℝ) < ⊤ ∧ (0 : WithTop ℝ) < (e : WithTop ℝ) ∧ 0 < typDelta ∧ 0 < typX :=
    ⟨by exact_mod_cast WithTop.coe_lt_top (0 : ℝ), by exact_mod_cast he, hd, hx⟩
  unfold calculate
  rw [if_neg (not_not.mpr hpos)]
  by_cases hc : |endV - start| ≤ epsScale * typDelta ∧ |endD - startD| ≤ epsScale * (typDelta / typX)
  · rw [if_pos hc]
    refine ⟨_, rfl, le_refl _, ?_, ?_, ?_⟩
    · simp [EaseCurve.eval, EaseCurve.curve, EaseCurve.single, initOrigin, eval]
    · simp [EaseCurve.eval, EaseCurve.curve, EaseCurve.single, initOrigin, eval, far hc.1]
    · simp only [EaseCurve.deriv, EaseCurve.curve, EaseCurve.single, initOrigin, deriv, le_refl, if_true]
      rw [mul_zero, zero_add, abs_sub_comm]; exact hc.2
  · rw [if_neg hc]
    obtain ⟨c, g1, g2, g3, g4, g5, g6, g7⟩ := flyIn_spec he hw
    refine ⟨c, g1, g4, ?_, ?_, ?_⟩
    · simp [EaseCurve.eval, EaseCurve.curve, g3, g4, g5]
    · simp [EaseCurve.eval, EaseCurve.curve, g3, g2, g6]
    · simp only [EaseCurve.deriv, EaseCurve.curve, g3, g2, le_refl, if_true]
      rw [g7, sub_self, abs_zero]
      unfold epsScale
      positivity

/-- C36, calibration of the shape: for every bias strictly between 0 and 1, a motion from rest to rest over exactly the
typical distance, up or down, takes exactly the typical time and changes from speeding up to slowing down at the fraction
`bias` of it. The junction must not be within the 0.01% of the start that the code snaps to zero, and the sizes must be
such that the squares do not leave the range of floats (`hsize`). -/
theorem C36_typical (start endV typDelta typX bias : ℝ) (hb : 1 / 10000 ≤ bias) (hb1 : bias < 1)
    (hd : 0 < typDelta) (hx : 0 < typX) (hdist : |endV - start| = typDelta)
    (hsize : (2 : ℝ) ^ (-60 : Int) ≤ 4 * typDelta ^ 2 / (bias * (1 - bias) * typX ^ 4) ∧
      4 * typDelta ^ 2 / (bias * (1 - bias) * typX ^ 4) ≤ 2 ^ (60 : Int) ∧
      (2 : ℝ) ^ (-60 : Int) ≤ 4 * typDelta ^ 2 / (bias * (1 - bias) * typX ^ 2) ∧
      4 * typDelta ^ 2 / (bias * (1 - bias) * typX ^ 2) ≤ 2 ^ (60 : Int)) :
    ∃ s e c, typicalSecond typDelta typX bias = some (s, e) ∧ calculate start 0 s endV 0 e typDelta typX = some c ∧
      c.total = typX ∧ c.inter = bias * typX ∧ c.eval 0 = start ∧ c.eval typX = endV ∧ c.deriv 0 = 0 ∧
      c.deriv typX = 0 := by
  have hb0 : 0 < bias := by linarith
  have hts : typicalSecond typDelta typX bias =
      some (((2 * typDelta / (bias * (typX * typX)) : ℝ) : WithTop ℝ),
        ((2 * typDelta / ((1 - bias) * (typX * typX)) : ℝ) : WithTop ℝ)) := by
    unfold typicalSecond
    rw [if_neg (by push Not; exact ⟨hb0.le, hb1.le, hx, hd⟩)]
    by_cases h : 1 / 2 ≤ bias
    · simp only [if_pos h, if_neg hb1.ne]
    · have : 1 - bias ≠ 1 := by linarith
      simp only [if_neg h, if_neg this, sub_sub_cancel]
  refine ⟨((2 * typDelta / (bias * (typX * typX)) : ℝ) : WithTop ℝ),
    ((2 * typDelta / ((1 - bias) * (typX * typX)) : ℝ) : WithTop ℝ), ?_⟩
  set s := 2 * typDelta / (bias * (typX * typX)) with hsd
  set e := 2 * typDelta / ((1 - bias) * (typX * typX)) with hed
  have h1b : 0 < 1 - bias := by linarith
  have hs : 0 < s := by positivity
  have he : 0 < e := by positivity
  have hnot : ¬ |endV - start| ≤ epsScale * typDelta := by
    rw [hdist, not_le]; unfold epsScale; linarith
  obtain ⟨hk, hv⟩ := curvature_spec (start := start) (startD := 0) (endV := endV) (typDelta := typDelta)
    (fun h => absurd h hnot)
  set k := curvature start 0 endV typDelta with hkd
  have hkv : k * (endV - start) = typDelta := by
    rw [← hdist]
    rcases hk with h | h
    · rw [h] at hv ⊢; rw [one_mul] at hv ⊢; exact (abs_of_nonneg hv).symm
    · rw [h] at hv ⊢
      rw [show |endV - start| = -(endV - start) from abs_of_nonpos (by linarith)]; ring
  have hq : shiftQuad (inPiece start 0 s k) (outPiece endV 0 e k) = ⟨-(s * e), 0, 2 * (s + e) * typDelta⟩ := by
    rw [← hkv]
    rcases hk with h | h <;> rw [h] <;>
      simp only [shiftQuad, inPiece, outPiece, initOrigin, Quad.sub, mk.injEq] <;>
      refine ⟨by ring, by ring, by ring⟩
  have hw1 : (shiftQuad (inPiece start 0 s k) (outPiece endV 0 e k)).WellConditioned := by
    rw [hq]
    have a2 : |(-(s * e))| = 4 * typDelta ^ 2 / (bias * (1 - bias) * typX ^ 4) := by
      rw [abs_neg, abs_of_pos (by positivity), hsd, hed]; field_simp; ring
    have a0 : |2 * (s + e) * typDelta| = 4 * typDelta ^ 2 / (bias * (1 - bias) * typX ^ 2) := by
      rw [abs_of_pos (by positivity), hsd, hed]; field_simp; ring
    exact wellConditioned_pure rfl (by rw [a2]; exact hsize.1) (by rw [a2]; exact hsize.2.1)
      (by rw [a0]; exact hsize.2.2.1) (by rw [a0]; exact hsize.2.2.2)
  obtain ⟨t, u, h1, h2, h3, h4⟩ := uniqueIntersection_spec (endD := 0) hk hs he hv hx hw1
  have hroot : ∀ x, (shiftQuad (inPiece start 0 s k) (outPiece endV 0 e k)).eval x =
      (-(s * e)) * x ^ 2 + 2 * (s + e) * typDelta := by
    intro x
    rw [hq]; simp only [eval]; ring
  have hse : (s + e) * typDelta * 2 = s * e * typX ^ 2 := by
    rw [hsd, hed]; field_simp; ring
  have htx : (shiftQuad (inPiece start 0 s k) (outPiece endV 0 e k)).eval typX = 0 := by
    rw [hroot]; linear_combination hse
  have ht : t = typX := by
    have hle := h4 typX htx
    rw [hroot] at h3
    have h5 : s * e * (t ^ 2 - typX ^ 2) = 0 := by linear_combination -h3 + hse
    have h6 : t ^ 2 - typX ^ 2 = 0 := (mul_eq_zero.mp h5).resolve_left (by positivity)
    have h7 : (t - typX) * (t + typX) = 0 := by linear_combination h6
    rcases mul_eq_zero.mp h7 with h | h <;> linarith
  have hu : u = bias * typX := by
    rw [h2, touchX_eq hk hs he, ht, hsd, hed]; field_simp; ring
  have hub : ¬ |u| < typX * (1 / 10000) := by
    rw [hu, abs_of_pos (by positivity), not_lt]; nlinarith
  rw [if_neg hub, ht, hu] at h1
  have hlt : bias * typX < typX := by nlinarith
  have hnn : 0 ≤ bias * typX := by positivity
  refine ⟨⟨inPiece start 0 s k, (outPiece endV 0 e k).shiftRight typX, bias * typX, typX⟩, hts, ?_, rfl, rfl, ?_, ?_,
    ?_, ?_⟩
  · unfold calculate
    rw [if_neg (not_not.mpr ⟨by exact_mod_cast hs, by exact_mod_cast he, hd, hx⟩), if_neg (fun h => hnot h.1)]
    simp only [twoPiece]
    change (uniqueIntersection (inPiece start 0 s k) (outPiece endV 0 e k) typX).bind _ = _
    rw [h1]
    simp only [Option.bind_some]
    rw [if_neg]
    push Not
    exact ⟨hlt.le, hnn⟩
  · simp [EaseCurve.eval, EaseCurve.curve, hnn, inPiece, initOrigin, eval]
  · simp only [EaseCurve.eval, EaseCurve.curve, if_neg (not_le.mpr hlt), shiftRight_eval]
    simp [outPiece, initOrigin, eval]
  · simp [EaseCurve.deriv, EaseCurve.curve, hnn, inPiece, initOrigin, deriv]
  · simp only [EaseCurve.deriv, EaseCurve.curve, if_neg (not_le.mpr hlt), shiftRight_deriv]
    simp [outPiece, initOrigin, deriv]

/-- C36, coming to rest: when the start value already is the end value but the start velocity `v` is not zero and the end
velocity is (this is the curve the processor makes on arriving at a target with velocity), the curve overshoots, turns
around and comes back to rest at the value.  It brakes first, and with `r = sqrt (e / (s + e))` it takes
`|v| * (1 + r) / s + |v| * r / e`.  Evaluated past its end it leaves the value again.  The shift quadratic, here `-s e x² + 2 e |v| x + v²`, must be clear of the tolerance
band of the root finder. -/
theorem C36_settle_partial (value v s e typDelta typX : ℝ) (hs : 0 < s) (he : 0 < e) (hd : 0 < typDelta) (hx : 0 < typX)
    (hv : epsScale * (typDelta / typX) < |v|) (hw : (Quad.mk (-(s * e)) (2 * e * |v|) (v ^ 2) : Quad ℝ).WellConditioned) :
    ∃ c, calculate value v s value 0 e typDelta typX = some c ∧
      c.eval 0 = value ∧ c.deriv 0 = v ∧ c.inC.c2 * v < 0 ∧
      c.total = |v| * (1 + √(e / (s + e))) / s + |v| * √(e / (s + e)) / e ∧ 0 < c.total ∧
      c.eval c.total = value ∧ c.deriv c.total = 0 ∧
      ∀ y, 0 ≤ y → |c.eval (c.total + y) - value| = e * y ^ 2 / 2 := by
  have hv0 : 0 < |v| := lt_trans (by unfold epsScale; positivity) hv
  have hvne : v ≠ 0 := abs_pos.mp hv0
  have hpos : (0 : WithTop ℝ) < (s : WithTop ℝ) ∧ (0 : WithTop ℝ) < (e : WithTop ℝ) ∧ 0 < typDelta ∧ 0 < typX :=
    ⟨by exact_mod_cast hs, by exact_mod_cast he, hd, hx⟩
  set k := curvature value v value typDelta with hkd
  have hk' : k = (if v < 0 then 1 else -1) := by
    rw [hkd]; unfold curvature
    rw [if_pos (by rw [sub_self, abs_zero]; unfold epsScale; positivity)]
  have hk : k = 1 ∨ k = -1 := by rw [hk']; split_ifs <;> simp
  have hkv : k * v = -|v| := by
    rw [hk']; split_ifs with h
    · rw [abs_of_neg h]; ring
    · rw [abs_of_nonneg (not_lt.mp h)]; ring
  have hkk : k * k = 1 := by rcases hk with h | h <;> rw [h] <;> norm_num
  have hq : shiftQuad (inPiece value v s k) (outPiece value 0 e k) = ⟨-(s * e), 2 * e * |v|, v ^ 2⟩ := by
    simp only [shiftQuad, inPiece, outPiece, initOrigin, Quad.sub, mk.injEq]
    refine ⟨by linear_combination -(s * e) * hkk, by linear_combination (-2) * e * hkv, by ring⟩
  obtain ⟨t, u, h1, h2, h3, h4⟩ := uniqueIntersection_spec (startD := v) (start := value) (endV := value) (endD := 0) hk hs he
    (by rw [sub_self, mul_zero]) hx (by rw [hq]; exact hw)
  rw [touchX_eq hk hs he, zero_sub, mul_neg, hkv, neg_neg] at h2
  have hse : 0 < s + e := by linarith
  set r := √(e / (s + e)) with hr
  have hr0 : 0 < r := Real.sqrt_pos.mpr (by positivity)
  have hr2 : r * r * (s + e) = e := by
    rw [hr, Real.mul_self_sqrt (by positivity)]; field_simp
  have hroot : ∀ x, (shiftQuad (inPiece value v s k) (outPiece value 0 e k)).eval x =
      -(s * e) * x ^ 2 + 2 * e * |v| * x + |v| ^ 2 := by
    intro x; rw [hq]; simp only [eval, sq_abs]; ring
  have ht : t = |v| * (1 + r) / s + |v| * r / e := by
    set T := |v| * (1 + r) / s + |v| * r / e with hT
    have hT0 : 0 < T := by positivity
    have e1 : s * e * T = |v| * (e + r * (s + e)) := by rw [hT]; field_simp; ring
    have hz : -(s * e) * T ^ 2 + 2 * e * |v| * T + |v| ^ 2 = 0 := by
      have : s * e * (-(s * e) * T ^ 2 + 2 * e * |v| * T + |v| ^ 2) = 0 := by
        have : s * e * (-(s * e) * T ^ 2 + 2 * e * |v| * T + |v| ^ 2) =
          -(s * e * T) ^ 2 + 2 * e * |v| * (s * e * T) + s * e * |v| ^ 2 := by ring
        rw [this, e1]
        linear_combination (-|v| ^ 2 * (s + e)) * hr2
      exact (mul_eq_zero.mp this).resolve_left (by positivity)
    have hle : T ≤ t := h4 T (by rw [hroot]; exact hz)
    rw [hroot] at h3
    have h5 : (t - T) * (2 * e * |v| - s * e * (t + T)) = 0 := by linear_combination h3 - hz
    rcases mul_eq_zero.mp h5 with h | h
    · linarith
    · exfalso
      have : s * e * T = 2 * e * |v| - s * e * t := by linarith
      have h6 : s * e * T ≤ s * e * t := mul_le_mul_of_nonneg_left hle (by positivity)
      have h7 : |v| * (r * (s + e)) ≤ 0 := by nlinarith
      have : 0 < |v| * (r * (s + e)) := by positivity
      linarith
  have hu : u = |v| * (1 + r) / s := by
    rw [h2, ht]; field_simp; nlinarith
  have hu0 : 0 < u := by rw [hu]; positivity
  have hut : u < t := by rw [hu, ht]; have : 0 < |v| * r / e := by positivity
                         linarith
  have ht0 : 0 < t := hu0.trans hut
  set i : ℝ := if |u| < typX * (1 / 10000) then 0 else u with hi
  have hi0 : 0 ≤ i := by rw [hi]; split_ifs <;> linarith
  have hit : i < t := by rw [hi]; split_ifs <;> linarith
  refine ⟨⟨inPiece value v s k, (outPiece value 0 e k).shiftRight t, i, t⟩, ?_, ?_, ?_, ?_, ht, ht0, ?_, ?_, ?_⟩
  · unfold calculate
    rw [if_neg (not_not.mpr hpos), if_neg (fun h => by
      have := h.2; rw [zero_sub, abs_neg] at this; linarith)]
    simp only [twoPiece]
    change (uniqueIntersection (inPiece value v s k) (outPiece value 0 e k) typX).bind _ = _
    rw [h1]
    simp only [Option.bind_some]
    rw [if_neg (by push Not; exact ⟨hit.le, hi0⟩)]
  · simp [EaseCurve.eval, EaseCurve.curve, hi0, inPiece, initOrigin, eval]
  · simp [EaseCurve.deriv, EaseCurve.curve, hi0, inPiece, initOrigin, deriv]
  · simp only [inPiece, initOrigin]
    have : k * s / 2 * v = -(s * |v|) / 2 := by linear_combination s / 2 * hkv
    have h8 : 0 < s * |v| := by positivity
    nlinarith
  · simp only [EaseCurve.eval, EaseCurve.curve, if_neg (not_le.mpr hit), shiftRight_eval]
    simp [outPiece, initOrigin, eval]
  · simp only [EaseCurve.deriv, EaseCurve.curve, if_neg (not_le.mpr hit), shiftRight_deriv]
    simp [outPiece, initOrigin, deriv]
  · intro y hy
    simp only [EaseCurve.eval, EaseCurve.curve, if_neg (not_le.mpr (by linarith : i < t + y)), shiftRight_eval]
    have : (outPiece value 0 e k).eval (t + y - t) - value = k * (-(e * y ^ 2 / 2)) := by
      simp only [outPiece, initOrigin, eval]; ring
    rw [this, abs_mul, show |k| = 1 by rcases hk with h | h <;> rw [h] <;> norm_num, one_mul, abs_neg,
      abs_of_nonneg (by positivity)]

/-- C36, disagreement. A target a hair above the current value (closer than `2^-22` of the typical distance) while not
moving down is treated as equal to it, and the curve is then made to bend down first. If both velocities are small no such
curve meets the target and the assert on the result of `CalculateShiftForUniqueIntersection` fails. -/
theorem C36_close_target_fails {start startD s endV endD e typDelta typX : ℝ} (hs : 0 < s) (he : 0 < e)
    (hc : |endV - start| ≤ epsScale * typDelta) (hdiff : epsScale * (typDelta / typX) < |endD - startD|)
    (hup : 0 ≤ startD) (hslow : s * endD ^ 2 + e * startD ^ 2 < 2 * (s * e) * (endV - start))
    (hw : (shiftQuad (inPiece start startD s (-1)) (outPiece endV endD e (-1))).WellConditioned) :
    calculate start startD s endV endD e typDelta typX = none := by
  unfold calculate
  split_ifs with h1 h2
  · exact absurd h2.2 (not_le.mpr hdiff)
  · have hk : curvature start startD endV typDelta = -1 := by
      unfold curvature; rw [if_pos hc, if_neg (not_lt.mpr hup)]
    change twoPiece start startD s endV endD e (curvature start startD endV typDelta) typX = none
    rw [hk]
    unfold twoPiece uniqueIntersection
    obtain ⟨rs, hr, -, hm⟩ := C30_roots_partial hw
    have hrs : rs = [] := by
      by_contra hne
      obtain ⟨x, hx⟩ := List.exists_mem_of_ne_nil rs hne
      have h0 := (hm x).mp hx
      have h4 := four_c2_eval (shiftQuad (inPiece start startD s (-1)) (outPiece endV endD e (-1))) x
      rw [h0, mul_zero] at h4
      have hd : (shiftQuad (inPiece start startD s (-1)) (outPiece endV endD e (-1))).discriminant =
          (s + e) * (4 * (s * endD ^ 2 + e * startD ^ 2) - 8 * (s * e) * (endV - start)) := by
        simp only [discriminant, shiftQuad, inPiece, outPiece, initOrigin, Quad.sub]; ring
      have : (s + e) * (4 * (s * endD ^ 2 + e * startD ^ 2) - 8 * (s * e) * (endV - start)) < 0 :=
        mul_neg_of_pos_of_neg (by linarith) (by linarith)
      nlinarith [sq_nonneg (2 * (shiftQuad (inPiece start startD s (-1)) (outPiece endV endD e (-1))).c2 * x +
        (shiftQuad (inPiece start startD s (-1)) (outPiece endV endD e (-1))).c1)]
    rw [hr, hrs]; rfl
  · rfl

/-- The hypotheses of `C36_close_target_fails` with the shape of typical distance 1, time 1 and bias 1/2 (whose
accelerations are both 4): at 0 moving at `2^-22`, to `2^-22` with velocity `-2^-22`. -/
theorem C36_close_target_fails_witness : typicalSecond 1 1 (1 / 2) = some (((4 : ℝ) : WithTop ℝ), ((4 : ℝ) : WithTop ℝ)) ∧
    calculate 0 (1 / 4194304) ((4 : ℝ) : WithTop ℝ) (1 / 4194304) (-1 / 4194304) ((4 : ℝ) : WithTop ℝ) 1 1 = none := by
  constructor
  · unfold typicalSecond; norm_num
  · refine C36_close_target_fails (by norm_num) (by norm_num) ?_ ?_ (by norm_num) (by norm_num) ?_
    · unfold epsScale; norm_num [abs_of_pos]
    · unfold epsScale; norm_num [abs_of_neg]
    · have : shiftQuad (inPiece 0 (1 / 4194304) 4 (-1)) (outPiece (1 / 4194304) (-1 / 4194304) 4 (-1)) =
          ⟨-16, 0, 4 * (1 / 4194304) ^ 2 - 16 / 4194304⟩ := by
        simp only [shiftQuad, inPiece, outPiece, initOrigin, Quad.sub]; norm_num
      rw [this]
      exact wellConditioned_pure rfl (by norm_num) (by norm_num) (by norm_num [abs_of_neg]) (by norm_num [abs_of_neg])

/-! ### Concrete cases -/

/-- From rest at 0 to rest at 1/4 with unit accelerations meets the hypotheses of `C36_ease_partial`. -/
example : ∃ c, calculate 0 0 ((1 : ℝ) : WithTop ℝ) (1 / 4) 0 ((1 : ℝ) : WithTop ℝ) (1 / 4) 1 = some c ∧
    EaseSpec c 0 0 (1 / 4) 1 1 1 ∧
    ∀ u t, TwoPhase 0 0 1 (1 / 4) 0 1 (curvature 0 0 (1 / 4) (1 / 4)) u t →
      |c.outC.deriv c.total - 0| ≤ epsScale * (1 / 4 / 1) := by
  have hc : curvature 0 0 (1 / 4) (1 / 4) = 1 := by
    unfold curvature epsScale; norm_num
  refine C36_ease_partial 0 0 1 (1 / 4) 0 1 (1 / 4) 1 (by norm_num) (by norm_num) (by norm_num) (by norm_num) ?_ ?_ ?_
  · intro h; unfold epsScale at h; norm_num at h
  · rw [hc]
    have : shiftQuad (inPiece 0 0 1 1) (outPiece (1 / 4) 0 1 1) = ⟨-1, 0, 1⟩ := by
      simp only [shiftQuad, inPiece, outPiece, initOrigin, Quad.sub]; norm_num
    rw [this]
    exact wellConditioned_pure rfl (by norm_num) (by norm_num) (by norm_num) (by norm_num)
  · have : flyOutEq 0 (1 / 4) 0 (max 1 1) = ⟨1 / 2, 0, -1 / 4⟩ := by
      simp only [flyOutEq]; norm_num
    rw [this]
    exact fun _ => wellConditioned_pure rfl (by norm_num [abs_of_pos]) (by norm_num [abs_of_pos]) (by norm_num [abs_of_neg])
      (by norm_num [abs_of_neg])

/-- Its two-phase motion: half the time speeding up, half slowing down. -/
example : TwoPhase 0 0 1 (1 / 4) 0 1 1 (1 / 2) 1 := by unfold TwoPhase; norm_num

/-- A typical curve meets the hypotheses of `C36_typical`. -/
example : ∃ s e c, typicalSecond (1 / 4) 1 (1 / 2) = some (s, e) ∧ calculate 0 0 s (1 / 4) 0 e (1 / 4) 1 = some c ∧
    c.total = 1 ∧ c.inter = 1 / 2 * 1 ∧ c.eval 0 = 0 ∧ c.eval 1 = 1 / 4 ∧ c.deriv 0 = 0 ∧ c.deriv 1 = 0 :=
  C36_typical 0 (1 / 4) (1 / 4) 1 (1 / 2) (by norm_num) (by norm_num) (by norm_num) (by norm_num)
    (by norm_num [abs_of_pos]) ⟨by norm_num, by norm_num, by norm_num, by norm_num⟩

/-- Fly-out and fly-in from rest. -/
example : ∃ c, calculate 0 0 ((1 : ℝ) : WithTop ℝ) (1 / 2) 0 ⊤ 1 1 = some c ∧ EaseSpec c 0 0 (1 / 2) 1 1 1 := by
  refine C36_fly_out_partial 0 0 1 (1 / 2) 0 1 1 (by norm_num) (by norm_num) (by norm_num) ?_ ?_
  · intro h; unfold epsScale at h; norm_num [abs_of_pos] at h
  · have : flyOutEq 0 (1 / 2) 0 1 = ⟨1 / 2, 0, -1 / 2⟩ := by simp only [flyOutEq]; norm_num
    rw [this]
    exact wellConditioned_pure rfl (by norm_num [abs_of_pos]) (by norm_num [abs_of_pos]) (by norm_num [abs_of_neg])
      (by norm_num [abs_of_neg])

example : (flyInEq 0 (1 / 2) 0 1).WellConditioned := by
  have : flyInEq 0 (1 / 2) 0 1 = ⟨-1 / 2, 0, 1 / 2⟩ := by simp only [flyInEq]; norm_num
  rw [this]
  exact wellConditioned_pure rfl (by norm_num [abs_of_neg]) (by norm_num [abs_of_neg]) (by norm_num [abs_of_pos])
    (by norm_num [abs_of_pos])

end

end Motive.Curve
