import Verif.Util.KeyframesSpline
/-!
# C50: converted keyframes are followed
-/

namespace Motive.Util

open Motive.Math Motive.Curve Motive.Splines Motive.Splines.Spline Motive.Matrix4

noncomputable section

/-! ### Specification: a spline follows keyframes at times `t` with values `v` -/

/-- `y` is `v`, rounded down by at most 1/65535 of the range of the values. -/
def Rounded (s : Spline) (y v : ℝ) : Prop := y ≤ v ∧ v - y ≤ s.yRange.length / 65535

/-- Near the time of every keyframe, at most half a grain away, the spline has the value of the keyframe. -/
def Attained (s : Spline) (n : ℕ) (t v : ℕ → ℝ) : Prop :=
  ∀ k < n, ∃ x y, |x - t k| ≤ s.g / 2 ∧ s.calculate x .value = some y ∧ Rounded s y (v k)

/-- Before the first keyframe and after the last one the spline keeps the value. -/
def HeldOutside (s : Spline) (n : ℕ) (t v : ℕ → ℝ) : Prop :=
  (∃ y, Rounded s y (v 0) ∧ ∀ x, 0 ≤ x → x < t 0 - s.g → s.calculate x .value = some y) ∧
  ∃ y, Rounded s y (v (n - 1)) ∧ ∀ x, t (n - 1) + s.g ≤ x → x / s.g + 1 / 2 < 2147483648 → s.calculate x .value = some y

/-- Linear interpolation: between two keyframes the spline is near the line through the rounded keyframes. The distance comes from
the rounding of the slope only. -/
def LinearBetween (s : Spline) (n : ℕ) (t v : ℕ → ℝ) : Prop :=
  ∀ k, k + 1 < n → ∃ x0 x1 y0 y1 m, |x0 - t k| ≤ s.g / 2 ∧ |x1 - t (k + 1)| ≤ s.g / 2 ∧ Rounded s y0 (v k) ∧ Rounded s y1 (v (k + 1)) ∧
    |Real.arctan m - Real.arctan ((v (k + 1) - v k) / (t (k + 1) - t k))| < angleScale ∧
    ∀ x, t k + s.g ≤ x → x < t (k + 1) - s.g → ∃ y, s.calculate x .value = some y ∧
      |y - (y0 + (y1 - y0) * ((x - x0) / (x1 - x0)))| ≤ |(x1 - x0) * m - (y1 - y0)| / 10

/-- Step interpolation: between two keyframes the spline has the value of the earlier one. -/
def StepBetween (s : Spline) (n : ℕ) (t v : ℕ → ℝ) : Prop :=
  ∀ k, k + 1 < n → ∃ y, Rounded s y (v k) ∧ ∀ x, t k + s.g ≤ x → x < t (k + 1) - s.g → s.calculate x .value = some y

/-- Cubic interpolation: between two keyframes the spline is the Hermite cubic through the rounded keyframes, with the rounded
derivatives (`left` and `right` are the derivatives in each keyframe). -/
def CubicBetween (s : Spline) (n : ℕ) (t v left right : ℕ → ℝ) : Prop :=
  ∀ k, k + 1 < n → ∃ x0 x1 y0 y1 m0 m1, |x0 - t k| ≤ s.g / 2 ∧ |x1 - t (k + 1)| ≤ s.g / 2 ∧ Rounded s y0 (v k) ∧ Rounded s y1 (v (k + 1)) ∧
    |Real.arctan m0 - Real.arctan (right k)| < angleScale ∧ |Real.arctan m1 - Real.arctan (left (k + 1))| < angleScale ∧
    ∀ x, t k + s.g ≤ x → x < t (k + 1) - s.g →
      let w := x1 - x0
      let u := (x - x0) / w
      s.calculate x .value = some ((2 * u ^ 3 - 3 * u ^ 2 + 1) * y0 + (u ^ 3 - 2 * u ^ 2 + u) * (w * m0) + (-2 * u ^ 3 + 3 * u ^ 2) * y1 +
        (u ^ 3 - u ^ 2) * (w * m1))

/-- The spline follows the keyframes. Derivatives are only used for cubic interpolation. -/
structure Follows (i : Interpolation) (s : Spline) (n : ℕ) (t v left right : ℕ → ℝ) : Prop where
  grain : s.g = if t (n - 1) ≤ 0 then 1 else t (n - 1) / 65535
  range : ∃ j k, j < n ∧ k < n ∧ s.yRange.length = v k - v j
  outside : HeldOutside s n t v
  between : match i with
    | .linear => Attained s n t v ∧ LinearBetween s n t v
    | .step => StepBetween s n t v
    | .cubic => Attained s n t v ∧ CubicBetween s n t v left right

/-! ### Proofs -/

section follow
variable {n : ℕ} {t v : ℕ → ℝ} {a b : ℕ → Uncompressed} {s : Spline} {qa qb : ℕ → Node}

theorem Near.rounded {q : Node} {u : Uncompressed} (h : Near s q u) : Rounded s (q.Y s.yRange) u.y := ⟨h.below, h.value⟩

theorem made_outside (h : Made n a b s qa qb) (ht : Spaced n t) (ha : ∀ k < n, (a k).x = t k) (hb : ∀ k < n, (b k).x = t k)
    (hav : (a 0).y = v 0) (hbv : (b (n - 1)).y = v (n - 1)) : HeldOutside s n t v := by
  have hn := ht.pos
  have hg := h.wf.g_pos
  obtain ⟨h0, h1⟩ := h.ends hn
  have n0 := (h.near ht ha hb hn).1
  have n1 := (h.near ht ha hb (show n - 1 < n by omega)).2
  have hx0 : s.startX = some ((qa 0).X s.g) := by simp [startX, h0]
  have hx1 : s.endX = some ((qb (n - 1)).X s.g) := by simp [endX, h1]
  have t0 := n0.time
  have t1 := n1.time
  rw [ha 0 hn, abs_le] at t0
  rw [hb (n - 1) (by omega), abs_le] at t1
  refine ⟨⟨(qa 0).Y s.yRange, hav ▸ n0.rounded, fun x hx hlt => ?_⟩, ⟨(qb (n - 1)).Y s.yRange, hbv ▸ n1.rounded, fun x hx hr => ?_⟩⟩
  · have h65 : (qa 0).x ≤ 65535 := (h.wf.ok _ (h.mem hn).1).1
    have hX : (qa 0).X s.g ≤ 65535 * s.g := by
      have : ((qa 0).x : ℝ) ≤ 65535 := by exact_mod_cast h65
      simp only [Node.X]; gcongr
    have hr : x / s.g + 1 / 2 < 2147483648 := by
      have : x / s.g ≤ 65535 := by rw [div_le_iff₀ hg]; linarith
      linarith
    have := ((C25_outside h.wf h.indexable hx0 hx1 hr).1 hx (by linarith)).1
    rw [this]; simp [startY, h0]
  · have := ((C25_outside h.wf h.indexable hx0 hx1 hr).2 (by linarith)).1
    rw [this]; simp [endY, h1]

theorem made_attained (h : Made n a b s qa qb) (ht : Spaced n t) (ha : ∀ k < n, (a k).x = t k) (hb : ∀ k < n, (b k).x = t k)
    (hav : ∀ k < n, (a k).y = v k) (hbv : ∀ k < n, (b k).y = v k) : Attained s n t v := by
  intro k hk
  obtain ⟨na, nb⟩ := h.near ht ha hb hk
  obtain ⟨m, hm, hmx, hc⟩ := C25_at_node h.wf h.indexable (h.mem hk).1
  refine ⟨(qa k).X s.g, m.Y s.yRange, by have := na.time; rwa [ha k hk] at this, hc, ?_⟩
  rcases h.at_key hk hm hmx with rfl | rfl
  · exact hav k hk ▸ na.rounded
  · exact hbv k hk ▸ nb.rounded

/-- Between two keyframes the spline is the Hermite cubic of the quantised nodes. -/
theorem made_between (h : Made n a b s qa qb) (ht : Spaced n t) (ha : ∀ k < n, (a k).x = t k) (hb : ∀ k < n, (b k).x = t k) {k : ℕ} (hk : k + 1 < n) {x : ℝ}
    (h1 : t k + s.g ≤ x) (h2 : x < t (k + 1) - s.g) :
    let w := (qa (k + 1)).X s.g - (qb k).X s.g
    let u := (x - (qb k).X s.g) / w
    0 < w ∧ 0 ≤ u ∧ u ≤ 1 ∧
    s.calculate x .value = some ((2 * u ^ 3 - 3 * u ^ 2 + 1) * (qb k).Y s.yRange + (u ^ 3 - 2 * u ^ 2 + u) * (w * (qb k).D) +
      (-2 * u ^ 3 + 3 * u ^ 2) * (qa (k + 1)).Y s.yRange + (u ^ 3 - u ^ 2) * (w * (qa (k + 1)).D)) := by
  intro w u
  have hg := h.wf.g_pos
  have t0 := (h.near ht ha hb (show k < n by omega)).2.time
  have t1 := (h.near ht ha hb hk).1.time
  rw [hb k (by omega), abs_le] at t0
  rw [ha _ hk, abs_le] at t1
  have hw : 0 < w := by simp only [w]; linarith
  obtain ⟨i, hi0, hi1⟩ := h.neighbours hk
  obtain ⟨c, hc, hcalc⟩ := C25_inside_segment h.wf h.indexable hi0 hi1 (x := x) (by linarith) (by linarith)
  refine ⟨hw, div_nonneg (by linarith) hw.le, ?_, ?_⟩
  · rw [div_le_one hw]; simp only [w]; linarith
  · rw [hcalc, (hermite_iff hg (h.increasing k (k + 1) (by omega) hk) c).mp hc]
    simp only [curveValue, Option.some.injEq]
    have hxx : x - (qb k).X s.g = u * w := by simp only [u]; field_simp
    rw [hxx]
    have hwid : s.widthX (qb k) (qa (k + 1)) = w := width_eq s _ _
    simp only [Cubic.init, cubicInit, hwid, if_pos hw, Cubic.eval]
    field_simp
    ring

theorem made_linear (h : Made n a b s qa qb) (ht : Spaced n t) (ha : ∀ k < n, a k = linearLeft t v k) (hb : ∀ k < n, b k = linearRight n t v k) :
    LinearBetween s n t v := by
  have hax : ∀ k < n, (a k).x = t k := fun k hk => by rw [ha k hk]; rfl
  have hbx : ∀ k < n, (b k).x = t k := fun k hk => by rw [hb k hk]; rfl
  intro k hk
  have hg := recommendG_pos (t (n - 1))
  have hlt : t k < t (k + 1) := by have := ht.apart k hk; linarith
  have n0 := (h.near ht hax hbx (show k < n by omega)).2
  have n1 := (h.near ht hax hbx hk).1
  have hb0 : (b k).derivative = (v (k + 1) - v k) / (t (k + 1) - t k) := by
    rw [hb k (by omega)]; simp only [linearRight, if_pos hk, slope, if_pos hlt]
  have ha1 : (a (k + 1)).derivative = (v (k + 1) - v k) / (t (k + 1) - t k) := by
    rw [ha _ hk]; simp [linearLeft, slope, if_pos hlt]
  have hD : (qb k).D = (qa (k + 1)).D := by
    have e0 := (make_some (h.right k (by omega))).2.2
    have e1 := (make_some (h.left _ hk)).2.2
    simp only [Node.D, e0, e1, hb0, ha1]
  refine ⟨(qb k).X s.g, (qa (k + 1)).X s.g, (qb k).Y s.yRange, (qa (k + 1)).Y s.yRange, (qb k).D, hbx k (by omega) ▸ n0.time, hax _ hk ▸ n1.time, ?_, ?_, ?_, ?_⟩
  · have := n0.rounded; rwa [hb k (by omega)] at this
  · have := n1.rounded; rwa [ha _ hk] at this
  · have := n0.angle; rwa [hb0] at this
  · intro x hx1 hx2
    obtain ⟨hw, hu0, hu1, hcalc⟩ := made_between h ht hax hbx hk hx1 hx2
    refine ⟨_, hcalc, ?_⟩
    rw [← hD]
    set w := (qa (k + 1)).X s.g - (qb k).X s.g
    set u := (x - (qb k).X s.g) / w
    set y0 := (qb k).Y s.yRange
    set y1 := (qa (k + 1)).Y s.yRange
    set D := (qb k).D
    have e : (2 * u ^ 3 - 3 * u ^ 2 + 1) * y0 + (u ^ 3 - 2 * u ^ 2 + u) * (w * D) + (-2 * u ^ 3 + 3 * u ^ 2) * y1 + (u ^ 3 - u ^ 2) * (w * D) -
        (y0 + (y1 - y0) * u) = (u * (1 - u) * (1 - 2 * u)) * (w * D - (y1 - y0)) := by ring
    rw [e, abs_mul]
    have hb : |u * (1 - u) * (1 - 2 * u)| ≤ 1 / 10 := by
      have hq : (u * (1 - u) * (1 - 2 * u)) ^ 2 ≤ (1 / 10) ^ 2 := by
        have hz : 0 ≤ u * (1 - u) := mul_nonneg hu0 (by linarith)
        have hz1 : u * (1 - u) ≤ 1 / 4 := by nlinarith [sq_nonneg (1 - 2 * u)]
        have : (u * (1 - u) * (1 - 2 * u)) ^ 2 = (u * (1 - u)) ^ 2 * (1 - 4 * (u * (1 - u))) := by ring
        rw [this]
        generalize u * (1 - u) = z at hz hz1
        nlinarith [mul_nonneg (mul_nonneg hz hz) (sq_nonneg (z - 1/6)), mul_nonneg hz (sq_nonneg (z - 1 / 6)), sq_nonneg (z - 1 / 6)]
      exact abs_le_of_sq_le_sq' hq (by norm_num) |> abs_le.mpr
    calc _ ≤ 1 / 10 * |w * D - (y1 - y0)| := mul_le_mul_of_nonneg_right hb (abs_nonneg _)
      _ = _ := by ring

theorem made_step (h : Made n a b s qa qb) (ht : Spaced n t) (ha : ∀ k < n, a k = stepLeft t v k) (hb : ∀ k < n, b k = stepRight t v k) :
    StepBetween s n t v := by
  have hax : ∀ k < n, (a k).x = t k := fun k hk => by rw [ha k hk]; rfl
  have hbx : ∀ k < n, (b k).x = t k := fun k hk => by rw [hb k hk]; rfl
  intro k hk
  have n0 := (h.near ht hax hbx (show k < n by omega)).2
  have e0 := make_some (h.right k (by omega))
  have e1 := make_some (h.left _ hk)
  have hy0 : (b k).y = v k := by rw [hb k (by omega)]; rfl
  have hy1 : (a (k + 1)).y = v k := by rw [ha _ hk]; rfl
  have hd0 : (b k).derivative = 0 := by rw [hb k (by omega)]; rfl
  have hd1 : (a (k + 1)).derivative = 0 := by rw [ha _ hk]; rfl
  have hy : (qa (k + 1)).y = (qb k).y := by
    have h0 := e0.2.1
    have h1 := e1.2.1
    rw [hy0] at h0
    rw [hy1, h0] at h1
    exact (Option.some.inj h1).symm
  have hD : ∀ q : Node, q.angle = compactDerivative 0 → q.D = 0 := by
    intro q hq
    simp only [Node.D, hq, compactDerivative, Real.arctan_zero, zero_div, trunc]
    simp
  have hD0 := hD _ (hd0 ▸ e0.2.2)
  have hD1 := hD _ (hd1 ▸ e1.2.2)
  refine ⟨(qb k).Y s.yRange, hy0 ▸ n0.rounded, fun x hx1 hx2 => ?_⟩
  obtain ⟨-, -, -, hcalc⟩ := made_between h ht hax hbx hk hx1 hx2
  rw [hcalc, hD0, hD1]
  have : (qa (k + 1)).Y s.yRange = (qb k).Y s.yRange := by simp only [Node.Y, hy]
  rw [this]
  congr 1
  ring

theorem made_cubic {left right : ℕ → ℝ} (h : Made n a b s qa qb) (ht : Spaced n t) (ha : ∀ k < n, a k = ⟨t k, v k, left k⟩) (hb : ∀ k < n, b k = ⟨t k, v k, right k⟩) :
    CubicBetween s n t v left right := by
  have hax : ∀ k < n, (a k).x = t k := fun k hk => by rw [ha k hk]
  have hbx : ∀ k < n, (b k).x = t k := fun k hk => by rw [hb k hk]
  intro k hk
  have n0 := (h.near ht hax hbx (show k < n by omega)).2
  have n1 := (h.near ht hax hbx hk).1
  refine ⟨(qb k).X s.g, (qa (k + 1)).X s.g, (qb k).Y s.yRange, (qa (k + 1)).Y s.yRange, (qb k).D, (qa (k + 1)).D, hbx k (by omega) ▸ n0.time, hax _ hk ▸ n1.time,
    ?_, ?_, ?_, ?_, ?_⟩
  · have := n0.rounded; rwa [hb k (by omega)] at this
  · have := n1.rounded; rwa [ha _ hk] at this
  · have := n0.angle; rwa [hb k (by omega)] at this
  · have := n1.angle; rwa [ha _ hk] at this
  · intro x hx1 hx2
    exact (made_between h ht hax hbx hk hx1 hx2).2.2.2

theorem made_range (h : Made n a b s qa qb) (hav : ∀ k < n, ∃ j < n, (a k).y = v j) (hbv : ∀ k < n, ∃ j < n, (b k).y = v j) :
    ∃ j k, j < n ∧ k < n ∧ s.yRange.length = v k - v j := by
  obtain ⟨j, k, hj, hk, h1, h2⟩ := h.tight
  have key : ∀ i < n, ∀ r : ℝ, (r = (a i).y ∨ r = (b i).y) → ∃ m < n, r = v m := by
    rintro i hi r (h | h)
    · obtain ⟨m, hm, e⟩ := hav i hi; exact ⟨m, hm, h.trans e⟩
    · obtain ⟨m, hm, e⟩ := hbv i hi; exact ⟨m, hm, h.trans e⟩
  obtain ⟨m1, hm1, e1⟩ := key j hj _ h1
  obtain ⟨m2, hm2, e2⟩ := key k hk _ h2
  exact ⟨m1, m2, hm1, hm2, by rw [Range.length, e1, e2]⟩

end follow

/-- The nodes that the three interpolations make. -/
def IsNodes (i : Interpolation) (n : ℕ) (t v left right : ℕ → ℝ) (l : List Uncompressed) : Prop :=
  match i with
  | .linear => TwoPer l n (linearLeft t v) (linearRight n t v)
  | .step => TwoPer l n (stepLeft t v) (stepRight t v)
  | .cubic => TwoPer l n (fun k => ⟨t k, v k, left k⟩) (fun k => ⟨t k, v k, right k⟩)

theorem follows {i : Interpolation} {n : ℕ} {t v left right : ℕ → ℝ} {l : List Uncompressed} (ht : Spaced n t) (hl : IsNodes i n t v left right l) :
    ∃ s, createFromNodes l = some s ∧ s.maxNodes = 2 * n ∧ Follows i s n t v left right := by
  have hn := ht.pos
  cases i with
  | linear =>
    obtain ⟨s, qa, qb, hs, h⟩ := made ht (a := linearLeft t v) (b := linearRight n t v) (fun _ _ => rfl) (fun _ _ => rfl) hl
    exact ⟨s, hs, h.size, h.g, made_range h (fun k hk => ⟨k, hk, rfl⟩) (fun k hk => ⟨k, hk, rfl⟩), made_outside h ht (fun _ _ => rfl) (fun _ _ => rfl) rfl rfl,
      made_attained h ht (fun _ _ => rfl) (fun _ _ => rfl) (fun _ _ => rfl) (fun _ _ => rfl), made_linear h ht (fun _ _ => rfl) (fun _ _ => rfl)⟩
  | step =>
    obtain ⟨s, qa, qb, hs, h⟩ := made ht (a := stepLeft t v) (b := stepRight t v) (fun _ _ => rfl) (fun _ _ => rfl) hl
    exact ⟨s, hs, h.size, h.g, made_range h (fun k hk => ⟨k - 1, by omega, rfl⟩) (fun k hk => ⟨k, hk, rfl⟩), made_outside h ht (fun _ _ => rfl) (fun _ _ => rfl) rfl rfl,
      made_step h ht (fun _ _ => rfl) (fun _ _ => rfl)⟩
  | cubic =>
    obtain ⟨s, qa, qb, hs, h⟩ := made ht (a := fun k => ⟨t k, v k, left k⟩) (b := fun k => ⟨t k, v k, right k⟩) (fun _ _ => rfl) (fun _ _ => rfl) hl
    exact ⟨s, hs, h.size, h.g, made_range h (fun k hk => ⟨k, hk, rfl⟩) (fun k hk => ⟨k, hk, rfl⟩), made_outside h ht (fun _ _ => rfl) (fun _ _ => rfl) rfl rfl,
      made_attained h ht (fun _ _ => rfl) (fun _ _ => rfl) (fun _ _ => rfl) (fun _ _ => rfl), made_cubic h ht (fun _ _ => rfl) (fun _ _ => rfl)⟩

/-! ### C50 -/

/-- The value of channel `c` in keyframe `k` as the header documents it (keyframe_converter.h:45-46, 66-68): `values[i + j * channel_count]`, or
for cubic data packed as left derivative, value, right derivative. -/
def valueOf (d : KeyframeData) (channels c k : ℕ) : ℝ :=
  match d.interpolation with
  | .cubic => d.values (k * (3 * channels) + 1 * channels + c)
  | _ => d.values (c + k * channels)
/-- The left derivative of cubic data, per millisecond. -/
def leftOf (d : KeyframeData) (channels c k : ℕ) : ℝ := d.values (k * (3 * channels) + 0 * channels + c) / d.msPerUnit
/-- The right derivative of cubic data, per millisecond. -/
def rightOf (d : KeyframeData) (channels c k : ℕ) : ℝ := d.values (k * (3 * channels) + 2 * channels + c) / d.msPerUnit

theorem array_nodes (d : KeyframeData) (channels c : ℕ) (hc : c < channels) :
    ∃ l, (addKeyframeData d channels fun frame _ => getArrayValue channels d frame)[c]? = some l ∧
      IsNodes d.interpolation d.count d.time (valueOf d channels c) (leftOf d channels c) (rightOf d channels c) l := by
  cases hi : d.interpolation with
  | linear =>
    have e : valueOf d channels c = fun k => d.values (c + k * channels) := by funext k; simp [valueOf, hi]
    rw [e]
    exact C50_linear_nodes d channels hi hc
  | step =>
    have e : valueOf d channels c = fun k => d.values (c + k * channels) := by funext k; simp [valueOf, hi]
    rw [e]
    exact C50_step_nodes d channels hi hc
  | cubic =>
    have e : valueOf d channels c = fun k => d.values (k * (3 * channels) + 1 * channels + c) := by funext k; simp [valueOf, hi]
    rw [e]
    exact C50_cubic_nodes d channels hi hc

theorem create_all {n : ℕ} : ∀ {ls : List (List Uncompressed)}, (∀ l ∈ ls, ∃ s, createFromNodes l = some s ∧ s.maxNodes = n) →
    ∃ ss, createSplinesInPlace ls = some (ss, ls.length * Layout.size n) ∧ ls.map createFromNodes = ss.map some := by
  intro ls
  induction ls with
  | nil => intro _; exact ⟨[], by simp [createSplinesInPlace], rfl⟩
  | cons l ls ih =>
    intro h
    obtain ⟨s, hs, hn⟩ := h l (by simp)
    obtain ⟨ss, h1, h2⟩ := ih fun l' hl' => h l' (List.mem_cons_of_mem _ hl')
    refine ⟨s :: ss, ?_, by simp [hs, h2]⟩
    rw [createSplinesInPlace, hs]
    simp only [h1, hn, List.length_cons]
    congr 2
    ring

theorem bufferSize {n : ℕ} (channels : ℕ) (h : 2 * n ≤ 65532) : requiredBufferSize n channels = channels * Layout.size (2 * n) := by
  unfold requiredBufferSize requiredNodeCount kMaxSplineIndex
  rw [if_neg (by omega), mul_comm n 2]

theorem map_get {ls : List (List Uncompressed)} {ss : List Spline} (h : ls.map createFromNodes = ss.map some) {c : ℕ} {l : List Uncompressed} (hl : ls[c]? = some l) :
    ss[c]? = createFromNodes l := by
  have := congrArg (fun x : List (Option Spline) => x[c]?) h
  simp only [List.getElem?_map, hl, Option.map_some] at this
  cases hs : ss[c]? with
  | none => rw [hs] at this; simp at this
  | some s => rw [hs] at this; simp at this; exact this.symm

/-- **C50** (arrays). Keyframes that are at least one grain apart become one spline for each channel. Every spline follows the keyframes of its
channel with the given interpolation. The number of bytes used is that of `GetRequiredBufferSize`. -/
theorem C50_array (d : KeyframeData) (channels : ℕ) (ht : Spaced d.count d.time) :
    ∃ ss, addArrayCurves d channels = some (ss, requiredBufferSize d.count channels) ∧ ss.length = channels ∧
      ∀ c < channels, ∃ s, ss[c]? = some s ∧
        Follows d.interpolation s d.count d.time (valueOf d channels c) (leftOf d channels c) (rightOf d channels c) := by
  have key : ∀ c < channels, ∃ l, (addKeyframeData d channels fun frame _ => getArrayValue channels d frame)[c]? = some l ∧
      IsNodes d.interpolation d.count d.time (valueOf d channels c) (leftOf d channels c) (rightOf d channels c) l := by
    exact fun c hc => array_nodes d channels c hc
  have hlen : (addKeyframeData d channels fun frame _ => getArrayValue channels d frame).length = channels := by
    cases hi : d.interpolation with
    | linear => rw [nodes_linear d channels _ hi]; simp
    | step => rw [nodes_step d channels _ hi]; simp
    | cubic => rw [nodes_cubic d channels _ hi]; simp
  obtain ⟨ss, h1, h2⟩ := create_all (n := 2 * d.count) (ls := addKeyframeData d channels fun frame _ => getArrayValue channels d frame) (by
    intro l hl
    obtain ⟨c, hc⟩ := List.mem_iff_getElem?.mp hl
    have hlt := (List.getElem?_eq_some_iff.mp hc).1
    obtain ⟨l', hl', hn⟩ := key c (by omega)
    rw [hc] at hl'
    cases hl'
    obtain ⟨s, hs, hm, -⟩ := follows ht hn
    exact ⟨s, hs, hm⟩)
  refine ⟨ss, ?_, ?_, ?_⟩
  · rw [addArrayCurves, h1, hlen, bufferSize channels ht.few]
  · have := congrArg List.length h2; simp [hlen] at this; exact this.symm
  · intro c hc
    obtain ⟨l, hl, hn⟩ := key c hc
    obtain ⟨s, hs, -, hf⟩ := follows ht hn
    exact ⟨s, by rw [map_get h2 hl, hs], hf⟩

/-- Where the header puts component `i` of W, X, Y, Z. -/
def componentIndex : QuatOrder → Fin 4 → ℕ
  | .wxyz => ![0, 1, 2, 3]
  | .xyzw => ![3, 0, 1, 2]

/-- **C50** (quaternions). There are four splines, for W, X, Y and Z. They follow quaternions that are the keyframes up to sign. With linear interpolation
neighbouring quaternions have a dot product that is not negative. -/
theorem C50_quaternion (d : KeyframeData) (order : QuatOrder) (ht : Spaced d.count d.time) :
    ∃ (ss : List Spline) (q : ℕ → Fin 4 → ℝ), addQuaternionCurves d order = some (ss, requiredBufferSize d.count 4) ∧ ss.length = 4 ∧
      (∀ i : Fin 4, ∃ s, ss[i.val]? = some s ∧
        Follows d.interpolation s d.count d.time (fun k => q k i) (leftOf d 4 (componentIndex order i)) (rightOf d 4 (componentIndex order i))) ∧
      (∀ k, (∀ i, q k i = valueOf d 4 (componentIndex order i) k) ∨ ∀ i, q k i = - valueOf d 4 (componentIndex order i) k) ∧
      (∀ i, q 0 i = valueOf d 4 (componentIndex order i) 0) ∧
      (d.interpolation = .linear → ∀ k, 0 ≤ ∑ i, q k i * q (k + 1) i) ∧
      (d.interpolation ≠ .linear → ∀ k i, q k i = valueOf d 4 (componentIndex order i) k) := by
  obtain ⟨p, hp, p0, ps, pl, pn⟩ := C50_quaternion_signs d
  have hx : ∀ k c, (getArrayValue 4 d k).values c = valueOf d 4 c k := by
    intro k c
    unfold getArrayValue valueOf
    cases hi : d.interpolation with
    | linear => simp [add_comm]
    | step => simp [add_comm]
    | cubic =>
      simp only [ne_eq, not_true, if_false]
      congr 1; ring
  have hci : ∀ i : Fin 4, componentIndex order i = quatIndex i.val order := by cases order <;> decide
  have hlt : ∀ i : Fin 4, componentIndex order i < 4 := by cases order <;> decide
  have key : ∀ c < 4, ∃ l, (addKeyframeData d 4 (getQuaternionValue d))[c]? = some l ∧
      IsNodes d.interpolation d.count d.time (fun k => p k c) (leftOf d 4 c) (rightOf d 4 c) l := by
    intro c hc
    obtain ⟨l, h1, h2⟩ := C50_quaternion_nodes d hc
    refine ⟨l, h1, ?_⟩
    have e : (fun k => p k c) = fun k => (keyAt (getQuaternionValue d) k).values c := by funext k; rw [hp]
    rw [e]
    cases hi : d.interpolation with
    | linear => rw [hi] at h2; exact h2
    | step => rw [hi] at h2; exact h2
    | cubic => rw [hi] at h2; exact h2
  have hget : ∀ i : Fin 4, ∃ l, (addKeyframeData d 4 (getQuaternionValue d))[quatIndex i.val order]? = some l ∧
      IsNodes d.interpolation d.count d.time (fun k => p k (componentIndex order i)) (leftOf d 4 (componentIndex order i)) (rightOf d 4 (componentIndex order i)) l := by
    intro i
    rw [← hci]
    exact key _ (hlt i)
  obtain ⟨l0, a0, b0⟩ := hget 0
  obtain ⟨l1, a1, b1⟩ := hget 1
  obtain ⟨l2, a2, b2⟩ := hget 2
  obtain ⟨l3, a3, b3⟩ := hget 3
  have hls : ((List.range 4).filterMap fun i => (addKeyframeData d 4 (getQuaternionValue d))[quatIndex i order]?) = [l0, l1, l2, l3] := by
    simp only [Fin.val_zero, Fin.val_one, Fin.val_two] at a0 a1 a2
    have a3 : (addKeyframeData d 4 (getQuaternionValue d))[quatIndex 3 order]? = some l3 := a3
    simp [List.range_succ, a0, a1, a2, a3]
  have hmk : ∀ l ∈ [l0, l1, l2, l3], ∃ s, createFromNodes l = some s ∧ s.maxNodes = 2 * d.count := by
    intro l hl
    simp only [List.mem_cons, List.not_mem_nil, or_false] at hl
    rcases hl with rfl | rfl | rfl | rfl
    · obtain ⟨s, h1, h2, -⟩ := follows ht b0; exact ⟨s, h1, h2⟩
    · obtain ⟨s, h1, h2, -⟩ := follows ht b1; exact ⟨s, h1, h2⟩
    · obtain ⟨s, h1, h2, -⟩ := follows ht b2; exact ⟨s, h1, h2⟩
    · obtain ⟨s, h1, h2, -⟩ := follows ht b3; exact ⟨s, h1, h2⟩
  obtain ⟨ss, h1, h2⟩ := create_all hmk
  refine ⟨ss, fun k i => p k (componentIndex order i), ?_, ?_, ?_, ?_, ?_, ?_, ?_⟩
  · rw [C50_component_order, hls, h1, bufferSize 4 ht.few]; rfl
  · have := congrArg List.length h2; simp at this; exact this.symm
  · intro i
    have hl : ∃ l, [l0, l1, l2, l3][i.val]? = some l ∧ IsNodes d.interpolation d.count d.time (fun k => p k (componentIndex order i)) (leftOf d 4 (componentIndex order i)) (rightOf d 4 (componentIndex order i)) l := by
      fin_cases i
      · exact ⟨l0, rfl, b0⟩
      · exact ⟨l1, rfl, b1⟩
      · exact ⟨l2, rfl, b2⟩
      · exact ⟨l3, rfl, b3⟩
    obtain ⟨l, hl, hn⟩ := hl
    obtain ⟨s, hs, -, hf⟩ := follows ht hn
    exact ⟨s, by rw [map_get h2 hl, hs], hf⟩
  · intro k
    rcases ps k with h | h
    · left; intro i; simp only [h]; exact hx _ _
    · right; intro i; simp only [h, hx]
  · intro i; simp only [p0]; exact hx _ _
  · intro hi k
    have := pl hi k
    simp only [dot4] at this
    cases order <;> simp [Fin.sum_univ_four, componentIndex] <;> linarith
  · intro hi k i; simp only [pn hi]; exact hx _ _

/-- **C50** (too many). With more than 32766 keyframes `GetRequiredBufferSize` is 0 and the conversion fails an assertion. -/
theorem C50_too_many (d : KeyframeData) (channels : ℕ) (hc : 0 < channels) (h : 32766 < d.count) :
    requiredBufferSize d.count channels = 0 ∧ addArrayCurves d channels = none := by
  constructor
  · unfold requiredBufferSize requiredNodeCount kMaxSplineIndex
    rw [if_pos (by omega)]
  · obtain ⟨m, rfl⟩ : ∃ m, channels = m + 1 := ⟨channels - 1, by omega⟩
    have hl : ∀ f : ℕ → ℕ → Uncompressed × Uncompressed, createSplinesInPlace ((List.range (m + 1)).map fun c => (List.range d.count).flatMap fun k => [(f c k).1, (f c k).2]) = none := by
      intro f
      rw [List.range_succ_eq_map, List.map_cons, createSplinesInPlace]
      have : createFromNodes ((List.range d.count).flatMap fun k => [(f 0 k).1, (f 0 k).2]) = none := by
        unfold createFromNodes kMaxSplineIndex
        rw [if_neg]
        simp [List.length_flatMap]; omega
      rw [this]
    unfold addArrayCurves
    cases hi : d.interpolation with
    | linear => rw [nodes_linear d _ _ hi]; exact hl fun c k => (_, _)
    | step => rw [nodes_step d _ _ hi]; exact hl fun c k => (_, _)
    | cubic => rw [nodes_cubic d _ _ hi]; exact hl fun c k => (_, _)

/-- **C50** (disagreement). Without keyframes `GetRequiredBufferSize` is not 0, but the conversion reads the node before the first. -/
theorem C50_empty (d : KeyframeData) (channels : ℕ) (hc : 0 < channels) (h : d.count = 0) :
    0 < requiredBufferSize d.count channels ∧ addArrayCurves d channels = none := by
  constructor
  · rw [h, bufferSize channels (by norm_num)]
    have : 0 < Layout.size (2 * 0) := by decide
    positivity
  · obtain ⟨m, rfl⟩ : ∃ m, channels = m + 1 := ⟨channels - 1, by omega⟩
    unfold addArrayCurves
    have e : (addKeyframeData d (m + 1) fun frame _ => getArrayValue (m + 1) d frame) = List.replicate (m + 1) [] := by
      unfold addKeyframeData
      rw [h]; rfl
    rw [e, List.replicate_succ, createSplinesInPlace]
    have : createFromNodes [] = none := by simp [createFromNodes, initFromNodes]
    rw [this]

/-! ### Constant operations and operations with curves -/

/-- **C50** (constants). The operations that are added have the types and identifiers that follow the given ones, and the values of
the vector. Exactly those are left out whose value is within 1/100000 of the default of the type. -/
theorem C50_vector_constants (ops : List AnimationOp) (base : OpType) (id : ℕ) (v : ℕ → ℝ) :
    ∃ new, addVector3Constants ops base id v = ops ++ new ∧
      new.Sublist [⟨id, typeAt base 0, .inl (v 0)⟩, ⟨id + 1, typeAt base 1, .inl (v 1)⟩, ⟨id + 2, typeAt base 2, .inl (v 2)⟩] ∧
      ∀ i < 3, ((⟨id + i, typeAt base i, .inl (v i)⟩ : AnimationOp) ∈ new ↔ 1 / 100000 < |(typeAt base i).default - v i|) := by
  refine ⟨((List.range 3).map fun i => (⟨id + i, typeAt base i, .inl (v i)⟩ : AnimationOp)).filter
    (fun o => @decide (¬ isDefault o.type (o.drive.elim (fun x => x) fun _ => 0)) (Classical.propDecidable _)), ?_, ?_, ?_⟩
  · unfold addVector3Constants
    have : List.range 3 = [0, 1, 2] := rfl
    simp only [this, List.foldl_cons, List.foldl_nil, List.map_cons, List.map_nil, List.filter_cons, List.filter_nil, Sum.elim_inl]
    by_cases h0 : isDefault (typeAt base 0) (v 0) <;> by_cases h1 : isDefault (typeAt base 1) (v 1) <;> by_cases h2 : isDefault (typeAt base 2) (v 2) <;>
      simp [h0, h1, h2]
  · exact List.filter_sublist
  · intro i hi
    simp only [List.mem_filter, List.mem_map, List.mem_range]
    constructor
    · rintro ⟨-, h⟩
      have := @of_decide_eq_true _ (Classical.propDecidable _) h
      simpa [isDefault] using this
    · intro h
      exact ⟨⟨i, hi, rfl⟩, @decide_eq_true _ (Classical.propDecidable _) (by simpa [isDefault] using h)⟩

/-- **C50** (curves in an animation). Three operations are added, with the types and identifiers that follow the given ones. Their splines follow the keyframes. -/
theorem C50_vector_curves (ops : List AnimationOp) (base : OpType) (id : ℕ) (d : KeyframeData) (ht : Spaced d.count d.time) :
    ∃ s : Fin 3 → Spline, addVector3Curves ops base id d = some (ops ++ [⟨id, typeAt base 0, .inr (s 0)⟩, ⟨id + 1, typeAt base 1, .inr (s 1)⟩,
      ⟨id + 2, typeAt base 2, .inr (s 2)⟩]) ∧
      ∀ i : Fin 3, Follows d.interpolation (s i) d.count d.time (valueOf d 3 i) (leftOf d 3 i) (rightOf d 3 i) := by
  have key : ∀ i : Fin 3, ∃ s, (∀ type id ops, addCurve (addKeyframeData d 3 fun frame _ => getArrayValue 3 d frame) type id i.val ops = some (ops ++ [⟨id, type, .inr s⟩])) ∧
      Follows d.interpolation s d.count d.time (valueOf d 3 i) (leftOf d 3 i) (rightOf d 3 i) := by
    intro i
    have : ∃ l, (addKeyframeData d 3 fun frame _ => getArrayValue 3 d frame)[i.val]? = some l ∧
        IsNodes d.interpolation d.count d.time (valueOf d 3 i) (leftOf d 3 i) (rightOf d 3 i) l := by
      exact array_nodes d 3 i i.isLt
    obtain ⟨l, hl, hn⟩ := this
    obtain ⟨s, hs, -, hf⟩ := follows ht hn
    exact ⟨s, fun type id ops => by simp only [addCurve, hl, hs], hf⟩
  choose s h1 h2 using key
  refine ⟨s, ?_, h2⟩
  unfold addVector3Curves
  have e0 := h1 0
  have e1 := h1 1
  have e2 := h1 2
  simp only [Fin.val_zero, Fin.val_one, Fin.val_two] at e0 e1 e2
  have : List.range 3 = [0, 1, 2] := rfl
  simp only [this, List.foldlM_cons, List.foldlM_nil, Option.bind_eq_bind, e0, e1, e2, Option.bind_some]
  simp

/-- The types of the operations: translation, scale and rotation per axis, and quaternion components. -/
theorem C50_types : (typeAt .translateX 1 = .translateY ∧ typeAt .translateX 2 = .translateZ) ∧ (typeAt .scaleX 1 = .scaleY ∧ typeAt .scaleX 2 = .scaleZ) ∧
    (typeAt .rotateX 1 = .rotateY ∧ typeAt .rotateX 2 = .rotateZ) ∧ typeAt .quatW 1 = .quatX ∧ typeAt .quatW 2 = .quatY ∧ typeAt .quatW 3 = .quatZ ∧
    ∀ base, typeAt base 0 = base := by
  refine ⟨⟨rfl, rfl⟩, ⟨rfl, rfl⟩, ⟨rfl, rfl⟩, rfl, rfl, rfl, fun b => ?_⟩
  cases b <;> rfl

/-- **C50** (quaternion constants). As for vectors, for W, X, Y and Z. -/
theorem C50_quaternion_constants (ops : List AnimationOp) (id : ℕ) (q : ℕ → ℝ) (order : QuatOrder) :
    ∃ new, addQuaternionConstants ops id q order = ops ++ new ∧
      new.Sublist [⟨id, .quatW, .inl (q (componentIndex order 0))⟩, ⟨id + 1, .quatX, .inl (q (componentIndex order 1))⟩,
        ⟨id + 2, .quatY, .inl (q (componentIndex order 2))⟩, ⟨id + 3, .quatZ, .inl (q (componentIndex order 3))⟩] ∧
      ∀ i : Fin 4, ((⟨id + i, typeAt .quatW i, .inl (q (componentIndex order i))⟩ : AnimationOp) ∈ new ↔
        1 / 100000 < |(if i = 0 then 1 else 0) - q (componentIndex order i)|) := by
  have hci : ∀ i : Fin 4, componentIndex order i = quatIndex i.val order := by cases order <;> decide
  refine ⟨((List.range 4).map fun i => (⟨id + i, typeAt .quatW i, .inl (q (quatIndex i order))⟩ : AnimationOp)).filter
    (fun o => @decide (¬ isDefault o.type (o.drive.elim (fun x => x) fun _ => 0)) (Classical.propDecidable _)), ?_, ?_, ?_⟩
  · unfold addQuaternionConstants
    have : List.range 4 = [0, 1, 2, 3] := rfl
    simp only [this, List.foldl_cons, List.foldl_nil, List.map_cons, List.map_nil, List.filter_cons, List.filter_nil, Sum.elim_inl]
    by_cases h0 : isDefault (typeAt .quatW 0) (q (quatIndex 0 order)) <;> by_cases h1 : isDefault (typeAt .quatW 1) (q (quatIndex 1 order)) <;>
      by_cases h2 : isDefault (typeAt .quatW 2) (q (quatIndex 2 order)) <;> by_cases h3 : isDefault (typeAt .quatW 3) (q (quatIndex 3 order)) <;>
      simp [h0, h1, h2, h3]
  · simp only [hci]; exact List.filter_sublist
  · intro i
    have hdef : (typeAt .quatW i).default = if i = 0 then 1 else 0 := by fin_cases i <;> simp [typeAt, ofEnum, enumValue, OpType.default, OpType.isScale]
    rw [hci, ← hdef]
    simp only [List.mem_filter, List.mem_map, List.mem_range]
    constructor
    · rintro ⟨-, h⟩
      have := @of_decide_eq_true _ (Classical.propDecidable _) h
      simpa [isDefault] using this
    · intro h
      exact ⟨⟨i, i.isLt, rfl⟩, @decide_eq_true _ (Classical.propDecidable _) (by simpa [isDefault] using h)⟩

/-- **C50** (quaternion curves in an animation). Four operations are added, for W, X, Y and Z, whose splines are those of `C50_quaternion`. -/
theorem C50_quaternion_ops (ops : List AnimationOp) (id : ℕ) (order : QuatOrder) (d : KeyframeData) (ss : List Spline) (bytes : ℕ)
    (h : addQuaternionCurves d order = some (ss, bytes)) : ∃ w x y z, ss = [w, x, y, z] ∧
      addQuaternionOps ops id order d = some (ops ++ [⟨id, .quatW, .inr w⟩, ⟨id + 1, .quatX, .inr x⟩, ⟨id + 2, .quatY, .inr y⟩, ⟨id + 3, .quatZ, .inr z⟩]) := by
  have hlen : ∃ a b c e, addKeyframeData d 4 (getQuaternionValue d) = [a, b, c, e] := by
    cases hi : d.interpolation with
    | linear => rw [nodes_linear d 4 _ hi]; exact ⟨_, _, _, _, rfl⟩
    | step => rw [nodes_step d 4 _ hi]; exact ⟨_, _, _, _, rfl⟩
    | cubic => rw [nodes_cubic d 4 _ hi]; exact ⟨_, _, _, _, rfl⟩
  obtain ⟨a, b, c, e, hn⟩ := hlen
  have hone : ∀ (l : List Uncompressed) (ls : List (List Uncompressed)) r, createSplinesInPlace (l :: ls) = some r →
      ∃ s ss' n, createFromNodes l = some s ∧ createSplinesInPlace ls = some (ss', n) ∧ r.1 = s :: ss' := by
    intro l ls r hr
    rw [createSplinesInPlace] at hr
    cases h1 : createFromNodes l with
    | none => simp [h1] at hr
    | some s =>
      cases h2 : createSplinesInPlace ls with
      | none => simp [h1, h2] at hr
      | some p =>
        obtain ⟨ss', n⟩ := p
        simp only [h1, h2, Option.some.injEq] at hr
        exact ⟨s, ss', n, rfl, rfl, by rw [← hr]⟩
  have hfour : ∀ l0 l1 l2 l3 : List Uncompressed, createSplinesInPlace [l0, l1, l2, l3] = some (ss, bytes) →
      ∃ w x y z, ss = [w, x, y, z] ∧ createFromNodes l0 = some w ∧ createFromNodes l1 = some x ∧ createFromNodes l2 = some y ∧ createFromNodes l3 = some z := by
    intro l0 l1 l2 l3 hr
    obtain ⟨w, r1, _, hw, hr1, e1⟩ := hone _ _ _ hr
    obtain ⟨x, r2, _, hx, hr2, e2⟩ := hone _ _ _ hr1
    obtain ⟨y, r3, _, hy, hr3, e3⟩ := hone _ _ _ hr2
    obtain ⟨z, r4, _, hz, hr4, e4⟩ := hone _ _ _ hr3
    simp only [createSplinesInPlace, Option.some.injEq, Prod.mk.injEq] at hr4
    simp only at e1 e2 e3 e4
    rw [e4, ← hr4.1] at e3
    rw [e3] at e2
    rw [e2] at e1
    exact ⟨w, x, y, z, e1, hw, hx, hy, hz⟩
  unfold addQuaternionCurves at h
  rw [hn] at h
  have hr : List.range 4 = [0, 1, 2, 3] := rfl
  unfold addQuaternionOps
  rw [hn]
  cases order with
  | wxyz =>
    obtain ⟨w, x, y, z, hss, hw, hx, hy, hz⟩ := hfour _ _ _ _ h
    refine ⟨w, x, y, z, hss, ?_⟩
    simp [hr, addCurve, quatIndex, hw, hx, hy, hz, typeAt, ofEnum, enumValue]
  | xyzw =>
    obtain ⟨w, x, y, z, hss, hw, hx, hy, hz⟩ := hfour _ _ _ _ h
    refine ⟨w, x, y, z, hss, ?_⟩
    simp [hr, addCurve, quatIndex, hw, hx, hy, hz, typeAt, ofEnum, enumValue]

/-- The hypothesis is met: four keyframes one second apart. -/
example : Spaced 4 (KeyframeData.time ⟨fun k => k, fun k => k, 4, .linear, 1000⟩) := by
  refine ⟨by norm_num, by norm_num, by simp [KeyframeData.time], ?_⟩
  intro k hk
  have h : recommendG (((4 - 1 : ℕ) : ℝ) * 1000) ≤ 1000 := by
    unfold recommendG
    split <;> norm_num
  have hk1 : (k : ℝ) * 1000 + recommendG (((4 - 1 : ℕ) : ℝ) * 1000) ≤ ((k + 1 : ℕ) : ℝ) * 1000 := by
    push_cast at h ⊢
    linarith
  exact hk1

end

end Motive.Util
