import Verif.Pipeline.SumProps
/-!
# C52: `PruneChannels`
-/

namespace Motive.Pipeline
open Motive.Curve Motive.Matrix4

noncomputable section
open Classical

/-! ### Specification -/

/-- The operation of a channel with its value at a time. -/
def opAt (t : ℝ) (c : Channel) : OpType × ℝ := (c.op, curveAt c.nodes t)

/-- No two nodes that follow each other are more than `w` ticks apart. -/
def Gaps (w : ℝ) (n : List Node) : Prop := List.IsChain (fun a b => (b.time : ℝ) - a.time ≤ w) n

/-- One of the scales of a single axis. -/
def IsXyz (t : OpType) : Prop := t = .scaleX ∨ t = .scaleY ∨ t = .scaleZ

/-- A channel is constant or has nodes in order of time; unless it is a scale, from the first tick to the last tick of `τ` for its operation. -/
def Covers (τ : OpType → ℤ × ℤ) (c : Channel) : Prop := ∃ t0 t1, Spans t0 t1 c.nodes ∧ (c.op.isScale = false → τ c.op = (t0, t1))

/-- A channel of a bone, for curves over the ticks that `τ` gives for each operation. -/
def ChannelOk (τ : OpType → ℤ × ℤ) (w : ℝ) (c : Channel) : Prop := Supported c.op ∧ Covers τ c ∧ (IsXyz c.op → Gaps w c.nodes)

/-- What is assumed of a channel `c` and a later channel `d` of a bone.  No scale occurs twice, and there is no uniform scale besides that of
the x-axis.  Ids increase, except between translations, and the ids after the scales leave room for that of the uniform scale. -/
def PairOk (c d : Channel) : Prop :=
  (c.op.isScale → d.op ≠ c.op) ∧ ¬ (c.op = .scaleX ∧ d.op = .scaleUniformly) ∧ ¬ (c.op = .scaleUniformly ∧ d.op = .scaleX) ∧
    ((c.op.isTranslate ∧ d.op.isTranslate) ∨
      (c.id < d.id ∧ (IsXyz c.op → ¬ IsXyz d.op → c.id + (opValue .scaleUniformly - opValue c.op) < d.id)))

/-- By how much the value of an operation may change: the tolerance, and for scales also what the values or slopes of curves that count as
equal can differ by, between nodes at most `w` ticks apart. -/
def Tolerances.error (tl : Tolerances) (w : ℝ) (op : OpType) : ℝ :=
  if op.isScale then tl.scale + (tl.scale + Real.tan tl.derivativeAngle * w / 4) else tl.forOp op

/-- `std::sort` by id. -/
def Sorts (sort : List Channel → List Channel) : Prop := ∀ l, (sort l).Perm l ∧ (sort l).Pairwise fun c d => c.id ≤ d.id

/-! ### Operations as matrices with their scale -/

abbrev Mat := Matrix (Fin 4) (Fin 4) ℝ × (Fin 3 → ℝ)

def E (p : OpType × ℝ) : Mat := (elementary p, scaling p)
/-- What a list of channels represents at a time. -/
def M (t : ℝ) (chs : List Channel) : Mat := (chs.map fun c => E (opAt t c)).prod

theorem prod_E (l : List (OpType × ℝ)) : (l.map E).prod = ((l.map elementary).prod, (l.map scaling).prod) := by
  induction l with
  | nil => rfl
  | cons p l ih => rw [List.map_cons, List.prod_cons, ih, List.map_cons, List.prod_cons, List.map_cons, List.prod_cons]; rfl

theorem E_add {t : OpType} (h : t.isRotate ∨ t.isTranslate) (a b : ℝ) : E (t, a) * E (t, b) = E (t, a + b) := by
  unfold E
  apply Prod.ext
  · change elementary (t, a) * elementary (t, b) = elementary (t, a + b)
    cases t <;> simp [OpType.isRotate, OpType.isTranslate] at h <;>
      (ext i j
       fin_cases i <;> fin_cases j <;>
         simp [elementary, Matrix.mul_apply, Fin.sum_univ_four, Real.sin_add, Real.cos_add] <;> ring)
  · change scaling (t, a) * scaling (t, b) = scaling (t, a + b)
    cases t <;> simp [OpType.isRotate, OpType.isTranslate] at h <;> simp [scaling]

theorem E_comm {s t : OpType} (hs : s.isTranslate) (ht : t.isTranslate) (a b : ℝ) : E (s, a) * E (t, b) = E (t, b) * E (s, a) := by
  unfold E
  apply Prod.ext
  · change elementary (s, a) * elementary (t, b) = elementary (t, b) * elementary (s, a)
    cases s <;> simp [OpType.isTranslate] at hs <;> cases t <;> simp [OpType.isTranslate] at ht <;>
      (ext i j
       fin_cases i <;> fin_cases j <;> simp [elementary, Matrix.mul_apply, Fin.sum_univ_four] <;> ring)
  · change scaling (s, a) * scaling (t, b) = scaling (t, b) * scaling (s, a)
    rw [mul_comm]

theorem E_default {t : OpType} (h : Supported t) : E (t, defaultOpValue t) = 1 := by
  have : defaultOpValue t = t.default := by
    cases t <;> simp [Supported, OpType.isRotate, OpType.isTranslate, OpType.isScale] at h <;>
      simp [defaultOpValue, OpType.default, OpType.isScale]
  unfold E
  apply Prod.ext
  · rw [this]; exact C42_default_does_nothing t
  · change scaling (t, defaultOpValue t) = 1
    cases t <;> simp [Supported, OpType.isRotate, OpType.isTranslate, OpType.isScale] at h <;>
      (ext i; fin_cases i <;> simp [scaling, defaultOpValue, OpType.isScale])

theorem xyz_cases {a b c : OpType} (h : opsAreXyz a b c) :
    (a = .scaleX ∧ b = .scaleY ∧ c = .scaleZ) ∨ (a = .scaleX ∧ b = .scaleZ ∧ c = .scaleY) ∨ (a = .scaleY ∧ b = .scaleX ∧ c = .scaleZ) ∨
      (a = .scaleY ∧ b = .scaleZ ∧ c = .scaleX) ∨ (a = .scaleZ ∧ b = .scaleX ∧ c = .scaleY) ∨ (a = .scaleZ ∧ b = .scaleY ∧ c = .scaleX) := by
  unfold opsAreXyz at h
  have key : ∀ i j k : Fin 15, (1 <<< i.val ||| 1 <<< j.val ||| 1 <<< k.val : ℕ) = (1 <<< 7 ||| 1 <<< 8 ||| 1 <<< 9) →
      (i = 7 ∧ j = 8 ∧ k = 9) ∨ (i = 7 ∧ j = 9 ∧ k = 8) ∨ (i = 8 ∧ j = 7 ∧ k = 9) ∨ (i = 8 ∧ j = 9 ∧ k = 7) ∨
      (i = 9 ∧ j = 7 ∧ k = 8) ∨ (i = 9 ∧ j = 8 ∧ k = 7) := by decide +kernel
  have hlt : ∀ t : OpType, opValue t < 15 := by intro t; cases t <;> simp [opValue]
  have hx : ∀ t : OpType, (⟨opValue t, hlt t⟩ : Fin 15) = 7 → t = .scaleX := by
    intro t h; cases t <;> first | rfl | (simp [opValue, Fin.ext_iff] at h)
  have hy : ∀ t : OpType, (⟨opValue t, hlt t⟩ : Fin 15) = 8 → t = .scaleY := by
    intro t h; cases t <;> first | rfl | (simp [opValue, Fin.ext_iff] at h)
  have hz : ∀ t : OpType, (⟨opValue t, hlt t⟩ : Fin 15) = 9 → t = .scaleZ := by
    intro t h; cases t <;> first | rfl | (simp [opValue, Fin.ext_iff] at h)
  rcases key ⟨_, hlt a⟩ ⟨_, hlt b⟩ ⟨_, hlt c⟩ h with ⟨p, q, r⟩ | ⟨p, q, r⟩ | ⟨p, q, r⟩ | ⟨p, q, r⟩ | ⟨p, q, r⟩ | ⟨p, q, r⟩
  · exact Or.inl ⟨hx _ p, hy _ q, hz _ r⟩
  · exact Or.inr (Or.inl ⟨hx _ p, hz _ q, hy _ r⟩)
  · exact Or.inr (Or.inr (Or.inl ⟨hy _ p, hx _ q, hz _ r⟩))
  · exact Or.inr (Or.inr (Or.inr (Or.inl ⟨hy _ p, hz _ q, hx _ r⟩)))
  · exact Or.inr (Or.inr (Or.inr (Or.inr (Or.inl ⟨hz _ p, hx _ q, hy _ r⟩))))
  · exact Or.inr (Or.inr (Or.inr (Or.inr (Or.inr ⟨hz _ p, hy _ q, hx _ r⟩))))

theorem E_uniform {a b c : OpType} (h : opsAreXyz a b c) (v : ℝ) : E (a, v) * (E (b, v) * E (c, v)) = E (.scaleUniformly, v) := by
  unfold E
  apply Prod.ext
  · change elementary (a, v) * (elementary (b, v) * elementary (c, v)) = elementary (.scaleUniformly, v)
    rcases xyz_cases h with ⟨rfl, rfl, rfl⟩ | ⟨rfl, rfl, rfl⟩ | ⟨rfl, rfl, rfl⟩ | ⟨rfl, rfl, rfl⟩ | ⟨rfl, rfl, rfl⟩ | ⟨rfl, rfl, rfl⟩ <;>
      (ext i j
       fin_cases i <;> fin_cases j <;> simp [elementary, Matrix.mul_apply, Fin.sum_univ_four])
  · change scaling (a, v) * (scaling (b, v) * scaling (c, v)) = scaling (.scaleUniformly, v)
    rcases xyz_cases h with ⟨rfl, rfl, rfl⟩ | ⟨rfl, rfl, rfl⟩ | ⟨rfl, rfl, rfl⟩ | ⟨rfl, rfl, rfl⟩ | ⟨rfl, rfl, rfl⟩ | ⟨rfl, rfl, rfl⟩ <;>
      (ext i; fin_cases i <;> simp [scaling])

theorem M_cons (t : ℝ) (c : Channel) (chs : List Channel) : M t (c :: chs) = E (opAt t c) * M t chs := by
  unfold M; rw [List.map_cons, List.prod_cons]
theorem M_append (t : ℝ) (a b : List Channel) : M t (a ++ b) = M t a * M t b := by
  unfold M; rw [List.map_append, List.prod_append]

theorem M_comm {c : Channel} (hc : c.op.isTranslate) {pre : List Channel} (h : ∀ p ∈ pre, p.op.isTranslate) (t v : ℝ) :
    E (c.op, v) * M t pre = M t pre * E (c.op, v) := by
  induction pre with
  | nil => simp [M]
  | cons p pre ih =>
    rw [M_cons, ← mul_assoc]
    unfold opAt
    rw [E_comm hc (h p (by simp)), mul_assoc, ih (fun q hq => h q (by simp [hq])), mul_assoc]

/-! ### Curves with nodes that count as equal -/

theorem slope_bound {x dtol : ℝ} (h : |derivativeAngle x| < dtol) (hd : dtol < Real.pi / 2) : |x| ≤ Real.tan dtol := by
  have h0 : 0 < dtol := lt_of_le_of_lt (abs_nonneg _) h
  unfold derivativeAngle at h
  obtain ⟨h1, h2⟩ := abs_lt.mp h
  have hr : ∀ y, Real.arctan y < dtol → y < Real.tan dtol := by
    intro y hy
    have := Real.tan_lt_tan_of_lt_of_lt_pi_div_two (Real.neg_pi_div_two_lt_arctan y) hd hy
    rwa [Real.tan_arctan] at this
  rw [abs_le]
  constructor
  · have := hr (-x) (by rw [Real.arctan_neg]; linarith)
    linarith
  · exact (hr x h2).le

theorem between_diff {a b a' b' : Node} {tol D w : ℝ} (hab : a.time < b.time) (ha : a.time = a'.time) (hb : b.time = b'.time)
    (h1 : |a.val - a'.val| ≤ tol) (h2 : |b.val - b'.val| ≤ tol) (h3 : |a.deriv - a'.deriv| ≤ D) (h4 : |b.deriv - b'.deriv| ≤ D)
    (hw : (b.time : ℝ) - a.time ≤ w) (t : ℝ) (t1 : (a.time : ℝ) ≤ t) (t2 : t ≤ b.time) :
    |curveBetween a b t - curveBetween a' b' t| ≤ tol + D * w / 4 := by
  have hpos : (0 : ℝ) < b.time - a.time := by
    have : (a.time : ℝ) < b.time := by exact_mod_cast hab
    linarith
  unfold curveBetween hermite
  rw [← ha, ← hb]
  set W := (b.time : ℝ) - a.time with hW
  set u := (t - a.time) / W with hu
  have hu0 : 0 ≤ u := div_nonneg (by linarith) hpos.le
  have hu1 : u ≤ 1 := by rw [hu, div_le_one hpos]; linarith
  have hD : 0 ≤ D := (abs_nonneg _).trans h3
  have e : a.val * (2 * u ^ 3 - 3 * u ^ 2 + 1) + a.deriv * W * (u ^ 3 - 2 * u ^ 2 + u) + b.val * (3 * u ^ 2 - 2 * u ^ 3) +
      b.deriv * W * (u ^ 3 - u ^ 2) - (a'.val * (2 * u ^ 3 - 3 * u ^ 2 + 1) + a'.deriv * W * (u ^ 3 - 2 * u ^ 2 + u) +
      b'.val * (3 * u ^ 2 - 2 * u ^ 3) + b'.deriv * W * (u ^ 3 - u ^ 2)) =
      (a.val - a'.val) * ((1 - u) ^ 2 * (1 + 2 * u)) + (b.val - b'.val) * (u ^ 2 * (3 - 2 * u)) +
        ((a.deriv - a'.deriv) * (W * (u * (1 - u) ^ 2)) - (b.deriv - b'.deriv) * (W * (u ^ 2 * (1 - u)))) := by ring
  rw [e]
  have p1 : 0 ≤ (1 - u) ^ 2 * (1 + 2 * u) := by positivity
  have p2 : 0 ≤ u ^ 2 * (3 - 2 * u) := mul_nonneg (sq_nonneg _) (by linarith)
  have p3 : 0 ≤ W * (u * (1 - u) ^ 2) := by positivity
  have p4 : 0 ≤ W * (u ^ 2 * (1 - u)) := mul_nonneg hpos.le (mul_nonneg (sq_nonneg _) (by linarith))
  have q1 : |(a.val - a'.val) * ((1 - u) ^ 2 * (1 + 2 * u))| ≤ tol * ((1 - u) ^ 2 * (1 + 2 * u)) := by
    rw [abs_mul, abs_of_nonneg p1]; exact mul_le_mul_of_nonneg_right h1 p1
  have q2 : |(b.val - b'.val) * (u ^ 2 * (3 - 2 * u))| ≤ tol * (u ^ 2 * (3 - 2 * u)) := by
    rw [abs_mul, abs_of_nonneg p2]; exact mul_le_mul_of_nonneg_right h2 p2
  have q3 : |(a.deriv - a'.deriv) * (W * (u * (1 - u) ^ 2))| ≤ D * (W * (u * (1 - u) ^ 2)) := by
    rw [abs_mul, abs_of_nonneg p3]; exact mul_le_mul_of_nonneg_right h3 p3
  have q4 : |(b.deriv - b'.deriv) * (W * (u ^ 2 * (1 - u)))| ≤ D * (W * (u ^ 2 * (1 - u))) := by
    rw [abs_mul, abs_of_nonneg p4]; exact mul_le_mul_of_nonneg_right h4 p4
  calc _ ≤ |(a.val - a'.val) * ((1 - u) ^ 2 * (1 + 2 * u))| + |(b.val - b'.val) * (u ^ 2 * (3 - 2 * u))| +
        (|(a.deriv - a'.deriv) * (W * (u * (1 - u) ^ 2))| + |(b.deriv - b'.deriv) * (W * (u ^ 2 * (1 - u)))|) :=
        (abs_add_le _ _).trans (add_le_add (abs_add_le _ _) (abs_sub _ _))
    _ ≤ tol * ((1 - u) ^ 2 * (1 + 2 * u)) + tol * (u ^ 2 * (3 - 2 * u)) +
        (D * (W * (u * (1 - u) ^ 2)) + D * (W * (u ^ 2 * (1 - u)))) := add_le_add (add_le_add q1 q2) (add_le_add q3 q4)
    _ = tol + D * (W * (u * (1 - u))) := by ring
    _ ≤ tol + D * w / 4 := by
      have : u * (1 - u) ≤ 1 / 4 := by nlinarith [sq_nonneg (2 * u - 1)]
      have h5 : W * (u * (1 - u)) ≤ w * (1 / 4) :=
        (mul_le_mul_of_nonneg_left this hpos.le).trans (mul_le_mul_of_nonneg_right hw (by norm_num))
      have := mul_le_mul_of_nonneg_left h5 hD
      linarith

/-- Curves whose nodes count as equal are close. -/
theorem curveAt_close {tol dtol w : ℝ} (hd : dtol < Real.pi / 2) (hw : 0 ≤ w) {n m : List Node}
    (h : List.Forall₂ (fun a b => equalNodes a b tol dtol) n m) (hg : Gaps w n) (t : ℝ) (hne : n ≠ []) :
    |curveAt n t - curveAt m t| ≤ tol + Real.tan dtol * w / 4 := by
  have base : ∀ a b : Node, equalNodes a b tol dtol → |a.val - b.val| ≤ tol + Real.tan dtol * w / 4 := by
    intro a b hab
    have h1 := slope_bound hab.2.2 hd
    have h2 : 0 ≤ Real.tan dtol := (abs_nonneg _).trans h1
    have := hab.2.1
    have : 0 ≤ Real.tan dtol * w / 4 := by positivity
    linarith
  induction h with
  | nil => exact absurd rfl hne
  | @cons a a' n m hab hrest ih =>
    cases hrest with
    | nil => exact base a a' hab
    | @cons b b' n m hbb hrest =>
      simp only [curveAt]
      rw [← hab.1, ← hbb.1]
      split_ifs with h1 h2
      · exact base a a' hab
      · have hab' : a.time < b.time := by exact_mod_cast (not_lt.mp h1).trans_lt h2
        exact between_diff hab' hab.1 hbb.1 hab.2.1.le hbb.2.1.le (slope_bound hab.2.2 hd) (slope_bound hbb.2.2 hd)
          (List.isChain_cons_cons.mp hg).1 t (not_lt.mp h1) h2.le
      · exact ih (List.isChain_cons_cons.mp hg).2 (by simp)

theorem allEqual_forall₂ {tl : Tolerances} : ∀ {n0 n1 n2 : List Node}, n0.length = n1.length → n0.length = n2.length →
    allEqual tl n0 n1 n2 → List.Forall₂ (fun a b => equalNodes a b tl.scale tl.derivativeAngle) n0 n1 ∧
      List.Forall₂ (fun a b => equalNodes a b tl.scale tl.derivativeAngle) n0 n2
  | [], n1, n2, h1, h2, _ => by
    obtain rfl : n1 = [] := List.length_eq_zero_iff.mp h1.symm
    obtain rfl : n2 = [] := List.length_eq_zero_iff.mp h2.symm
    exact ⟨.nil, .nil⟩
  | v0 :: n0, [], n2, h1, _, _ => by simp at h1
  | v0 :: n0, v1 :: n1, [], _, h2, _ => by simp at h2
  | v0 :: n0, v1 :: n1, v2 :: n2, h1, h2, h => by
    obtain ⟨p, q⟩ := allEqual_forall₂ (n0 := n0) (n1 := n1) (n2 := n2) (by simpa using h1) (by simpa using h2) h.2
    exact ⟨.cons h.1.1 p, .cons h.1.2.1 q⟩

theorem Spans.ne_nil {t0 t1 : ℤ} {n : List Node} (h : Spans t0 t1 n) : n ≠ [] := by
  rintro rfl
  rcases h with h | ⟨h, -⟩ <;> simp at h

theorem uniform_close {tl : Tolerances} {τ : OpType → ℤ × ℤ} {w : ℝ} (hd : tl.derivativeAngle < Real.pi / 2) (hw : 0 ≤ w) {c c1 c2 : Channel}
    {cs : List Channel} (h : uniformScaleChannels tl (c :: c1 :: c2 :: cs)) (hc : ChannelOk τ w c) (t : ℝ) :
    |curveAt c.nodes t - curveAt c1.nodes t| ≤ tl.scale + Real.tan tl.derivativeAngle * w / 4 ∧
    |curveAt c.nodes t - curveAt c2.nodes t| ≤ tl.scale + Real.tan tl.derivativeAngle * w / 4 := by
  obtain ⟨h1, ⟨h2, h3, -⟩, h4⟩ := h
  have hx : IsXyz c.op := by
    unfold IsXyz
    rcases xyz_cases h1 with h | h | h | h | h | h <;> simp [h.1]
  obtain ⟨f1, f2⟩ := allEqual_forall₂ h2 h3 h4
  obtain ⟨u0, u1, hsp, -⟩ := hc.2.1
  have s2 := hsp.ne_nil
  exact ⟨curveAt_close hd hw f1 (hc.2.2 hx) t s2, curveAt_close hd hw f2 (hc.2.2 hx) t s2⟩

/-! ### The steps -/

/-- The channel `c` can be joined to a later one of the same kind, across the channels `pre`. -/
def Joins (c : Channel) (pre : List Channel) : Prop :=
  (c.op.isRotate ∧ pre = []) ∨ (c.op.isTranslate ∧ ∀ p ∈ pre, p.op.isTranslate)

/-- How a list of channels becomes another. -/
inductive Steps (tl : Tolerances) : List Channel → List Channel → Prop
  | nil : Steps tl [] []
  | keep {os cs : List Channel} (c : Channel) : Steps tl os cs → Steps tl (c :: os) (c :: cs)
  | drop {os cs : List Channel} (c : Channel) (n : Node) : c.nodes = [n] → isDefaultValue tl c.op n.val → Steps tl os cs →
      Steps tl (c :: os) cs
  | sum {os pre post : List Channel} (c d : Channel) (s : List Node) : d.op = c.op → Joins c pre →
      (∀ t, curveAt s t = curveAt c.nodes t + curveAt d.nodes t) → Steps tl os (pre ++ d :: post) →
      Steps tl (c :: os) ({ c with nodes := s } :: (pre ++ post))
  | sumDrop {os pre post : List Channel} (c d : Channel) (n : Node) : d.op = c.op → Joins c pre →
      (∀ t, curveAt [n] t = curveAt c.nodes t + curveAt d.nodes t) → isDefaultValue tl c.op n.val → Steps tl os (pre ++ d :: post) →
      Steps tl (c :: os) (pre ++ post)
  | uniform {os cs : List Channel} (c c1 c2 : Channel) (id : ℕ) : uniformScaleChannels tl (c :: c1 :: c2 :: cs) →
      Steps tl os (c1 :: c2 :: cs) → Steps tl (c :: os) (⟨.scaleUniformly, id, c.nodes⟩ :: cs)
  | uniformDrop {os cs : List Channel} (c c1 c2 : Channel) (n : Node) : uniformScaleChannels tl (c :: c1 :: c2 :: cs) → c.nodes = [n] →
      isDefaultValue tl .scaleUniformly n.val → Steps tl os (c1 :: c2 :: cs) → Steps tl (c :: os) cs

theorem Joins.not_scale {c : Channel} {pre : List Channel} (h : Joins c pre) : ¬ IsXyz c.op ∧ ∀ p ∈ pre, ¬ IsXyz p.op := by
  have h1 : ∀ t : OpType, t.isTranslate = true → ¬ IsXyz t := by
    intro t ht; cases t <;> simp [OpType.isTranslate, IsXyz] at *
  have h2 : ∀ t : OpType, t.isRotate = true → ¬ IsXyz t := by
    intro t ht; cases t <;> simp [OpType.isRotate, IsXyz] at *
  rcases h with ⟨h, rfl⟩ | ⟨h, hp⟩
  · exact ⟨h2 _ h, by simp⟩
  · exact ⟨h1 _ h, fun p hpm => h1 _ (hp p hpm)⟩

/-- A position after the channels `pre`, none of which is the channel sought. -/
theorem append_split {pre post A rest : List Channel} {x : Channel} (hx : IsXyz x.op) (hp : ∀ p ∈ pre, ¬ IsXyz p.op)
    (h : pre ++ post = A ++ x :: rest) : ∃ B, A = pre ++ B ∧ post = B ++ x :: rest := by
  rcases List.append_eq_append_iff.mp h with ⟨as, h1, h2⟩ | ⟨bs, h1, h2⟩
  · exact ⟨as, h1, h2⟩
  · cases bs with
    | nil => exact ⟨[], by simpa using h1.symm, by simpa using h2.symm⟩
    | cons b bs =>
      exfalso
      obtain ⟨rfl, -⟩ := List.cons.inj h2
      exact hp x (by rw [h1]; simp) hx

/-- A scale of one axis that is still there separates the steps before it from those after it. -/
theorem Steps.split {tl : Tolerances} {os cs : List Channel} (h : Steps tl os cs) :
    ∀ {A : List Channel} {x : Channel} {rest : List Channel}, cs = A ++ x :: rest → IsXyz x.op →
      ∃ o1 o2, os = o1 ++ x :: o2 ∧ Steps tl o1 A ∧ Steps tl o2 rest := by
  induction h with
  | nil => intro A x rest h; simp at h
  | keep c h ih =>
    intro A x rest hcs hx
    cases A with
    | nil =>
      obtain ⟨rfl, rfl⟩ := List.cons.inj hcs
      exact ⟨[], _, rfl, .nil, h⟩
    | cons a A =>
      obtain ⟨rfl, rfl⟩ := List.cons.inj hcs
      obtain ⟨o1, o2, rfl, p, q⟩ := ih rfl hx
      exact ⟨c :: o1, o2, rfl, .keep c p, q⟩
  | drop c n hn hd h ih =>
    intro A x rest hcs hx
    obtain ⟨o1, o2, rfl, p, q⟩ := ih hcs hx
    exact ⟨c :: o1, o2, rfl, .drop c n hn hd p, q⟩
  | @sum os pre post c d s hop hj hs h ih =>
    intro A x rest hcs hx
    cases A with
    | nil =>
      obtain ⟨rfl, -⟩ := List.cons.inj hcs
      exact absurd hx hj.not_scale.1
    | cons a A =>
      obtain ⟨rfl, hcs'⟩ := List.cons.inj hcs
      change pre ++ post = A ++ x :: rest at hcs'
      obtain ⟨B, hB1, hB2⟩ := append_split hx hj.not_scale.2 hcs'
      subst hB1 hB2
      obtain ⟨o1, o2, rfl, p, q⟩ := ih (A := pre ++ d :: B) (rest := rest) (by simp) hx
      exact ⟨c :: o1, o2, rfl, .sum c d s hop hj hs p, q⟩
  | @sumDrop os pre post c d n hop hj hs hd h ih =>
    intro A x rest hcs hx
    obtain ⟨B, hB1, hB2⟩ := append_split hx hj.not_scale.2 hcs
    subst hB1 hB2
    obtain ⟨o1, o2, rfl, p, q⟩ := ih (A := pre ++ d :: B) (rest := rest) (by simp) hx
    exact ⟨c :: o1, o2, rfl, .sumDrop c d n hop hj hs hd p, q⟩
  | uniform c c1 c2 id hu h ih =>
    intro A x rest hcs hx
    cases A with
    | nil =>
      obtain ⟨rfl, -⟩ := List.cons.inj hcs
      simp [IsXyz] at hx
    | cons a A =>
      obtain ⟨rfl, rfl⟩ := List.cons.inj hcs
      obtain ⟨o1, o2, rfl, p, q⟩ := ih (A := c1 :: c2 :: A) (by rfl) hx
      exact ⟨c :: o1, o2, rfl, .uniform c c1 c2 id hu p, q⟩
  | uniformDrop c c1 c2 n hu hn hd h ih =>
    intro A x rest hcs hx
    subst hcs
    obtain ⟨o1, o2, rfl, p, q⟩ := ih (A := c1 :: c2 :: A) (by rfl) hx
    exact ⟨c :: o1, o2, rfl, .uniformDrop c c1 c2 n hu hn hd p, q⟩

/-- Values for the operations of the channels `os`, close to their values at time `t`, that give what the channels `cs` represent. -/
def Close (tl : Tolerances) (w t : ℝ) (os cs : List Channel) : Prop :=
  ∃ l : List (OpType × ℝ), List.Forall₂ (fun p c => p.1 = c.op ∧ |p.2 - curveAt c.nodes t| ≤ tl.error w c.op) l os ∧
    (l.map E).prod = M t cs


/-- The tolerances make sense. -/
def Tolerances.Ok (tl : Tolerances) : Prop :=
  0 ≤ tl.scale ∧ 0 ≤ tl.rotate ∧ 0 ≤ tl.translate ∧ 0 ≤ tl.derivativeAngle ∧ tl.derivativeAngle < Real.pi / 2

theorem Tolerances.Ok.tan {tl : Tolerances} (h : tl.Ok) {w : ℝ} (hw : 0 ≤ w) : 0 ≤ Real.tan tl.derivativeAngle * w / 4 := by
  have : 0 ≤ Real.tan tl.derivativeAngle := Real.tan_nonneg_of_nonneg_of_le_pi_div_two h.2.2.2.1 h.2.2.2.2.le
  positivity

theorem Tolerances.Ok.forOp_le {tl : Tolerances} (h : tl.Ok) {w : ℝ} (hw : 0 ≤ w) (t : OpType) :
    0 ≤ tl.forOp t ∧ tl.forOp t ≤ tl.error w t := by
  have h1 := h.tan hw
  obtain ⟨a, b, c, -⟩ := h
  have hnn : 0 ≤ tl.forOp t := by
    unfold Tolerances.forOp
    split_ifs <;> first | assumption | norm_num
  refine ⟨hnn, ?_⟩
  unfold Tolerances.error
  split_ifs with hs
  · have : tl.forOp t = tl.scale := by
      cases t <;> simp [OpType.isScale] at hs <;> simp [Tolerances.forOp, OpType.isRotate, OpType.isTranslate, OpType.isScale]
    linarith
  · exact le_rfl

theorem error_xyz (tl : Tolerances) (w : ℝ) {t : OpType} (h : IsXyz t) :
    tl.error w t = tl.scale + (tl.scale + Real.tan tl.derivativeAngle * w / 4) := by
  have : t.isScale = true := by rcases h with rfl | rfl | rfl <;> rfl
  rw [Tolerances.error, if_pos this]

theorem opsAreXyz.isXyz {a b c : OpType} (h : opsAreXyz a b c) : IsXyz a ∧ IsXyz b ∧ IsXyz c := by
  unfold IsXyz
  rcases xyz_cases h with ⟨rfl, rfl, rfl⟩ | ⟨rfl, rfl, rfl⟩ | ⟨rfl, rfl, rfl⟩ | ⟨rfl, rfl, rfl⟩ | ⟨rfl, rfl, rfl⟩ | ⟨rfl, rfl, rfl⟩ <;> simp

theorem Steps.close {tl : Tolerances} (htl : tl.Ok) {τ : OpType → ℤ × ℤ} {w : ℝ} (hw : 0 ≤ w) (t : ℝ) : ∀ (k : ℕ) {os cs : List Channel},
    os.length ≤ k → Steps tl os cs → (∀ c ∈ os, ChannelOk τ w c) → Close tl w t os cs := by
  intro k
  induction k with
  | zero =>
    intro os cs hk h _
    obtain rfl : os = [] := List.length_eq_zero_iff.mp (by omega)
    cases h
    exact ⟨[], .nil, rfl⟩
  | succ k ih =>
    intro os cs hk h hok
    have self : ∀ c : Channel, c.op = c.op ∧ |curveAt c.nodes t - curveAt c.nodes t| ≤ tl.error w c.op := by
      intro c
      rw [sub_self, abs_zero]
      exact ⟨rfl, (htl.forOp_le hw c.op).1.trans (htl.forOp_le hw c.op).2⟩
    have near : ∀ (c : Channel) (n : Node), c.nodes = [n] → isDefaultValue tl c.op n.val →
        |defaultOpValue c.op - curveAt c.nodes t| ≤ tl.error w c.op := by
      intro c n hn hd
      rw [hn, abs_sub_comm]
      exact hd.le.trans (htl.forOp_le hw c.op).2
    have join : ∀ (c d : Channel) (pre post : List Channel) (x : ℝ), d.op = c.op → Joins c pre →
        E (c.op, x) * M t (pre ++ d :: post) = E (c.op, x + curveAt d.nodes t) * M t (pre ++ post) := by
      intro c d pre post x hop hj
      have key : E (c.op, x) * (M t pre * E (opAt t d)) = E (c.op, x + curveAt d.nodes t) * M t pre := by
        unfold opAt
        rw [hop]
        rcases hj with ⟨h, rfl⟩ | ⟨h, hp⟩
        · simp only [M, List.map_nil, List.prod_nil, one_mul, mul_one]
          exact E_add (Or.inl h) _ _
        · rw [← M_comm h hp, ← mul_assoc, E_add (Or.inr h)]
      rw [M_append, M_cons, ← mul_assoc (M t pre), ← mul_assoc, key, M_append, mul_assoc]
    -- the three scales of a collapse, each with the value `v`
    have three : ∀ (c c1 c2 : Channel) (os cs : List Channel) (v : ℝ), os.length ≤ k → (∀ d ∈ c :: os, ChannelOk τ w d) →
        uniformScaleChannels tl (c :: c1 :: c2 :: cs) → Steps tl os (c1 :: c2 :: cs) → |v - curveAt c.nodes t| ≤ tl.scale →
        ∃ l : List (OpType × ℝ), List.Forall₂ (fun p c => p.1 = c.op ∧ |p.2 - curveAt c.nodes t| ≤ tl.error w c.op) l (c :: os) ∧
          (l.map E).prod = E (.scaleUniformly, v) * M t cs := by
      intro c c1 c2 os cs v hlen hok hu h hv
      obtain ⟨hx0, hx1, hx2⟩ := hu.1.isXyz
      obtain ⟨d1, d2⟩ := uniform_close htl.2.2.2.2 hw hu (hok c (by simp)) t
      obtain ⟨o1, o2, rfl, s1, s2⟩ := h.split (A := []) rfl hx1
      obtain ⟨o3, o4, rfl, s3, s4⟩ := s2.split (A := []) rfl hx2
      simp only [List.length_append, List.length_cons] at hlen
      obtain ⟨l1, f1, p1⟩ := ih (by omega) s1 (fun d hd => hok d (by simp [hd]))
      obtain ⟨l3, f3, p3⟩ := ih (by omega) s3 (fun d hd => hok d (by simp [hd]))
      obtain ⟨l4, f4, p4⟩ := ih (by omega) s4 (fun d hd => hok d (by simp [hd]))
      have e1 : |v - curveAt c1.nodes t| ≤ tl.error w c1.op := by
        rw [error_xyz tl w hx1]
        exact (abs_sub_le v (curveAt c.nodes t) _).trans (add_le_add hv d1)
      have e2 : |v - curveAt c2.nodes t| ≤ tl.error w c2.op := by
        rw [error_xyz tl w hx2]
        exact (abs_sub_le v (curveAt c.nodes t) _).trans (add_le_add hv d2)
      have e0 : |v - curveAt c.nodes t| ≤ tl.error w c.op := by
        rw [error_xyz tl w hx0]
        have := htl.tan hw
        have := htl.1
        linarith
      refine ⟨(c.op, v) :: (l1 ++ (c1.op, v) :: (l3 ++ (c2.op, v) :: l4)), ?_, ?_⟩
      · refine .cons ⟨rfl, e0⟩ ?_
        refine List.rel_append f1 ?_
        refine .cons ⟨rfl, e1⟩ ?_
        refine List.rel_append f3 ?_
        exact .cons ⟨rfl, e2⟩ f4
      · simp only [List.map_cons, List.map_append, List.prod_cons, List.prod_append, p1, p3, p4]
        simp only [M, List.map_nil, List.prod_nil, one_mul]
        rw [← E_uniform hu.1 v, mul_assoc, mul_assoc]
    cases h with
    | nil => exact ⟨[], .nil, rfl⟩
    | @keep os cs c h =>
      obtain ⟨l, f, p⟩ := ih (by simpa using hk) h (fun d hd => hok d (by simp [hd]))
      refine ⟨opAt t c :: l, .cons (self c) f, ?_⟩
      rw [List.map_cons, List.prod_cons, p, M_cons]
    | @drop os _ c n hn hd h =>
      obtain ⟨l, f, p⟩ := ih (by simpa using hk) h (fun d hd => hok d (by simp [hd]))
      refine ⟨(c.op, defaultOpValue c.op) :: l, .cons ⟨rfl, near c n hn hd⟩ f, ?_⟩
      rw [List.map_cons, List.prod_cons, p, E_default (hok c (by simp)).1, one_mul]
    | @sum os pre post c d s hop hj hs h =>
      obtain ⟨l, f, p⟩ := ih (by simpa using hk) h (fun d hd => hok d (by simp [hd]))
      refine ⟨opAt t c :: l, .cons (self c) f, ?_⟩
      rw [List.map_cons, List.prod_cons, p, M_cons]
      unfold opAt
      rw [join c d pre post _ hop hj, hs]
    | @sumDrop os pre post c d n hop hj hs hd h =>
      obtain ⟨l, f, p⟩ := ih (by simpa using hk) h (fun d hd => hok d (by simp [hd]))
      have hs := hs t
      change n.val = _ at hs
      refine ⟨(c.op, defaultOpValue c.op - curveAt d.nodes t) :: l, .cons ⟨rfl, ?_⟩ f, ?_⟩
      · change |defaultOpValue c.op - curveAt d.nodes t - curveAt c.nodes t| ≤ _
        rw [show defaultOpValue c.op - curveAt d.nodes t - curveAt c.nodes t = defaultOpValue c.op - n.val by rw [hs]; ring, abs_sub_comm]
        exact hd.le.trans (htl.forOp_le hw c.op).2
      · rw [List.map_cons, List.prod_cons, p, join c d pre post _ hop hj, sub_add_cancel, E_default (hok c (by simp)).1, one_mul]
    | @uniform os cs c c1 c2 id hu h =>
      obtain ⟨l, f, p⟩ := three c c1 c2 os cs (curveAt c.nodes t) (by simpa using hk) hok hu h (by rw [sub_self, abs_zero]; exact htl.1)
      exact ⟨l, f, by rw [p, M_cons]; rfl⟩
    | @uniformDrop os _ c c1 c2 n hu hn hd h =>
      obtain ⟨l, f, p⟩ := three c c1 c2 os cs 1 (by simpa using hk) hok hu h (by
        rw [hn, abs_sub_comm]
        simpa [isDefaultValue, defaultOpValue, OpType.isScale, Tolerances.forOp, OpType.isRotate, OpType.isTranslate, curveAt] using hd.le)
      refine ⟨l, f, ?_⟩
      rw [p]
      have := E_default (t := .scaleUniformly) (Or.inr (Or.inr rfl))
      rw [show defaultOpValue .scaleUniformly = 1 by simp [defaultOpValue, OpType.isScale]] at this
      rw [this, one_mul]

/-! ### The loop makes such steps -/

theorem summable_spec {t : OpType} (ht : t.isRotate ∨ t.isTranslate ∨ t.isScale) : ∀ {rest : List Channel} {k : ℕ}, summableChannel t rest = some k →
    ∃ pre d post, rest = pre ++ d :: post ∧ k = pre.length ∧ d.op = t ∧ (t.isRotate → pre = []) ∧
      (t.isTranslate → ∀ p ∈ pre, p.op.isTranslate)
  | [], k, h => by simp [summableChannel] at h
  | d :: ds, k, h => by
    unfold summableChannel at h
    split_ifs at h with h1 h2 h3 h4
    · obtain rfl : 0 = k := by simpa using h
      exact ⟨[], d, ds, rfl, rfl, h1, fun _ => rfl, by simp⟩
    · cases hs : summableChannel t ds with
      | none => rw [hs] at h; simp at h
      | some j =>
        rw [hs] at h
        obtain rfl : j + 1 = k := by simpa using h
        obtain ⟨pre, e, post, rfl, rfl, he, -, hp⟩ := summable_spec ht hs
        refine ⟨d :: pre, e, post, rfl, rfl, he, fun hr => absurd hr h2, fun htr p hp' => ?_⟩
        rcases List.mem_cons.mp hp' with rfl | hp'
        · by_contra hc; exact h3 (by simp [htr, hc])
        · exact hp htr p hp'

/-- The invariant of the loop. -/
def Good (τ : OpType → ℤ × ℤ) (chs : List Channel) : Prop := (∀ c ∈ chs, Supported c.op ∧ Covers τ c) ∧ chs.Pairwise PairOk

theorem Good.sublist {τ : OpType → ℤ × ℤ} {a b : List Channel} (h : Good τ b) (hs : a.Sublist b) : Good τ a :=
  ⟨fun c hc => h.1 c (hs.subset hc), h.2.sublist hs⟩

theorem PairOk.congr {a b c d : Channel} (h : PairOk a b) (h1 : a.op = c.op) (h2 : a.id = c.id) (h3 : b.op = d.op) (h4 : b.id = d.id) :
    PairOk c d := by
  unfold PairOk at *
  rw [← h1, ← h2, ← h3, ← h4]
  exact h

/-- The nodes of a channel may change. -/
theorem Good.nodes {τ : OpType → ℤ × ℤ} {pre post : List Channel} {c : Channel} {s : List Node} (h : Good τ (pre ++ c :: post))
    (hs : Covers τ { c with nodes := s }) : Good τ (pre ++ { c with nodes := s } :: post) := by
  obtain ⟨h1, h2⟩ := h
  refine ⟨fun d hd => ?_, ?_⟩
  · simp only [List.mem_append, List.mem_cons] at hd
    rcases hd with hd | rfl | hd
    · exact h1 d (by simp [hd])
    · exact ⟨(h1 c (by simp)).1, hs⟩
    · exact h1 d (by simp [hd])
  · rw [List.pairwise_append, List.pairwise_cons] at h2 ⊢
    obtain ⟨p, ⟨q, r⟩, u⟩ := h2
    refine ⟨p, ⟨fun d hd => (q d hd).congr rfl rfl rfl rfl, r⟩, fun a ha b hb => ?_⟩
    rcases List.mem_cons.mp hb with rfl | hb
    · exact (u a ha c (by simp)).congr rfl rfl rfl rfl
    · exact u a ha b (by simp [hb])

/-- After the collapse of three scales. -/
theorem Good.uniform {τ : OpType → ℤ × ℤ} {pre cs : List Channel} {c c1 c2 : Channel} (h : Good τ (pre ++ c :: c1 :: c2 :: cs))
    (hx : opsAreXyz c.op c1.op c2.op) :
    Good τ (pre ++ ⟨.scaleUniformly, c.id + (opValue .scaleUniformly - opValue c.op), c.nodes⟩ :: cs) := by
  obtain ⟨h1, h2⟩ := h
  rw [List.pairwise_append] at h2
  obtain ⟨p, q, u⟩ := h2
  rw [List.pairwise_cons, List.pairwise_cons, List.pairwise_cons] at q
  obtain ⟨q0, q1, q2, q3⟩ := q
  have hsc : ∀ t, IsXyz t → t.isScale = true := by rintro t (rfl | rfl | rfl) <;> rfl
  obtain ⟨x0, x1, x2⟩ := hx.isXyz
  -- later channels are no scales
  have later : ∀ e ∈ cs, ¬ IsXyz e.op ∧ e.op ≠ .scaleUniformly := by
    intro e he
    have a0 := q0 e (by simp [he])
    have a1 := q1 e (by simp [he])
    have a2 := q2 e (by simp [he])
    have n0 := a0.1 (hsc _ x0)
    have n1 := a1.1 (hsc _ x1)
    have n2 := a2.1 (hsc _ x2)
    have m0 := a0.2.1
    have m1 := a1.2.1
    have m2 := a2.2.1
    unfold IsXyz
    rcases xyz_cases hx with ⟨r0, r1, r2⟩ | ⟨r0, r1, r2⟩ | ⟨r0, r1, r2⟩ | ⟨r0, r1, r2⟩ | ⟨r0, r1, r2⟩ | ⟨r0, r1, r2⟩ <;>
      (rw [r0] at n0 m0; rw [r1] at n1 m1; rw [r2] at n2 m2
       refine ⟨?_, ?_⟩
       · rintro (h | h | h) <;> simp_all
       · intro h; simp_all)
  have earlier : ∀ e ∈ pre, ¬ IsXyz e.op ∧ e.op ≠ .scaleUniformly := by
    intro e he
    have a0 := u e he c (by simp)
    have a1 := u e he c1 (by simp)
    have a2 := u e he c2 (by simp)
    have n0 := a0.1
    have n1 := a1.1
    have n2 := a2.1
    have m0 := a0.2.2.1
    have m1 := a1.2.2.1
    have m2 := a2.2.2.1
    have hs := hsc e.op
    unfold IsXyz at hs ⊢
    rcases xyz_cases hx with ⟨r0, r1, r2⟩ | ⟨r0, r1, r2⟩ | ⟨r0, r1, r2⟩ | ⟨r0, r1, r2⟩ | ⟨r0, r1, r2⟩ | ⟨r0, r1, r2⟩ <;>
      (rw [r0] at n0 m0; rw [r1] at n1 m1; rw [r2] at n2 m2
       refine ⟨?_, ?_⟩
       · rintro (h | h | h) <;> simp_all
       · intro h; simp_all)
  have hnt : c.op.isTranslate = false := by rcases x0 with h | h | h <;> rw [h] <;> rfl
  refine ⟨fun d hd => ?_, ?_⟩
  · simp only [List.mem_append, List.mem_cons] at hd
    rcases hd with hd | rfl | hd
    · exact h1 d (by simp [hd])
    · obtain ⟨-, u0, u1, hsp, -⟩ := h1 c (by simp)
      exact ⟨Or.inr (Or.inr rfl), u0, u1, hsp, fun h => by simp [OpType.isScale] at h⟩
    · exact h1 d (by simp [hd])
  · rw [List.pairwise_append, List.pairwise_cons]
    refine ⟨p, ⟨fun e he => ?_, q3⟩, fun e he d hd => ?_⟩
    · obtain ⟨l1, l2⟩ := later e he
      obtain ⟨-, -, -, hid⟩ := q0 e (by simp [he])
      rcases hid with ⟨h, -⟩ | ⟨hlt, hroom⟩
      · rw [hnt] at h; cases h
      · refine ⟨fun _ => l2, by rintro ⟨h, -⟩; simp at h, fun h => l1 (Or.inl h.2), Or.inr ⟨hroom x0 l1, ?_⟩⟩
        intro h; simp [IsXyz] at h
    · rcases List.mem_cons.mp hd with rfl | hd
      · obtain ⟨l1, l2⟩ := earlier e he
        obtain ⟨-, -, -, hid⟩ := u e he c (by simp)
        rcases hid with ⟨-, h⟩ | ⟨hlt, -⟩
        · rw [hnt] at h; cases h
        · refine ⟨fun _ h => l2 h.symm, fun h => l1 (Or.inl h.1), by rintro ⟨-, h⟩; simp at h, Or.inr ⟨?_, fun h => absurd h l1⟩⟩
          change e.id < c.id + _
          omega
      · exact u e he d (by simp [hd])

theorem pruneStep_spec {tl : Tolerances} {nu : Bool} {τ : OpType → ℤ × ℤ} {pre cur os : List Channel} {c : Channel}
    (hg : Good τ (pre ++ c :: cur)) (h : Steps tl os cur) :
    ∃ tail, pruneStep tl nu (c :: cur) = some tail ∧ Steps tl (c :: os) tail ∧ Good τ (pre ++ tail) ∧ tail.length ≤ cur.length + 1 := by
  have hlater : ∀ (c : Channel) (cur : List Channel), Good τ (pre ++ c :: cur) → ∀ d ∈ cur, PairOk c d := by
    intro c cur hg d hd
    have := (List.pairwise_append.mp hg.2).2.1
    exact (List.pairwise_cons.mp this).1 d hd
  have hcons : ∀ (d : Channel) (l : List Channel), (pre ++ l).Sublist (pre ++ d :: l) := fun d l =>
    List.Sublist.append (List.Sublist.refl pre) (List.sublist_cons_self d l)
  by_cases hu : nu = false ∧ uniformScaleChannels tl (c :: cur)
  · obtain ⟨c1, c2, cs, rfl⟩ : ∃ c1 c2 cs, cur = c1 :: c2 :: cs := by
      obtain ⟨-, hu⟩ := hu
      match cur with
      | [] => exact absurd hu (by simp [uniformScaleChannels])
      | [_] => exact absurd hu (by simp [uniformScaleChannels])
      | c1 :: c2 :: cs => exact ⟨c1, c2, cs, rfl⟩
    have hg' := hg.uniform hu.2.1
    have hsum : summableChannel .scaleUniformly cs = none := by
      cases hs : summableChannel .scaleUniformly cs with
      | none => rfl
      | some k =>
        obtain ⟨p, d, q, rfl, -, hd, -⟩ := summable_spec (Or.inr (Or.inr rfl)) hs
        exact absurd hd ((hlater _ _ hg' d (by simp)).1 rfl)
    have e1 : collapseScale tl nu (c :: c1 :: c2 :: cs) =
        ⟨.scaleUniformly, c.id + (opValue .scaleUniformly - opValue c.op), c.nodes⟩ :: cs := by
      simp only [collapseScale]; rw [if_pos hu]; rfl
    have e2 : sumWithLater (collapseScale tl nu (c :: c1 :: c2 :: cs)) =
        some (⟨.scaleUniformly, c.id + (opValue .scaleUniformly - opValue c.op), c.nodes⟩ :: cs) := by
      rw [e1]; simp only [sumWithLater, hsum]
    unfold pruneStep
    rw [e2]
    by_cases hd : ∃ n, c.nodes = [n] ∧ isDefaultValue tl .scaleUniformly n.val
    · obtain ⟨n, hn, hd⟩ := hd
      refine ⟨cs, ?_, .uniformDrop c c1 c2 n hu.2 hn hd h, hg'.sublist (hcons _ _), by simp; omega⟩
      simp only [dropDefault, hn]
      rw [if_pos hd]
    · refine ⟨_, ?_, .uniform c c1 c2 _ hu.2 h, hg', by simp⟩
      simp only [dropDefault]
      congr 1
      split
      · rename_i n hn
        rw [if_neg (fun h' => hd ⟨n, hn, h'⟩)]
      · rfl
  · have e1 : collapseScale tl nu (c :: cur) = c :: cur := by simp only [collapseScale]; rw [if_neg hu]
    unfold pruneStep
    rw [e1]
    cases hs : summableChannel c.op cur with
    | none =>
      have e2 : sumWithLater (c :: cur) = some (c :: cur) := by simp only [sumWithLater, hs]
      rw [e2]
      by_cases hd : ∃ n, c.nodes = [n] ∧ isDefaultValue tl c.op n.val
      · obtain ⟨n, hn, hd⟩ := hd
        refine ⟨cur, ?_, .drop c n hn hd h, hg.sublist (hcons _ _), by simp⟩
        simp only [dropDefault, hn]
        rw [if_pos hd]
      · refine ⟨_, ?_, .keep c h, hg, by simp⟩
        simp only [dropDefault]
        congr 1
        split
        · rename_i n hn
          rw [if_neg (fun h' => hd ⟨n, hn, h'⟩)]
        · rfl
    | some k =>
      obtain ⟨p, d, q, rfl, rfl, hop, hr, htr⟩ := summable_spec (hg.1 c (by simp)).1 hs
      have hnscale : ¬ c.op.isScale = true := fun hsc => (hlater _ _ hg d (by simp)).1 hsc hop
      have hj : Joins c p := by
        rcases (hg.1 c (by simp)).1 with h | h | h
        · exact Or.inl ⟨h, hr h⟩
        · exact Or.inr ⟨h, htr h⟩
        · exact absurd h hnscale
      obtain ⟨u0, u1, hsc, htc⟩ := (hg.1 c (by simp)).2
      obtain ⟨v0, v1, hsd, htd⟩ := (hg.1 d (by simp)).2
      have hf : c.op.isScale = false := by simpa using hnscale
      rw [hop] at htd
      obtain ⟨rfl, rfl⟩ : u0 = v0 ∧ u1 = v1 := by
        have := (htc hf).symm.trans (htd hf)
        simpa using this
      obtain ⟨s, hs1, hs2, -, hs4⟩ := C52_sum hsc hsd
      have e2 : sumWithLater (c :: (p ++ d :: q)) = some ({ c with nodes := s } :: (p ++ q)) := by
        simp only [sumWithLater, hs]
        rw [List.getElem?_append_right le_rfl, Nat.sub_self]
        simp only [List.getElem?_cons_zero, hs1]
        rw [List.eraseIdx_append_of_length_le le_rfl, Nat.sub_self]
        rfl
      rw [e2]
      have hg' : Good τ (pre ++ { c with nodes := s } :: (p ++ q)) := by
        refine Good.nodes ?_ ⟨u0, u1, hs2, htc⟩
        apply hg.sublist
        refine List.Sublist.append (List.Sublist.refl pre) (List.Sublist.cons_cons c ?_)
        exact List.Sublist.append (List.Sublist.refl p) (List.sublist_cons_self d q)
      by_cases hd : ∃ n, s = [n] ∧ isDefaultValue tl c.op n.val
      · obtain ⟨n, hn, hd⟩ := hd
        subst hn
        refine ⟨p ++ q, ?_, .sumDrop c d n hop hj hs4 hd h, hg'.sublist (hcons _ _), by simp; omega⟩
        simp only [dropDefault]
        rw [if_pos hd]
      · refine ⟨_, ?_, .sum c d s hop hj hs4 h, hg', by simp⟩
        simp only [dropDefault]
        congr 1
        rcases s with _ | ⟨n, _ | ⟨m, s⟩⟩
        · rfl
        · change (if isDefaultValue tl c.op n.val then _ else _) = _
          rw [if_neg (fun h' => hd ⟨n, rfl, h'⟩)]
        · rfl

theorem pruneLoop_spec {tl : Tolerances} {nu : Bool} {τ : OpType → ℤ × ℤ} : ∀ (k : ℕ) {pre cur os : List Channel}, pre.length = k →
    Good τ (pre ++ cur) → Steps tl os cur → ∃ out, pruneLoop tl nu k (pre ++ cur) = some out ∧ Steps tl (pre ++ os) out ∧
      Good τ out ∧ out.length ≤ (pre ++ cur).length := by
  intro k
  induction k with
  | zero =>
    intro pre cur os hk hg h
    obtain rfl : pre = [] := List.length_eq_zero_iff.mp hk
    exact ⟨cur, rfl, h, hg, le_rfl⟩
  | succ k ih =>
    intro pre cur os hk hg h
    obtain ⟨pre, c, rfl⟩ : ∃ p c, pre = p ++ [c] := by
      rcases List.eq_nil_or_concat pre with rfl | ⟨p, c, rfl⟩
      · simp at hk
      · exact ⟨p, c, by simp⟩
    have hk : pre.length = k := by simpa using hk
    rw [List.append_assoc] at hg ⊢
    change Good τ (pre ++ c :: cur) at hg
    change ∃ out, pruneLoop tl nu (k + 1) (pre ++ c :: cur) = _ ∧ _
    obtain ⟨tail, t1, t2, t3, t4⟩ := pruneStep_spec (nu := nu) hg h
    obtain ⟨out, o1, o2, o3, o4⟩ := ih hk t3 t2
    refine ⟨out, ?_, by simpa using o2, o3, ?_⟩
    · unfold pruneLoop
      rw [← hk, List.drop_left, List.take_left, t1, hk]
      exact o1
    · simp only [List.length_append, List.length_cons, List.length_nil] at o4 t4 ⊢
      omega

/-! ### The sort -/

/-- Channels that ascend except for translations represent the same when they are sorted. -/
theorem M_sorted {τ : OpType → ℤ × ℤ} (t : ℝ) : ∀ (b a : List Channel), Good τ a → b.Perm a → b.Pairwise (fun c d => c.id ≤ d.id) → M t b = M t a
  | [], a, _, hp, _ => by rw [List.Perm.eq_nil hp.symm]
  | x :: b, a, hg, hp, hs => by
    obtain ⟨p, q, rfl⟩ := List.append_of_mem (hp.subset (List.mem_cons_self))
    have hp' : b.Perm (p ++ q) := (List.perm_cons x).mp (hp.trans List.perm_middle)
    rw [List.pairwise_cons] at hs
    have hx : ∀ e ∈ p, e.op.isTranslate ∧ x.op.isTranslate := by
      intro e he
      have h1 := (List.pairwise_append.mp hg.2).2.2 e he x (by simp)
      rcases h1.2.2.2 with h | ⟨h, -⟩
      · exact h
      · have := hs.1 e (hp'.symm.subset (by simp [he]))
        omega
    have hmv : M t (p ++ x :: q) = E (opAt t x) * M t (p ++ q) := by
      rw [M_append, M_cons, M_append, ← mul_assoc, ← mul_assoc]
      congr 1
      cases p with
      | nil => simp [M]
      | cons e p => exact (M_comm (hx e (by simp)).2 (fun d hd => (hx d hd).1) t _).symm
    rw [hmv, M_cons, M_sorted t b (p ++ q) (hg.sublist (List.Sublist.append (List.Sublist.refl p) (List.sublist_cons_self x q))) hp' hs.2]

/-- C52: `PruneChannels` succeeds for the channels of a bone that `PairOk` and `ChannelOk` describe, with curves that are constant or, if they
are of the same kind, cover the same time.  At every time, the matrix and the scale that the resulting channels represent are those of the original operations, each with its
own value at that time up to the tolerance of its kind (for scales: up to twice the tolerance, and what slopes that count as equal can add
between two nodes).  The ids of the result ascend and there are not more channels than before. -/
theorem C52_prune_channels {tl : Tolerances} (htl : tl.Ok) {nu : Bool} {τ : OpType → ℤ × ℤ} {w : ℝ} (hw : 0 ≤ w) {sort : List Channel → List Channel}
    (hsort : Sorts sort) {chs : List Channel} (hok : ∀ c ∈ chs, ChannelOk τ w c) (hpair : chs.Pairwise PairOk) :
    ∃ out, pruneChannels sort tl nu chs = some out ∧ out.length ≤ chs.length ∧ out.Pairwise (fun c d => c.id ≤ d.id) ∧
      ∀ t : ℝ, ∃ l : List (OpType × ℝ), List.Forall₂ (fun p c => p.1 = c.op ∧ |p.2 - curveAt c.nodes t| ≤ tl.error w c.op) l chs ∧
        (calculate (out.map (opAt t))).isSome ∧ calculate (out.map (opAt t)) = calculate l := by
  have hg : Good τ chs := ⟨fun c hc => ⟨(hok c hc).1, (hok c hc).2.1⟩, hpair⟩
  obtain ⟨out, o1, o2, o3, o4⟩ := pruneLoop_spec (tl := tl) (nu := nu) chs.length (pre := chs) (cur := []) (os := []) rfl
    (by simpa using hg) .nil
  rw [List.append_nil] at o1 o2 o4
  obtain ⟨s1, s2⟩ := hsort out
  refine ⟨sort out, ?_, ?_, s2, fun t => ?_⟩
  · unfold pruneChannels; rw [o1]
  · rw [s1.length_eq]; exact o4
  · obtain ⟨l, f, p⟩ := o2.close htl hw t chs.length le_rfl hok
    have hl : ∀ op ∈ l, Supported op.1 := by
      intro op hop
      obtain ⟨i, hi, rfl⟩ := List.mem_iff_getElem.mp hop
      have hi' : i < chs.length := f.length_eq ▸ hi
      have := (List.forall₂_iff_get.mp f).2 i hi hi'
      simp only [List.get_eq_getElem] at this
      rw [this.1]
      exact (hok _ (List.getElem_mem hi')).1
    have ho : ∀ op ∈ (sort out).map (opAt t), Supported op.1 := by
      intro op hop
      obtain ⟨c, hc, rfl⟩ := List.mem_map.mp hop
      exact (o3.1 c (s1.subset hc)).1
    have e : (((sort out).map (opAt t)).map E).prod = (l.map E).prod := by
      rw [p, ← M_sorted t (sort out) out o3 s1 s2, M, List.map_map]; rfl
    refine ⟨l, f, ?_, ?_⟩
    · rw [C42_result_is_product _ ho]; rfl
    · rw [C42_result_is_product _ ho, C42_result_is_product _ hl, ← prod_E, ← prod_E, e]

/-- C52: scale channels of the same kind are added instead of multiplied.  Constant scales of the x-axis by 2 and 3 make a scale by 5. -/
theorem C52_scales_are_added : ∃ (tl : Tolerances) (a b c : Channel), tl.Ok ∧ a.op = .scaleX ∧ b.op = .scaleX ∧ a.id < b.id ∧
    (∀ sort, Sorts sort → pruneChannels sort tl false [a, b] = some [c]) ∧ ∀ t : ℝ,
    (calculate ([a, b].map (opAt t))).map (fun r => r.2 0) = some 6 ∧ (calculate ([c].map (opAt t))).map (fun r => r.2 0) = some 5 := by
  refine ⟨⟨1 / 10, 1 / 10, 1 / 10, 1 / 10, 1 / 10⟩, ⟨.scaleX, 0, [⟨0, 2, 0⟩]⟩, ⟨.scaleX, 1, [⟨0, 3, 0⟩]⟩, ⟨.scaleX, 0, [⟨0, 5, 0⟩]⟩,
    ?_, rfl, rfl, by norm_num, ?_, ?_⟩
  · have := Real.two_le_pi
    unfold Tolerances.Ok
    refine ⟨?_, ?_, ?_, ?_, ?_⟩ <;> norm_num
    linarith
  · intro sort hsort
    have hl : pruneLoop ⟨1 / 10, 1 / 10, 1 / 10, 1 / 10, 1 / 10⟩ false 2 [⟨.scaleX, 0, [⟨0, 2, 0⟩]⟩, ⟨.scaleX, 1, [⟨0, 3, 0⟩]⟩] =
        some [⟨.scaleX, 0, [⟨0, 5, 0⟩]⟩] := by
      have hs : sumNodes [⟨0, 2, 0⟩] [⟨0, 3, 0⟩] = some [⟨0, 5, 0⟩] := by
        simp only [sumNodes, List.length_singleton, if_true]
        rw [sumLoop_none _ _ rfl]
        norm_num
      norm_num [pruneLoop, pruneStep, collapseScale, uniformScaleChannels, sumWithLater, summableChannel, dropDefault, isDefaultValue,
        defaultOpValue, OpType.isScale, Tolerances.forOp, OpType.isRotate, OpType.isTranslate, hs]
    unfold pruneChannels
    simp only [List.length_cons, List.length_nil]
    rw [hl]
    obtain ⟨h, -⟩ := hsort [⟨.scaleX, 0, [⟨0, 5, 0⟩]⟩]
    exact congrArg some (List.perm_singleton.mp h)
  · intro t
    rw [C42_result_is_product _ (by simp [opAt, Supported, OpType.isScale]), C42_result_is_product _ (by simp [opAt, Supported, OpType.isScale])]
    norm_num [opAt, curveAt, scaling]

/-- C52: a quaternion whose w-component is constantly zero loses that component, although a missing w-component means one and not zero. -/
theorem C52_quaternion_component_dropped : ∃ (tl : Tolerances) (c : Channel), tl.Ok ∧ c.op = .quatW ∧ (∀ t, curveAt c.nodes t = 0) ∧
    OpType.default .quatW = 1 ∧ ∀ sort, Sorts sort → pruneChannels sort tl false [c] = some [] := by
  refine ⟨⟨1 / 10, 1 / 10, 1 / 10, 1 / 10, 1 / 10⟩, ⟨.quatW, 0, [⟨0, 0, 0⟩]⟩, ?_, rfl, fun t => rfl, ?_, ?_⟩
  · have := Real.two_le_pi
    unfold Tolerances.Ok
    refine ⟨?_, ?_, ?_, ?_, ?_⟩ <;> norm_num
    linarith
  · simp [OpType.default, OpType.isScale]
  · intro sort hsort
    have hl : pruneLoop ⟨1 / 10, 1 / 10, 1 / 10, 1 / 10, 1 / 10⟩ false 1 [⟨.quatW, 0, [⟨0, 0, 0⟩]⟩] = some [] := by
      norm_num [pruneLoop, pruneStep, collapseScale, uniformScaleChannels, sumWithLater, summableChannel, dropDefault, isDefaultValue,
        defaultOpValue, OpType.isScale, Tolerances.forOp, OpType.isRotate, OpType.isTranslate]
    unfold pruneChannels
    simp only [List.length_cons, List.length_nil]
    rw [hl]
    exact congrArg some (List.Perm.eq_nil (hsort []).1)

/-- The hypotheses of `C52_prune_channels` are met by a bone with two translations along the same axis, of which the second has a lower id, a
rotation with a corner, and scales of the three axes; `std::sort` may be insertion sort. -/
example : ∃ (tl : Tolerances) (sort : List Channel → List Channel), tl.Ok ∧ Sorts sort ∧ ∃ chs : List Channel, chs.length = 6 ∧
    (∀ c ∈ chs, ChannelOk (fun op => if op = .rotateZ then (10, 110) else (0, 100)) 100 c) ∧ chs.Pairwise PairOk := by
  refine ⟨⟨1 / 10, 1 / 10, 1 / 10, 1 / 10, 1 / 10⟩, List.insertionSort (fun c d : Channel => c.id ≤ d.id), ?_, ?_,
    [⟨.translateX, 1, [⟨0, 1, 0⟩, ⟨100, 2, 0⟩]⟩, ⟨.translateX, 0, [⟨0, 5, 0⟩]⟩, ⟨.rotateZ, 3, [⟨10, 0, 0⟩, ⟨40, 1, 0⟩, ⟨40, 1, -1⟩, ⟨110, 0, 0⟩]⟩,
      ⟨.scaleX, 15, [⟨0, 2, 0⟩]⟩, ⟨.scaleY, 16, [⟨0, 2, 0⟩]⟩, ⟨.scaleZ, 17, [⟨0, 2, 0⟩]⟩], rfl, ?_, ?_⟩
  · have := Real.two_le_pi
    unfold Tolerances.Ok
    refine ⟨?_, ?_, ?_, ?_, ?_⟩ <;> norm_num
    linarith
  · intro l
    have : Std.Total (fun c d : Channel => c.id ≤ d.id) := ⟨fun a b => Nat.le_total a.id b.id⟩
    have : IsTrans Channel (fun c d : Channel => c.id ≤ d.id) := ⟨fun a b c => Nat.le_trans⟩
    exact ⟨List.perm_insertionSort _ l, List.pairwise_insertionSort _ l⟩
  · intro c hc
    simp only [List.mem_cons, List.not_mem_nil, or_false] at hc
    rcases hc with rfl | rfl | rfl | rfl | rfl | rfl
    · exact ⟨by simp [Supported, OpType.isTranslate], ⟨0, 100, by simp [Spans, kinked_pair], by simp⟩, by simp [IsXyz]⟩
    · exact ⟨by simp [Supported, OpType.isTranslate], ⟨0, 100, by simp [Spans], by simp⟩, by simp [IsXyz]⟩
    · exact ⟨by simp [Supported, OpType.isRotate], ⟨10, 110, by simp [Spans, kinked_pair, kinked_cons], by simp⟩, by simp [IsXyz]⟩
    all_goals exact ⟨by simp [Supported, OpType.isScale], ⟨0, 100, by simp [Spans], by simp [OpType.isScale]⟩, by simp [Gaps]⟩
  · simp [PairOk, IsXyz, opValue, OpType.isTranslate, OpType.isScale]

end
end Motive.Pipeline
