import Verif.Rig.Globals
import Verif.Matrix.SqtProps
/-!
# Model of the average of poses (src/motive/processor/rig_data.h: `CalculateBlendedGlobalTransforms`)

Idealisation: `float` is `ℝ`.
-/

namespace Motive.Rig
open Motive.Matrix4

noncomputable section

/-- What `MatrixMotivator4f::Value(&position, &rotation_vec, &scale)` returns. -/
structure Pose where
  position : Fin 3 → ℝ
  rotation : Quat
  scale : Fin 3 → ℝ

/-- The values before `Value` (rig_data.h:425-430): those of a bone that has not been animated. -/
def Pose.rest : Pose := ⟨0, .one, 1⟩

/-- The variables of the loop over the animations (rig_data.h:407-416). -/
structure Acc where
  first : Quat
  position : Fin 3 → ℝ
  rotation : Quat
  scale : Fin 3 → ℝ

open Classical in
/-- The body of the loop (rig_data.h:420-450), for animation `j`. -/
def Acc.step (a : Acc) (j : ℕ) (w : ℝ) (p : Pose) : Acc :=
  let first := if j = 0 then p.rotation else a.first
  let rw := if j ≠ 0 ∧ first.dot p.rotation < 0 then w * -1 else w
  ⟨first, a.position + w • p.position, a.rotation.add (p.rotation.smul rw), a.scale + w • p.scale⟩

/-- The loop (rig_data.h:419-451). -/
def Acc.run (a : Acc) (j : ℕ) : List (ℝ × Pose) → Acc
  | [] => a
  | p :: ps => (a.step j p.1 p.2).run (j + 1) ps

/-- The local transform (rig_data.h:407-459). -/
def average (ps : List (ℝ × Pose)) : Option Mat4 :=
  let a := Acc.run ⟨.one, 0, ⟨0, 0, 0, 0⟩, 0⟩ 0 ps
  a.rotation.normalize.map fun r => transform a.position r.toMatrix a.scale

/-! ### Specification -/

/-- The transform of a pose: scale, then rotate, then translate. -/
def Pose.matrix (p : Pose) : Option Mat4 := p.rotation.normalize.map fun r => transform p.position r.toMatrix p.scale

/-- Weights that are normalised. -/
def Normalised (ws : List ℝ) : Prop := (∀ w ∈ ws, 0 ≤ w) ∧ ws.sum = 1

open Classical in
/-- The rotation, or its negative, that is in the hemisphere of `f`. -/
def toward (f q : Quat) : Quat := if f.dot q < 0 then q.neg else q

/-! ### Proofs -/

theorem Quat.add_zero' (q : Quat) : Quat.add ⟨0, 0, 0, 0⟩ q = q := by simp [Quat.add]
theorem Quat.add_assoc' (p q r : Quat) : (p.add q).add r = p.add (q.add r) := by simp [Quat.add, add_assoc]

/-- The sum of quaternions. -/
def quatSum : List Quat → Quat
  | [] => ⟨0, 0, 0, 0⟩
  | q :: qs => q.add (quatSum qs)

theorem Quat.add_zero_right (q : Quat) : q.add ⟨0, 0, 0, 0⟩ = q := by simp [Quat.add]

theorem run_later (ps : List (ℝ × Pose)) : ∀ (a : Acc) (j : ℕ), j ≠ 0 → a.run j ps =
    ⟨a.first, a.position + (ps.map fun p => p.1 • p.2.position).sum,
      a.rotation.add (quatSum (ps.map fun p => (toward a.first p.2.rotation).smul p.1)),
      a.scale + (ps.map fun p => p.1 • p.2.scale).sum⟩ := by
  induction ps with
  | nil => intro a j _; simp [Acc.run, quatSum, Quat.add_zero_right]
  | cons p ps ih =>
    intro a j hj
    rw [Acc.run, ih _ _ (by omega)]
    have hq : p.2.rotation.smul (if j ≠ 0 ∧ a.first.dot p.2.rotation < 0 then p.1 * -1 else p.1) = (toward a.first p.2.rotation).smul p.1 := by
      unfold toward
      by_cases h : a.first.dot p.2.rotation < 0
      · rw [if_pos ⟨hj, h⟩, if_pos h]; simp [Quat.smul, Quat.neg]
      · rw [if_neg (fun h' => h h'.2), if_neg h]
    simp only [Acc.step, if_neg hj, List.map_cons, List.sum_cons, quatSum]
    rw [hq, Quat.add_assoc', add_assoc, add_assoc]

theorem dot_self_add (q : Quat) : ¬ q.dot q < 0 := not_lt.mpr (Quat.dot_self_nonneg q)

theorem toward_self (q : Quat) : toward q q = q := if_neg (dot_self_add q)

/-- The average: the position and the scale are the weighted sums, and the rotation is the normalised weighted sum of the rotations, each
turned to the hemisphere of the first. -/
theorem C46_average (w : ℝ) (p : Pose) (ps : List (ℝ × Pose)) :
    average ((w, p) :: ps) = (quatSum (((w, p) :: ps).map fun x => (toward p.rotation x.2.rotation).smul x.1)).normalize.map fun r =>
      transform (((w, p) :: ps).map fun x => x.1 • x.2.position).sum r.toMatrix (((w, p) :: ps).map fun x => x.1 • x.2.scale).sum := by
  unfold average
  rw [Acc.run, run_later _ _ _ (by omega)]
  simp [Acc.step, quatSum, Quat.add_zero', toward_self]

theorem sum_smul_const (ps : List (ℝ × Pose)) (f : Pose → Fin 3 → ℝ) (v : Fin 3 → ℝ) (h : ∀ p ∈ ps, f p.2 = v) :
    (ps.map fun p => p.1 • f p.2).sum = (ps.map Prod.fst).sum • v := by
  induction ps with
  | nil => simp
  | cons p ps ih =>
    rw [List.map_cons, List.sum_cons, ih (fun x hx => h x (by simp [hx])), h p (by simp), List.map_cons, List.sum_cons, add_smul]

theorem quatSum_const (l : List (ℝ × Quat)) (q : Quat) (h : ∀ x ∈ l, x.2 = q) :
    quatSum (l.map fun x => x.2.smul x.1) = q.smul (l.map Prod.fst).sum := by
  induction l with
  | nil => simp [quatSum, Quat.smul]
  | cons x l ih =>
    rw [List.map_cons, quatSum, ih (fun y hy => h y (by simp [hy])), h x (by simp), List.map_cons, List.sum_cons]
    simp only [Quat.smul, Quat.add]
    ext <;> ring

theorem normalize_toward (f q : Quat) (t s : Fin 3 → ℝ) :
    ((toward f q).normalize.map fun r => transform t r.toMatrix s) = q.normalize.map fun r => transform t r.toMatrix s := by
  unfold toward
  split_ifs
  · rw [normalize_neg, Option.map_map]
    congr 1
    funext r
    simp [C44_neg_same_rotation]
  · rfl

/-- C46: to blend poses that are all the same, up to the sign of their rotations, gives that pose. -/
theorem C46_identical (p : Pose) (ps : List (ℝ × Pose)) (hne : ps ≠ []) (hw : Normalised (ps.map Prod.fst))
    (h : ∀ x ∈ ps, x.2.position = p.position ∧ x.2.scale = p.scale ∧ (x.2.rotation = p.rotation ∨ x.2.rotation = p.rotation.neg)) :
    average ps = p.matrix := by
  obtain ⟨⟨w, p0⟩, ps, rfl⟩ : ∃ x l, ps = x :: l := by cases ps with
    | nil => exact absurd rfl hne
    | cons x l => exact ⟨x, l, rfl⟩
  obtain ⟨h1, h2, h3⟩ := h (w, p0) (by simp)
  rw [C46_average, sum_smul_const _ (fun q => q.position) p.position (fun x hx => (h x hx).1),
    sum_smul_const _ (fun q => q.scale) p.scale (fun x hx => (h x hx).2.1), hw.2, one_smul, one_smul]
  have hr : ∀ x ∈ ((w, p0) :: ps), toward p0.rotation x.2.rotation = p0.rotation ∨ p.rotation.dot p.rotation = 0 := by
    intro x hx
    by_cases h0 : p.rotation.dot p.rotation = 0
    · exact Or.inr h0
    left
    have hpos : 0 < p.rotation.dot p.rotation := lt_of_le_of_ne (Quat.dot_self_nonneg _) (Ne.symm h0)
    have hneg : -p.rotation.dot p.rotation < 0 := by linarith
    unfold toward
    rcases h3 with e | e <;> rcases (h x hx).2.2 with e' | e' <;> rw [e, e']
    · rw [if_neg (dot_self_add _)]
    · rw [Quat.dot_neg_right, if_pos hneg, Quat.neg_neg]
    · rw [Quat.dot_neg, if_pos hneg]
    · rw [if_neg (dot_self_add _)]
  by_cases h0 : p.rotation.dot p.rotation = 0
  · have hz : p.rotation = ⟨0, 0, 0, 0⟩ := by
      unfold Quat.dot at h0
      have a := mul_self_nonneg p.rotation.w
      have b := mul_self_nonneg p.rotation.x
      have c := mul_self_nonneg p.rotation.y
      have d := mul_self_nonneg p.rotation.z
      ext
      · exact mul_self_eq_zero.mp (by linarith)
      · exact mul_self_eq_zero.mp (by linarith)
      · exact mul_self_eq_zero.mp (by linarith)
      · exact mul_self_eq_zero.mp (by linarith)
    have hall : ∀ x ∈ ((w, p0) :: ps), toward p0.rotation x.2.rotation = ⟨0, 0, 0, 0⟩ := by
      intro x hx
      have : x.2.rotation = ⟨0, 0, 0, 0⟩ := by
        rcases (h x hx).2.2 with e | e <;> rw [e, hz]; simp [Quat.neg]
      unfold toward
      rw [this]
      split_ifs
      · simp [Quat.neg]
      · rfl
    have := quatSum_const (((w, p0) :: ps).map fun x => (x.1, toward p0.rotation x.2.rotation)) ⟨0, 0, 0, 0⟩ (by
      intro x hx
      obtain ⟨y, hy, rfl⟩ := List.mem_map.mp hx
      exact hall y hy)
    rw [List.map_map, List.map_map] at this
    change quatSum (((w, p0) :: ps).map fun x => (toward p0.rotation x.2.rotation).smul x.1) = _ at this
    rw [this, Pose.matrix, hz]
    simp [Quat.smul, Quat.normalize, Quat.dot]
  · have hall : ∀ x ∈ ((w, p0) :: ps), toward p0.rotation x.2.rotation = p0.rotation := fun x hx => (hr x hx).resolve_right h0
    have := quatSum_const (((w, p0) :: ps).map fun x => (x.1, toward p0.rotation x.2.rotation)) p0.rotation (by
      intro x hx
      obtain ⟨y, hy, rfl⟩ := List.mem_map.mp hx
      exact hall y hy)
    rw [List.map_map, List.map_map] at this
    change quatSum (((w, p0) :: ps).map fun x => (toward p0.rotation x.2.rotation).smul x.1) = p0.rotation.smul (((w, p0) :: ps).map Prod.fst).sum at this
    rw [this, hw.2, Pose.matrix]
    have h1 : p0.rotation.smul 1 = p0.rotation := by simp [Quat.smul]
    rw [h1]
    rcases h3 with e | e
    · rw [e]
    · rw [e, normalize_neg, Option.map_map]
      congr 1
      funext r
      simp [C44_neg_same_rotation]

theorem sum_eq_single (ps qs : List (ℝ × Pose)) (p : Pose) (f : Pose → Fin 3 → ℝ) (h : ∀ x ∈ ps ++ qs, x.1 = 0) :
    ((ps ++ (1, p) :: qs).map fun x => x.1 • f x.2).sum = f p := by
  have hz : ∀ l : List (ℝ × Pose), (∀ x ∈ l, x.1 = 0) → (l.map fun x => x.1 • f x.2).sum = 0 := by
    intro l hl
    induction l with
    | nil => rfl
    | cons x l ih => rw [List.map_cons, List.sum_cons, hl x (by simp), zero_smul, ih (fun y hy => hl y (by simp [hy])), zero_add]
  rw [List.map_append, List.sum_append, hz ps (fun x hx => h x (by simp [hx])), List.map_cons, List.sum_cons,
    hz qs (fun x hx => h x (by simp [hx]))]
  simp

theorem quatSum_single (f : Quat) (ps qs : List (ℝ × Pose)) (p : Pose) (h : ∀ x ∈ ps ++ qs, x.1 = 0) :
    quatSum ((ps ++ (1, p) :: qs).map fun x => (toward f x.2.rotation).smul x.1) = toward f p.rotation := by
  have hz : ∀ l : List (ℝ × Pose), (∀ x ∈ l, x.1 = 0) → quatSum (l.map fun x => (toward f x.2.rotation).smul x.1) = ⟨0, 0, 0, 0⟩ := by
    intro l hl
    induction l with
    | nil => rfl
    | cons x l ih =>
      rw [List.map_cons, quatSum, hl x (by simp), ih (fun y hy => hl y (by simp [hy]))]
      simp [Quat.smul, Quat.add]
  have happ : ∀ a b : List Quat, quatSum (a ++ b) = (quatSum a).add (quatSum b) := by
    intro a b
    induction a with
    | nil => simp [quatSum, Quat.add_zero']
    | cons x a ih => rw [List.cons_append, quatSum, ih, quatSum, Quat.add_assoc']
  rw [List.map_append, happ, hz ps (fun x hx => h x (by simp [hx])), List.map_cons, quatSum, hz qs (fun x hx => h x (by simp [hx])),
    Quat.add_zero', Quat.add_zero_right]
  simp [Quat.smul]

/-- C46: an animation that has all the weight determines the pose. -/
theorem C46_full_weight (ps qs : List (ℝ × Pose)) (p : Pose) (h : ∀ x ∈ ps ++ qs, x.1 = 0) : average (ps ++ (1, p) :: qs) = p.matrix := by
  obtain ⟨⟨w, p0⟩, l, hl⟩ : ∃ x l, ps ++ (1, p) :: qs = x :: l := by cases ps with
    | nil => exact ⟨_, _, rfl⟩
    | cons x l => exact ⟨_, _, rfl⟩
  rw [hl, C46_average, ← hl, sum_eq_single ps qs p (·.position) h, sum_eq_single ps qs p (·.scale) h, quatSum_single _ ps qs p h]
  exact normalize_toward _ _ _ _

theorem sum_between (l : List (ℝ × Pose)) (f : Pose → Fin 3 → ℝ) (i : Fin 3) (a b : ℝ) (hw : ∀ x ∈ l, 0 ≤ x.1)
    (h : ∀ x ∈ l, a ≤ f x.2 i ∧ f x.2 i ≤ b) :
    a * (l.map Prod.fst).sum ≤ (l.map fun x => x.1 • f x.2).sum i ∧ (l.map fun x => x.1 • f x.2).sum i ≤ b * (l.map Prod.fst).sum := by
  induction l with
  | nil => simp
  | cons x l ih =>
    obtain ⟨i1, i2⟩ := ih (fun y hy => hw y (by simp [hy])) (fun y hy => h y (by simp [hy]))
    obtain ⟨b1, b2⟩ := h x (by simp)
    have hx := hw x (by simp)
    rw [List.map_cons, List.sum_cons, List.map_cons, List.sum_cons, Pi.add_apply, Pi.smul_apply, smul_eq_mul]
    have c1 := mul_le_mul_of_nonneg_left b1 hx
    have c2 := mul_le_mul_of_nonneg_left b2 hx
    constructor <;> linarith

theorem quatSum_dot (f : Quat) (l : List (ℝ × Pose)) (hw : ∀ x ∈ l, 0 ≤ x.1) :
    0 ≤ f.dot (quatSum (l.map fun x => (toward f x.2.rotation).smul x.1)) := by
  induction l with
  | nil => simp [quatSum, Quat.dot]
  | cons x l ih =>
    have i1 := ih (fun y hy => hw y (by simp [hy]))
    rw [List.map_cons, quatSum]
    have hadd : ∀ p q : Quat, f.dot (p.add q) = f.dot p + f.dot q := by intro p q; simp [Quat.dot, Quat.add]; ring
    rw [hadd, Quat.dot_smul_right]
    have h0 : 0 ≤ f.dot (toward f x.2.rotation) := by
      unfold toward
      split_ifs with h
      · rw [Quat.dot_neg_right]; linarith
      · linarith
    have := mul_nonneg (hw x (by simp)) h0
    linarith

theorem normalize_unit {q r : Quat} (h : q.normalize = some r) : r.dot r = 1 := by
  unfold Quat.normalize at h
  split_ifs at h with h0
  cases h
  have hpos : 0 < q.dot q := lt_of_le_of_ne (Quat.dot_self_nonneg _) (Ne.symm h0)
  rw [Quat.dot_smul, Quat.dot_smul_right, ← mul_assoc, sq_sqrt_inv hpos]

/-- C46: if the first animation has some weight, and its rotation is not zero, then the average is defined. Each coordinate of its position
and of its scale is between those of the poses, and its rotation is a rotation. -/
theorem C46_average_between (w : ℝ) (p : Pose) (ps : List (ℝ × Pose)) (hw : Normalised (((w, p) :: ps).map Prod.fst)) (h0 : 0 < w)
    (hq : p.rotation ≠ ⟨0, 0, 0, 0⟩) :
    ∃ t r s, average ((w, p) :: ps) = some (transform t (Quat.toMatrix r) s) ∧ r.dot r = 1 ∧ IsRotation r.toMatrix ∧ 0 < p.rotation.dot r ∧
      (∀ i a b, (∀ x ∈ (w, p) :: ps, a ≤ x.2.position i ∧ x.2.position i ≤ b) → a ≤ t i ∧ t i ≤ b) ∧
      (∀ i a b, (∀ x ∈ (w, p) :: ps, a ≤ x.2.scale i ∧ x.2.scale i ≤ b) → a ≤ s i ∧ s i ≤ b) := by
  have hw0 : ∀ x ∈ (w, p) :: ps, 0 ≤ x.1 := fun x hx => hw.1 _ (List.mem_map.mpr ⟨x, hx, rfl⟩)
  have hpos : 0 < p.rotation.dot p.rotation := by
    refine lt_of_le_of_ne (Quat.dot_self_nonneg _) (fun h => hq ?_)
    unfold Quat.dot at h
    have a := mul_self_nonneg p.rotation.w
    have b := mul_self_nonneg p.rotation.x
    have c := mul_self_nonneg p.rotation.y
    have d := mul_self_nonneg p.rotation.z
    ext
    · exact mul_self_eq_zero.mp (by linarith)
    · exact mul_self_eq_zero.mp (by linarith)
    · exact mul_self_eq_zero.mp (by linarith)
    · exact mul_self_eq_zero.mp (by linarith)
  have hd : 0 < p.rotation.dot (quatSum (((w, p) :: ps).map fun x => (toward p.rotation x.2.rotation).smul x.1)) := by
    rw [List.map_cons, quatSum]
    have hadd : ∀ q r : Quat, p.rotation.dot (q.add r) = p.rotation.dot q + p.rotation.dot r := by
      intro q r; simp [Quat.dot, Quat.add]; ring
    rw [hadd, toward_self, Quat.dot_smul_right]
    have := quatSum_dot p.rotation ps (fun x hx => hw0 x (by simp [hx]))
    have := mul_pos h0 hpos
    linarith
  rw [C46_average]
  generalize hQ : quatSum (((w, p) :: ps).map fun x => (toward p.rotation x.2.rotation).smul x.1) = Q at hd
  have hQ0 : Q.dot Q ≠ 0 := by
    intro h
    have a := mul_self_nonneg Q.w
    have b := mul_self_nonneg Q.x
    have c := mul_self_nonneg Q.y
    have d := mul_self_nonneg Q.z
    unfold Quat.dot at h hd
    have e1 : Q.w = 0 := mul_self_eq_zero.mp (by linarith)
    have e2 : Q.x = 0 := mul_self_eq_zero.mp (by linarith)
    have e3 : Q.y = 0 := mul_self_eq_zero.mp (by linarith)
    have e4 : Q.z = 0 := mul_self_eq_zero.mp (by linarith)
    rw [e1, e2, e3, e4] at hd
    simp at hd
  have hn : Q.normalize = some (Q.smul (1 / Real.sqrt (Q.dot Q))) := if_neg hQ0
  rw [hn, Option.map_some]
  have hpQ : 0 < Q.dot Q := lt_of_le_of_ne (Quat.dot_self_nonneg _) (Ne.symm hQ0)
  refine ⟨_, _, _, rfl, normalize_unit hn, Quat.toMatrix_rotation _ (normalize_unit hn), ?_, ?_, ?_⟩
  · rw [Quat.dot_smul_right]
    have : 0 < 1 / Real.sqrt (Q.dot Q) := by have := Real.sqrt_pos.mpr hpQ; positivity
    exact mul_pos this hd
  · intro i a b h
    have := sum_between _ (fun q => q.position) i a b hw0 h
    rwa [hw.2, mul_one, mul_one] at this
  · intro i a b h
    have := sum_between _ (fun q => q.scale) i a b hw0 h
    rwa [hw.2, mul_one, mul_one] at this

/-- C46: the condition on the first animation is needed. If it has no weight, then rotations by 180° about the same axis, one a positive and
one a negative turn, cancel out and leave no rotation at all: the result is undefined although the two are the same rotation. -/
theorem C46_unweighted_first_cancels : ∃ ps : List (ℝ × Pose), Normalised (ps.map Prod.fst) ∧
    (∀ x ∈ ps, x.2.rotation.dot x.2.rotation = 1) ∧ (∀ x ∈ ps.tail, x.2.matrix = (Pose.mk 0 ⟨0, 1, 0, 0⟩ 1).matrix) ∧ average ps = none := by
  refine ⟨[(0, .rest), (1 / 2, ⟨0, ⟨0, 1, 0, 0⟩, 1⟩), (1 / 2, ⟨0, ⟨0, -1, 0, 0⟩, 1⟩)], ?_, ?_, ?_, ?_⟩
  · constructor
    · simp
    · norm_num
  · simp [Pose.rest, Quat.one, Quat.dot]
  · have : (⟨0, -1, 0, 0⟩ : Quat) = Quat.neg ⟨0, 1, 0, 0⟩ := by simp [Quat.neg]
    simp only [List.tail_cons, List.mem_cons, List.not_mem_nil, or_false, forall_eq_or_imp, forall_eq, Pose.matrix, true_and]
    rw [this, normalize_neg, Option.map_map]
    congr 1
    funext r
    simp [C44_neg_same_rotation]
  · rw [C46_average]
    simp [quatSum, toward, Pose.rest, Quat.one, Quat.dot, Quat.smul, Quat.add, Quat.normalize]

/-- Two animations that describe the same rotation with opposite quaternions. -/
example : average [(1 / 4, ⟨![1, 2, 3], ⟨0, 1, 0, 0⟩, 1⟩), (3 / 4, ⟨![1, 2, 3], ⟨0, -1, 0, 0⟩, 1⟩)] =
    (Pose.mk ![1, 2, 3] ⟨0, 1, 0, 0⟩ 1).matrix := by
  refine C46_identical _ _ (by simp) ⟨by norm_num, by norm_num⟩ ?_
  simp [Quat.neg]

end
end Motive.Rig
