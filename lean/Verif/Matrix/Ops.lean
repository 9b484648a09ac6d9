import Mathlib.Analysis.SpecialFunctions.Trigonometric.Basic
import Mathlib.LinearAlgebra.Matrix.Notation
import Mathlib.LinearAlgebra.Matrix.Determinant.Basic
import Verif.Math.Range
/-!
# Model of the matrix operations (include/motive/matrix_op.h) and C42

Idealisation: `float` is `ℝ`; `mathfu::vec4` is `Fin 4 → ℝ`; `mathfu::mat4` is a 4×4 matrix built from its columns.
-/

namespace Motive.Matrix4
open Matrix

noncomputable section

/-- `MatrixOperationType` (matrix_op.h:48-68). -/
inductive OpType where
  | invalid | rotateX | rotateY | rotateZ | translateX | translateY | translateZ | scaleX | scaleY | scaleZ | scaleUniformly
  | quatW | quatX | quatY | quatZ
deriving DecidableEq

namespace OpType
/-- `RotateOp` (matrix_op.h:77-79): the enumerators between `kRotateAboutX` and `kRotateAboutZ`. -/
def isRotate : OpType → Bool
  | rotateX | rotateY | rotateZ => true
  | _ => false
/-- `TranslateOp` (matrix_op.h:82-84). -/
def isTranslate : OpType → Bool
  | translateX | translateY | translateZ => true
  | _ => false
/-- `ScaleOp` (matrix_op.h:87-89). -/
def isScale : OpType → Bool
  | scaleX | scaleY | scaleZ | scaleUniformly => true
  | _ => false
/-- `QuaternionOp` (matrix_op.h:92-94). -/
def isQuat : OpType → Bool
  | quatW | quatX | quatY | quatZ => true
  | _ => false
/-- `OperationDefaultValue` (matrix_op.h:108-110). -/
def default (t : OpType) : ℝ := if t.isScale || t = quatW then 1 else 0
end OpType

/-- `mathfu::vec4`. -/
abbrev Vec4 := Fin 4 → ℝ

/-- The four column variables and the scale of `CalculateResultMatrix` (matrix_op.h:397-404). -/
structure Cols where
  c0 : Vec4
  c1 : Vec4
  c2 : Vec4
  c3 : Vec4
  sx : ℝ
  sy : ℝ
  sz : ℝ

/-- The initial values (matrix_op.h:397-404): the axes and ones. -/
def Cols.start : Cols := ⟨![1, 0, 0, 0], ![0, 1, 0, 0], ![0, 0, 1, 0], ![0, 0, 0, 1], 1, 1, 1⟩

/-- `RotateAboutAxis` (matrix_op.h:482-492). -/
def rotateAboutAxis (angle : ℝ) (c0 c1 : Vec4) : Vec4 × Vec4 :=
  (Real.cos angle • c0 + Real.sin angle • c1, Real.cos angle • c1 - Real.sin angle • c0)

/-- The body of the loop in `CalculateResultMatrix` (matrix_op.h:406-473); an unsupported operation fails the assertion. -/
def Cols.step (s : Cols) (t : OpType) (v : ℝ) : Option Cols :=
  match t with
  | .rotateX => let p := rotateAboutAxis v s.c1 s.c2
                some { s with c1 := p.1, c2 := p.2 }
  | .rotateY => let p := rotateAboutAxis v s.c2 s.c0
                some { s with c2 := p.1, c0 := p.2 }
  | .rotateZ => let p := rotateAboutAxis v s.c0 s.c1
                some { s with c0 := p.1, c1 := p.2 }
  | .translateX => some { s with c3 := s.c3 + v • s.c0 }
  | .translateY => some { s with c3 := s.c3 + v • s.c1 }
  | .translateZ => some { s with c3 := s.c3 + v • s.c2 }
  | .scaleX => some { s with c0 := v • s.c0, sx := s.sx * v }
  | .scaleY => some { s with c1 := v • s.c1, sy := s.sy * v }
  | .scaleZ => some { s with c2 := v • s.c2, sz := s.sz * v }
  | .scaleUniformly =>
    some { s with c0 := v • s.c0, c1 := v • s.c1, c2 := v • s.c2, sx := s.sx * v, sy := s.sy * v, sz := s.sz * v }
  | _ => none

/-- The loop of `CalculateResultMatrix` (matrix_op.h:406-473). -/
def Cols.run (s : Cols) : List (OpType × ℝ) → Option Cols
  | [] => some s
  | op :: ops => (s.step op.1 op.2).bind fun s' => s'.run ops

/-- `mathfu::mat4(c0, c1, c2, c3)`: the matrix with these columns. -/
def Cols.matrix (s : Cols) : Matrix (Fin 4) (Fin 4) ℝ := Matrix.of fun i j => ![s.c0, s.c1, s.c2, s.c3] j i

/-- `CalculateResultMatrix` (matrix_op.h:394-478) on the types and values of the operations: the matrix and `out_scale`. -/
def calculate (ops : List (OpType × ℝ)) : Option (Matrix (Fin 4) (Fin 4) ℝ × (Fin 3 → ℝ)) :=
  (Cols.start.run ops).map fun s => (s.matrix, ![s.sx, s.sy, s.sz])

/-! ### Specification: the elementary transforms -/

/-- The elementary transform of an operation, as a matrix that acts on column vectors `(x, y, z, 1)`. -/
def elementary : OpType × ℝ → Matrix (Fin 4) (Fin 4) ℝ
  | (.rotateX, a) => !![1, 0, 0, 0; 0, Real.cos a, -Real.sin a, 0; 0, Real.sin a, Real.cos a, 0; 0, 0, 0, 1]
  | (.rotateY, a) => !![Real.cos a, 0, Real.sin a, 0; 0, 1, 0, 0; -Real.sin a, 0, Real.cos a, 0; 0, 0, 0, 1]
  | (.rotateZ, a) => !![Real.cos a, -Real.sin a, 0, 0; Real.sin a, Real.cos a, 0, 0; 0, 0, 1, 0; 0, 0, 0, 1]
  | (.translateX, v) => !![1, 0, 0, v; 0, 1, 0, 0; 0, 0, 1, 0; 0, 0, 0, 1]
  | (.translateY, v) => !![1, 0, 0, 0; 0, 1, 0, v; 0, 0, 1, 0; 0, 0, 0, 1]
  | (.translateZ, v) => !![1, 0, 0, 0; 0, 1, 0, 0; 0, 0, 1, v; 0, 0, 0, 1]
  | (.scaleX, v) => !![v, 0, 0, 0; 0, 1, 0, 0; 0, 0, 1, 0; 0, 0, 0, 1]
  | (.scaleY, v) => !![1, 0, 0, 0; 0, v, 0, 0; 0, 0, 1, 0; 0, 0, 0, 1]
  | (.scaleZ, v) => !![1, 0, 0, 0; 0, 1, 0, 0; 0, 0, v, 0; 0, 0, 0, 1]
  | (.scaleUniformly, v) => !![v, 0, 0, 0; 0, v, 0, 0; 0, 0, v, 0; 0, 0, 0, 1]
  | _ => 1

/-- How an operation scales each axis. -/
def scaling : OpType × ℝ → Fin 3 → ℝ
  | (.scaleX, v) => ![v, 1, 1]
  | (.scaleY, v) => ![1, v, 1]
  | (.scaleZ, v) => ![1, 1, v]
  | (.scaleUniformly, v) => ![v, v, v]
  | _ => 1

/-- The operations that a matrix motivator supports. -/
def Supported (t : OpType) : Prop := t.isRotate ∨ t.isTranslate ∨ t.isScale

theorem matrix_start : Cols.start.matrix = 1 := by
  ext i j
  fin_cases i <;> fin_cases j <;> simp [Cols.matrix, Cols.start]

theorem step_spec (s : Cols) (op : OpType × ℝ) (h : Supported op.1) :
    ∃ s', s.step op.1 op.2 = some s' ∧ s'.matrix = s.matrix * elementary op ∧
      ![s'.sx, s'.sy, s'.sz] = ![s.sx, s.sy, s.sz] * scaling op := by
  obtain ⟨t, v⟩ := op
  cases t <;> simp [Supported, OpType.isRotate, OpType.isTranslate, OpType.isScale] at h <;>
    refine ⟨_, rfl, ?_, ?_⟩ <;>
    first
    | (ext i j
       fin_cases i <;> fin_cases j <;>
         simp [Cols.matrix, elementary, rotateAboutAxis, Matrix.mul_apply, Fin.sum_univ_four] <;> ring)
    | (ext i; fin_cases i <;> simp [scaling])

theorem run_spec (ops : List (OpType × ℝ)) : ∀ (s : Cols), (∀ op ∈ ops, Supported op.1) →
    ∃ s', s.run ops = some s' ∧ s'.matrix = s.matrix * (ops.map elementary).prod ∧
      ![s'.sx, s'.sy, s'.sz] = ![s.sx, s.sy, s.sz] * (ops.map scaling).prod := by
  induction ops with
  | nil => intro s _; exact ⟨s, rfl, by simp, by simp⟩
  | cons op ops ih =>
    intro s h
    obtain ⟨s1, h1, h2, h3⟩ := step_spec s op (h op (by simp))
    obtain ⟨s2, g1, g2, g3⟩ := ih s1 (fun o ho => h o (List.mem_cons_of_mem _ ho))
    refine ⟨s2, by simp [Cols.run, h1, g1], ?_, ?_⟩
    · rw [g2, h2, List.map_cons, List.prod_cons, Matrix.mul_assoc]
    · rw [g3, h3, List.map_cons, List.prod_cons, mul_assoc]

/-- C42: for every list of supported operations, the result matrix is the product of their elementary transforms, from left to right, and the
scale is the product of their scalings. -/
theorem C42_result_is_product (ops : List (OpType × ℝ)) (h : ∀ op ∈ ops, Supported op.1) :
    calculate ops = some ((ops.map elementary).prod, (ops.map scaling).prod) := by
  obtain ⟨s, h1, h2, h3⟩ := run_spec ops Cols.start h
  unfold calculate
  rw [h1, Option.map_some, h2, h3, matrix_start, Matrix.one_mul]
  congr 2
  rw [show (![Cols.start.sx, Cols.start.sy, Cols.start.sz] : Fin 3 → ℝ) = 1 by ext i; fin_cases i <;> rfl, one_mul]

/-- An operation that is not supported, such as one of a quaternion, fails the assertion. -/
theorem C42_unsupported_fails (ops : List (OpType × ℝ)) (h : ∃ op ∈ ops, ¬ Supported op.1) : calculate ops = none := by
  have step_none : ∀ (s : Cols) (op : OpType × ℝ), ¬ Supported op.1 → s.step op.1 op.2 = none := by
    rintro s ⟨t, v⟩ ht
    cases t <;> simp [Supported, OpType.isRotate, OpType.isTranslate, OpType.isScale] at ht <;> rfl
  have run_none : ∀ (ops : List (OpType × ℝ)) (s : Cols), (∃ op ∈ ops, ¬ Supported op.1) → s.run ops = none := by
    intro ops
    induction ops with
    | nil => rintro s ⟨op, h1, -⟩; simp at h1
    | cons op ops ih =>
      rintro s ⟨o, h1, h2⟩
      by_cases hs : Supported op.1
      · obtain ⟨s', h3, -⟩ := step_spec s op hs
        rcases List.mem_cons.mp h1 with rfl | h1
        · exact absurd hs h2
        · simp [Cols.run, h3, ih s' ⟨o, h1, h2⟩]
      · simp [Cols.run, step_none s op hs]
  unfold calculate
  rw [run_none ops _ h]; rfl

/-- An operation with its default value does nothing. -/
theorem C42_default_does_nothing (t : OpType) : elementary (t, t.default) = 1 := by
  cases t <;> simp [elementary, OpType.default, OpType.isScale] <;>
    (ext i j; fin_cases i <;> fin_cases j <;> simp)

/-- The last row of the result is that of an affine transform. -/
theorem C42_affine (ops : List (OpType × ℝ)) : (ops.map elementary).prod 3 = ![0, 0, 0, 1] := by
  induction ops with
  | nil => ext j; fin_cases j <;> simp
  | cons op ops ih =>
    rw [List.map_cons, List.prod_cons]
    have he : elementary op 3 = ![0, 0, 0, 1] := by
      obtain ⟨t, v⟩ := op
      cases t <;> (ext j; fin_cases j <;> simp [elementary] <;> exact Matrix.one_apply_eq _)
    ext j
    rw [Matrix.mul_apply, Fin.sum_univ_four, he, ih]
    simp

/-- A pivoted rotation with scale. -/
example : ∃ M s, calculate [(.translateX, 1), (.rotateZ, Real.pi / 2), (.scaleX, 2), (.translateX, -1)] = some (M, s) ∧
    M.mulVec ![1, 0, 0, 1] = ![1, 0, 0, 1] ∧ M.mulVec ![2, 0, 0, 1] = ![1, 2, 0, 1] ∧ s = ![2, 1, 1] := by
  refine ⟨_, _, C42_result_is_product _ (by simp [Supported, OpType.isRotate, OpType.isTranslate, OpType.isScale]), ?_, ?_, ?_⟩
  · ext i
    fin_cases i <;> simp [elementary, Matrix.mulVec, dotProduct, Matrix.mul_apply, Fin.sum_univ_four]
  · ext i
    fin_cases i <;> simp [elementary, Matrix.mulVec, dotProduct, Matrix.mul_apply, Fin.sum_univ_four]
    norm_num
  · ext i
    fin_cases i <;> simp [scaling]

/-! ### C64: translation, rotation and scale -/

/-- The rotation matrix in `result_rotation` (matrix_data.h:144-155): the columns of the upper left 3×3 block, divided by the scale.
`mathfu::quat::FromMatrix`, which makes a quaternion of it, is not modelled. -/
def unscaled (M : Matrix (Fin 4) (Fin 4) ℝ) (s : Fin 3 → ℝ) : Matrix (Fin 3) (Fin 3) ℝ :=
  Matrix.of fun i j => M i.castSucc j.castSucc * (1 / s j)

/-- The upper left 3×3 block. -/
def block (M : Matrix (Fin 4) (Fin 4) ℝ) : Matrix (Fin 3) (Fin 3) ℝ := Matrix.of fun i j => M i.castSucc j.castSucc

/-- Specification of a rotation matrix. -/
def IsRotation (R : Matrix (Fin 3) (Fin 3) ℝ) : Prop := Rᵀ * R = 1 ∧ R.det = 1

theorem IsRotation.mul {A B : Matrix (Fin 3) (Fin 3) ℝ} (hA : IsRotation A) (hB : IsRotation B) : IsRotation (A * B) := by
  refine ⟨?_, by rw [Matrix.det_mul, hA.2, hB.2, one_mul]⟩
  rw [Matrix.transpose_mul, Matrix.mul_assoc, ← Matrix.mul_assoc Aᵀ, hA.1, Matrix.one_mul, hB.1]

theorem isRotation_one : IsRotation 1 := by simp [IsRotation]

theorem block_mul (A B : Matrix (Fin 4) (Fin 4) ℝ) (hB : B 3 = ![0, 0, 0, 1]) : block (A * B) = block A * block B := by
  ext i j
  simp only [block, Matrix.of_apply, Matrix.mul_apply, Fin.sum_univ_four, Fin.sum_univ_three]
  have : B 3 j.castSucc = 0 := by rw [hB]; fin_cases j <;> rfl
  rw [this, mul_zero, add_zero]
  rfl

theorem block_cons (op : OpType × ℝ) (ops : List (OpType × ℝ)) :
    block ((op :: ops).map elementary).prod = block (elementary op) * block (ops.map elementary).prod := by
  rw [List.map_cons, List.prod_cons, block_mul _ _ (C42_affine ops)]

theorem rotation_block {t : OpType} (ht : t.isRotate) (a : ℝ) : IsRotation (block (elementary (t, a))) := by
  have h := Real.sin_sq_add_cos_sq a
  cases t <;> simp [OpType.isRotate] at ht <;> constructor
  all_goals first
    | (ext i j
       fin_cases i <;> fin_cases j <;> simp [block, elementary, Matrix.mul_apply, Fin.sum_univ_three] <;> nlinarith)
    | (simp [block, elementary, Matrix.det_fin_three]; nlinarith)

/-- An operation is rigid, or scales all axes alike. -/
def Conformal (t : OpType) : Prop := t.isRotate ∨ t.isTranslate ∨ t = .scaleUniformly
/-- An operation does not rotate. -/
def Straight (t : OpType) : Prop := t.isTranslate ∨ t.isScale

theorem conformal_block (ops : List (OpType × ℝ)) (h : ∀ op ∈ ops, Conformal op.1) :
    ∃ k R, IsRotation R ∧ block (ops.map elementary).prod = k • R ∧ (ops.map scaling).prod = fun _ => k := by
  induction ops with
  | nil => exact ⟨1, 1, isRotation_one, by ext i j; fin_cases i <;> fin_cases j <;> simp [block], rfl⟩
  | cons op ops ih =>
    obtain ⟨k, R, h1, h2, h3⟩ := ih (fun o ho => h o (List.mem_cons_of_mem _ ho))
    obtain ⟨t, v⟩ := op
    have hop := h (t, v) (by simp)
    rw [block_cons, h2, List.map_cons, List.prod_cons, h3]
    rcases hop with hr | ht | hu
    · refine ⟨k, _, (rotation_block hr v).mul h1, by rw [Matrix.mul_smul], ?_⟩
      have : scaling (t, v) = 1 := by cases t <;> simp [OpType.isRotate] at hr <;> rfl
      rw [this, one_mul]
    · refine ⟨k, R, h1, ?_, ?_⟩
      · have : block (elementary (t, v)) = 1 := by
          cases t <;> simp [OpType.isTranslate] at ht <;>
            (ext i j; fin_cases i <;> fin_cases j <;> simp [block, elementary])
        rw [this, Matrix.one_mul]
      · have : scaling (t, v) = 1 := by cases t <;> simp [OpType.isTranslate] at ht <;> rfl
        rw [this, one_mul]
    · change t = _ at hu
      subst hu
      refine ⟨v * k, R, h1, ?_, ?_⟩
      · have : block (elementary (.scaleUniformly, v)) = v • 1 := by
          ext i j; fin_cases i <;> fin_cases j <;> simp [block, elementary]
        rw [this, Matrix.smul_mul, Matrix.one_mul, smul_smul]
      · ext i; fin_cases i <;> simp [scaling]

theorem straight_block (ops : List (OpType × ℝ)) (h : ∀ op ∈ ops, Straight op.1) :
    block (ops.map elementary).prod = Matrix.diagonal (ops.map scaling).prod := by
  induction ops with
  | nil => ext i j; fin_cases i <;> fin_cases j <;> simp [block]
  | cons op ops ih =>
    obtain ⟨t, v⟩ := op
    have hop := h (t, v) (by simp)
    rw [block_cons, ih (fun o ho => h o (List.mem_cons_of_mem _ ho)), List.map_cons, List.prod_cons]
    have : block (elementary (t, v)) = Matrix.diagonal (scaling (t, v)) := by
      cases t <;> simp [Straight, OpType.isTranslate, OpType.isScale] at hop <;>
        (ext i j; fin_cases i <;> fin_cases j <;> simp [block, elementary, scaling])
    rw [this, Matrix.diagonal_mul_diagonal]
    rfl

/-- C64: if no operation rotates after one that scales the axes differently, and no scale is zero, then the matrix without its scale is a
rotation matrix, the translation is the image of the origin, and translation, rotation and scale give back the result matrix. -/
theorem C64_parts (pre post : List (OpType × ℝ)) (h1 : ∀ op ∈ pre, Conformal op.1) (h2 : ∀ op ∈ post, Straight op.1)
    (h3 : ∀ op ∈ pre ++ post, op.1.isScale → op.2 ≠ 0) :
    ∃ M s, calculate (pre ++ post) = some (M, s) ∧ IsRotation (unscaled M s) ∧
      ∀ p : Fin 3 → ℝ, ∀ i : Fin 3, M.mulVec ![p 0, p 1, p 2, 1] i.castSucc =
        (unscaled M s).mulVec (fun j => s j * p j) i + M i.castSucc 3 := by
  have hsup : ∀ op ∈ pre ++ post, Supported op.1 := by
    intro op hop
    rcases List.mem_append.mp hop with h | h
    · rcases h1 op h with h | h | h
      · exact Or.inl h
      · exact Or.inr (Or.inl h)
      · right; right; rw [h]; rfl
    · rcases h2 op h with h | h
      · exact Or.inr (Or.inl h)
      · exact Or.inr (Or.inr h)
  have hne : ∀ ops : List (OpType × ℝ), (∀ op ∈ ops, op.1.isScale → op.2 ≠ 0) → ∀ i, (ops.map scaling).prod i ≠ 0 := by
    intro ops
    induction ops with
    | nil => intro _ i; simp
    | cons op ops ih =>
      intro h i
      rw [List.map_cons, List.prod_cons, Pi.mul_apply]
      refine mul_ne_zero ?_ (ih (fun o ho => h o (List.mem_cons_of_mem _ ho)) i)
      obtain ⟨t, v⟩ := op
      have := h (t, v) (by simp)
      cases t <;> simp [OpType.isScale] at this <;> fin_cases i <;> simp [scaling, this]
  refine ⟨_, _, C42_result_is_product _ hsup, ?_, ?_⟩
  · obtain ⟨k, R, r1, r2, r3⟩ := conformal_block pre h1
    have r4 := straight_block post h2
    have hk : ∀ i, (pre.map scaling).prod i ≠ 0 := hne pre (fun o ho => h3 o (List.mem_append_left _ ho))
    have hp : ∀ i, (post.map scaling).prod i ≠ 0 := hne post (fun o ho => h3 o (List.mem_append_right _ ho))
    have hk0 : k ≠ 0 := by have := hk 0; rw [r3] at this; exact this
    rw [List.map_append, List.prod_append, List.map_append, List.prod_append]
    have : unscaled ((pre.map elementary).prod * (post.map elementary).prod) ((pre.map scaling).prod * (post.map scaling).prod) = R := by
      have hb := block_mul (pre.map elementary).prod _ (C42_affine post)
      rw [r2, r4] at hb
      ext i j
      have := congrFun (congrFun hb i) j
      simp only [block, Matrix.of_apply, Matrix.smul_apply, Matrix.mul_diagonal, smul_eq_mul] at this
      simp only [unscaled, Matrix.of_apply]
      rw [this, Pi.mul_apply, r3]
      have := hp j
      field_simp
    rw [this]; exact r1
  · intro p i
    have hn := hne _ h3
    generalize ((pre ++ post).map scaling).prod = s at hn
    generalize ((pre ++ post).map elementary).prod = M
    simp only [Matrix.mulVec, dotProduct, Fin.sum_univ_four, Fin.sum_univ_three, unscaled, Matrix.of_apply]
    have e0 := hn 0; have e1 := hn 1; have e2 := hn 2
    simp
    field_simp

/-- A turn and a uniform scale, then a scale of x and a translation. -/
example : ∃ M s, calculate [(.rotateZ, Real.pi / 2), (.scaleUniformly, 2), (.scaleX, 3), (.translateX, 1)] = some (M, s) ∧
    IsRotation (unscaled M s) := by
  obtain ⟨M, s, h1, h2, _⟩ := C64_parts [(.rotateZ, Real.pi / 2), (.scaleUniformly, 2)] [(.scaleX, 3), (.translateX, 1)]
    (by simp [Conformal, OpType.isRotate]) (by simp [Straight, OpType.isScale, OpType.isTranslate])
    (by simp [OpType.isScale])
  exact ⟨M, s, h1, h2⟩

/-- A scale of one axis before a rotation: the reported rotation is not one. -/
theorem C64_scale_before_rotation_not_rotation :
    ∃ M s, calculate [(.scaleX, 2), (.rotateZ, Real.pi / 2)] = some (M, s) ∧ ¬ IsRotation (unscaled M s) := by
  refine ⟨_, _, C42_result_is_product _ (by simp [Supported, OpType.isRotate, OpType.isTranslate, OpType.isScale]), ?_⟩
  rintro ⟨h1, -⟩
  have := congrFun (congrFun h1 0) 0
  simp [unscaled, elementary, scaling, Matrix.mul_apply, Fin.sum_univ_three, Fin.sum_univ_four] at this
  norm_num at this

end
end Motive.Matrix4
