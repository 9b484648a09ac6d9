import Mathlib.LinearAlgebra.Matrix.Notation
import Mathlib.Tactic.Linarith
import Mathlib.Tactic.Ring
import Mathlib.Tactic.NormNum
import Mathlib.Tactic.FinCases

/-!
# Drawing a mesh with bones in the viewer (C131)

Source: src/viewer/viewer.cpp:97-160, the vertex shaders, and 651-667, which of them gets which transforms.

Exact arithmetic.  Bone indices select from a function instead of an array: `GatherShaderTransforms`, which fills the array, is part of FPLBase.
-/

namespace Motive.Viewer.Skin

open Matrix

variable {K : Type} [Field K]

/-- `vec4`. -/
abbrev Vec4 (K : Type) := Fin 4 → K

/-- `mathfu::AffineTransform` as the shader gets it: three `vec4`s, one for each row (viewer.cpp:129-130). -/
structure Affine (K : Type) where
  row0 : Vec4 K
  row1 : Vec4 K
  row2 : Vec4 K

/-- The attributes of a vertex (viewer.cpp:119-123). -/
structure Vertex (K : Type) where
  position : Vec4 K
  normal : Fin 3 → K
  bones : Fin 4 → ℕ
  weights : Fin 4 → K

/-- `mat4(c0, c1, c2, c3)` of GLSL: the arguments are the columns. -/
def ofColumns (c0 c1 c2 c3 : Vec4 K) : Matrix (Fin 4) (Fin 4) K := fun i j => (![c0, c1, c2, c3] j) i

/-- `BoneTransformMatrixTranspose` (viewer.cpp:132-137). -/
def boneTransformMatrixTranspose (b : ℕ → Affine K) (i : ℕ) : Matrix (Fin 4) (Fin 4) K :=
  ofColumns (b i).row0 (b i).row1 (b i).row2 ![0, 0, 0, 1]

/-- `GetSkinnedPosition` (viewer.cpp:139-141); `*` with the vector on the left. -/
def getSkinnedPosition (b : ℕ → Affine K) (position : Vec4 K) (bone : ℕ) : Vec4 K := position ᵥ* boneTransformMatrixTranspose b bone

/-- `FourBoneSkinnedPosition` (viewer.cpp:143-152). -/
def fourBoneSkinnedPosition (b : ℕ → Affine K) (v : Vertex K) : Vec4 K :=
  v.weights 0 • getSkinnedPosition b v.position (v.bones 0) + v.weights 1 • getSkinnedPosition b v.position (v.bones 1) +
  v.weights 2 • getSkinnedPosition b v.position (v.bones 2) + v.weights 3 • getSkinnedPosition b v.position (v.bones 3)

/-- `main` of the shader for meshes with bones (viewer.cpp:154-160): `gl_Position` and `vNormal`. -/
def skinned (mvp : Matrix (Fin 4) (Fin 4) K) (b : ℕ → Affine K) (v : Vertex K) : Vec4 K × (Fin 3 → K) :=
  (mvp *ᵥ fourBoneSkinnedPosition b v, fun i => (mvp *ᵥ ![v.normal 0, v.normal 1, v.normal 2, 0]) i.castSucc)

/-- `main` of the shader for meshes without (viewer.cpp:107-112). -/
def monolythic (mvp : Matrix (Fin 4) (Fin 4) K) (v : Vertex K) : Vec4 K × (Fin 3 → K) := (mvp *ᵥ v.position, v.normal)

/-- The 4x4 matrix of an affine transform, `mat4::FromAffineTransform` of mathfu. -/
def Affine.toMatrix (a : Affine K) : Matrix (Fin 4) (Fin 4) K := ![a.row0, a.row1, a.row2, ![0, 0, 0, 1]]

/-- What the viewer draws (viewer.cpp:651-667) of an animated mesh: with the shader for bones if it has any for the shader, and otherwise moved by the first
global transform. -/
def draw (useSkinning : Bool) (mvp : Matrix (Fin 4) (Fin 4) K) (shaderTransforms : ℕ → Affine K) (root : Affine K) (v : Vertex K) : Vec4 K × (Fin 3 → K) :=
  if useSkinning then skinned mvp shaderTransforms v else monolythic (mvp * root.toMatrix) v

/-! ### Specification -/

/-- The point of space that homogeneous coordinates stand for. -/
def point (p : Vec4 K) : Fin 3 → K := fun i => p i.castSucc / p 3

/-- A point in homogeneous coordinates. -/
def homog (x : Fin 3 → K) : Vec4 K := ![x 0, x 1, x 2, 1]

/-- The affine transform that does `second` after `first`. -/
def after (second first : Affine K) : Affine K :=
  let m := second.toMatrix * first.toMatrix
  ⟨m 0, m 1, m 2⟩

theorem getSkinned_eq (b : ℕ → Affine K) (p : Vec4 K) (i : ℕ) : getSkinnedPosition b p i = (b i).toMatrix *ᵥ p := by
  funext j
  simp only [getSkinnedPosition, boneTransformMatrixTranspose, ofColumns, vecMul, mulVec, dotProduct, Affine.toMatrix, Fin.sum_univ_four]
  fin_cases j <;> simp [mul_comm]

theorem toMatrix_after (a c : Affine K) : (after a c).toMatrix = a.toMatrix * c.toMatrix := by
  funext i j
  fin_cases i
  · rfl
  · rfl
  · rfl
  · show (![0, 0, 0, 1] : Vec4 K) j = _
    rw [mul_apply, Fin.sum_univ_four]
    simp [Affine.toMatrix]

/-- C131: a vertex is drawn where the weighted mean of its bones takes it. -/
theorem C131_mean (mvp : Matrix (Fin 4) (Fin 4) K) (b : ℕ → Affine K) (v : Vertex K) :
    (skinned mvp b v).1 = mvp *ᵥ ∑ i, v.weights i • ((b (v.bones i)).toMatrix *ᵥ v.position) := by
  simp only [skinned, fourBoneSkinnedPosition, getSkinned_eq, Fin.sum_univ_four]

/-- C131: moving all bones by the same transform moves the mesh by it, whatever the weights. -/
theorem C131_moves_with_bones (mvp : Matrix (Fin 4) (Fin 4) K) (b : ℕ → Affine K) (a : Affine K) (v : Vertex K) :
    (skinned mvp (fun i => after a (b i)) v).1 = (skinned (mvp * a.toMatrix) b v).1 := by
  simp only [C131_mean, toMatrix_after, ← mulVec_mulVec, mulVec_add, mulVec_smul, Fin.sum_univ_four]

/-- C131: a vertex whose bones agree is drawn like a vertex of a mesh without bones that the transform has moved: at the same place if the weights have a
sum that is not 0, even if it is not 1. -/
theorem C131_rigid (b : ℕ → Affine K) (a : Affine K) (v : Vertex K) (x : Fin 3 → K) (hx : v.position = homog x) (hb : ∀ i, v.weights i ≠ 0 → b (v.bones i) = a)
    (hw : ∑ i, v.weights i ≠ 0) : point (fourBoneSkinnedPosition b v) = point (a.toMatrix *ᵥ homog x) := by
  have e : fourBoneSkinnedPosition b v = (∑ i, v.weights i) • (a.toMatrix *ᵥ homog x) := by
    have h : ∀ i, v.weights i • ((b (v.bones i)).toMatrix *ᵥ v.position) = v.weights i • (a.toMatrix *ᵥ homog x) := by
      intro i
      by_cases h0 : v.weights i = 0
      · simp [h0]
      · rw [hb i h0, hx]
    simp only [fourBoneSkinnedPosition, getSkinned_eq, h, Fin.sum_univ_four, add_smul]
  rw [e]
  funext i
  simp only [point, Pi.smul_apply, smul_eq_mul]
  rw [mul_div_mul_left _ _ hw]

/-- C131: a mesh without bones for the shader is drawn where it would be if all its vertices hung from the first bone. -/
theorem C131_without_bones (mvp : Matrix (Fin 4) (Fin 4) K) (b : ℕ → Affine K) (root : Affine K) (v : Vertex K) (hw : ∑ i, v.weights i = 1) :
    (draw false mvp b root v).1 = (draw true mvp (fun _ => root) root v).1 := by
  simp only [draw, Bool.false_eq_true, if_false, if_true, C131_mean, monolythic, Fin.sum_univ_four, ← add_smul]
  rw [← Fin.sum_univ_four, hw, one_smul, mulVec_mulVec]

/-- C131 is false of normals: they are not turned with the bones. -/
theorem C131_normals_stay (mvp : Matrix (Fin 4) (Fin 4) K) (b c : ℕ → Affine K) (v : Vertex K) : (skinned mvp b v).2 = (skinned mvp c v).2 := rfl

/-- So the light on a mesh with bones does not change while it turns, but it does change with the camera, which a mesh without bones does not do. -/
theorem C131_normals_wrong :
    let v : Vertex ℚ := ⟨![0, 0, 0, 1], ![1, 0, 0], ![0, 0, 0, 0], ![1, 0, 0, 0]⟩
    let camera : Matrix (Fin 4) (Fin 4) ℚ := !![0, 1, 0, 0; 1, 0, 0, 0; 0, 0, 1, 0; 0, 0, 0, 1]
    (skinned camera (fun _ => ⟨![1, 0, 0, 0], ![0, 1, 0, 0], ![0, 0, 1, 0]⟩) v).2 = ![0, 1, 0] ∧ (monolythic camera v).2 = ![1, 0, 0] := by
  intro v camera
  constructor
  · funext i
    fin_cases i <;> simp [skinned, v, camera, mulVec, dotProduct, Fin.sum_univ_four]
  · rfl

/-- A vertex between two bones that agree, with weights that a file has rounded to a sum below 1, meets the hypotheses of `C131_rigid`. -/
example : ∃ (b : ℕ → Affine ℚ) (a : Affine ℚ) (v : Vertex ℚ) (x : Fin 3 → ℚ), v.position = homog x ∧ (∀ i, v.weights i ≠ 0 → b (v.bones i) = a) ∧
    ∑ i, v.weights i = 99 / 100 ∧ point (fourBoneSkinnedPosition b v) = ![7, 3, 4] := by
  refine ⟨fun _ => ⟨![1, 0, 0, 5], ![0, 1, 0, 0], ![0, 0, 1, 0]⟩, ⟨![1, 0, 0, 5], ![0, 1, 0, 0], ![0, 0, 1, 0]⟩, ⟨![2, 3, 4, 1], ![1, 0, 0], ![0, 1, 0, 0], ![1 / 2, 49 / 100, 0, 0]⟩,
    ![2, 3, 4], rfl, fun _ _ => rfl, ?_, ?_⟩
  · simp [Fin.sum_univ_four]; norm_num
  · funext i
    fin_cases i <;> simp [point, fourBoneSkinnedPosition, getSkinnedPosition, boneTransformMatrixTranspose, ofColumns, vecMul, dotProduct, Fin.sum_univ_four] <;> norm_num

end Motive.Viewer.Skin
