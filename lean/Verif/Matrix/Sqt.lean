import Verif.Matrix.BlendProps
/-!
# Model of `SqtData` (src/motive/processor/sqt_data.h)

Idealisation: `float` is `ℝ`. `mathfu::quat` and `mathfu::mat4::Transform` are not in the repository; they are modelled by what they
compute: `Normalize` divides by the length and is undefined (NaN) for zero, `ToMatrix` is the rotation matrix of a unit quaternion, and
`Transform` scales, rotates and translates.
-/

namespace Motive.Matrix4
open Motive.Targets Motive.Curve

noncomputable section
variable {D : Driver}

/-- `mathfu::quat`. -/
@[ext] structure Quat where
  w : ℝ
  x : ℝ
  y : ℝ
  z : ℝ

namespace Quat
/-- `mathfu::quat::identity`, and `DefaultOpsQuaternion` (src/motive/matrix_op.cpp). -/
def one : Quat := ⟨1, 0, 0, 0⟩
/-- The negative. -/
def neg (q : Quat) : Quat := ⟨-q.w, -q.x, -q.y, -q.z⟩
/-- A multiple. -/
def smul (a : ℝ) (q : Quat) : Quat := ⟨a * q.w, a * q.x, a * q.y, a * q.z⟩
/-- The sum. -/
def add (p q : Quat) : Quat := ⟨p.w + q.w, p.x + q.x, p.y + q.y, p.z + q.z⟩
/-- `mathfu::quat::DotProduct`. -/
def dot (p q : Quat) : ℝ := p.w * q.w + p.x * q.x + p.y * q.y + p.z * q.z
open Classical in
/-- `Normalize`. -/
def normalize (q : Quat) : Option Quat := if q.dot q = 0 then none else some (q.smul (1 / Real.sqrt (q.dot q)))
/-- `ToMatrix`. -/
def toMatrix (q : Quat) : Matrix (Fin 3) (Fin 3) ℝ :=
  !![1 - 2 * (q.y * q.y + q.z * q.z), 2 * (q.x * q.y - q.w * q.z), 2 * (q.x * q.z + q.w * q.y);
     2 * (q.x * q.y + q.w * q.z), 1 - 2 * (q.x * q.x + q.z * q.z), 2 * (q.y * q.z - q.w * q.x);
     2 * (q.x * q.z - q.w * q.y), 2 * (q.y * q.z + q.w * q.x), 1 - 2 * (q.x * q.x + q.y * q.y)]
end Quat

/-- `mathfu::mat4::Transform(position, rotation, scale)`. -/
def transform (t : Fin 3 → ℝ) (R : Matrix (Fin 3) (Fin 3) ℝ) (s : Fin 3 → ℝ) : Matrix (Fin 4) (Fin 4) ℝ :=
  !![R 0 0 * s 0, R 0 1 * s 1, R 0 2 * s 2, t 0;
     R 1 0 * s 0, R 1 1 * s 1, R 1 2 * s 2, t 1;
     R 2 0 * s 0, R 2 1 * s 1, R 2 2 * s 2, t 2;
     0, 0, 0, 1]

/-- The variables of `UpdateResultMatrix` (sqt_data.h:62-64). -/
structure Parts where
  tx : ℝ := 0
  ty : ℝ := 0
  tz : ℝ := 0
  q : Quat := .one
  sx : ℝ := 1
  sy : ℝ := 1
  sz : ℝ := 1

/-- The body of the loop of `UpdateResultMatrix` (sqt_data.h:66-130); other operations fail the assertion. -/
def Parts.assign (p : Parts) (t : OpType) (v : ℝ) : Option Parts :=
  match t with
  | .translateX => some { p with tx := v }
  | .translateY => some { p with ty := v }
  | .translateZ => some { p with tz := v }
  | .scaleX => some { p with sx := v }
  | .scaleY => some { p with sy := v }
  | .scaleZ => some { p with sz := v }
  | .scaleUniformly => some { p with sx := v, sy := v, sz := v }
  | .quatW => some { p with q := { p.q with w := v } }
  | .quatX => some { p with q := { p.q with x := v } }
  | .quatY => some { p with q := { p.q with y := v } }
  | .quatZ => some { p with q := { p.q with z := v } }
  | _ => none

/-- The loop of `UpdateResultMatrix` (sqt_data.h:66-130). -/
def Parts.gather (p : Parts) : List (OpType × ℝ) → Option Parts
  | [] => some p
  | op :: ops => (p.assign op.1 op.2).bind fun p' => p'.gather ops

/-- What `UpdateResultMatrix` stores: `result_matrix_`, `rotation_` and `scale_` (sqt_data.h:283-289). -/
structure SqtResult where
  matrix : Matrix (Fin 4) (Fin 4) ℝ
  rotation : Quat
  scale : Fin 3 → ℝ

/-- `UpdateResultMatrix` (sqt_data.h:59-137). -/
def updateSqt (ops : List (OpType × ℝ)) : Option SqtResult :=
  (({} : Parts).gather ops).bind fun p => p.q.normalize.map fun r =>
    ⟨transform ![p.tx, p.ty, p.tz] r.toMatrix ![p.sx, p.sy, p.sz], r, ![p.sx, p.sy, p.sz]⟩

/-- The body of the first loop of `AlignQuaternionOps` (sqt_data.h:243-260). -/
def nextStep (q : Quat) (n : OpInit D) : Option Quat :=
  match n.type with
  | .quatW => n.startValue.map fun v => { q with w := v }
  | .quatX => n.startValue.map fun v => { q with x := v }
  | .quatY => n.startValue.map fun v => { q with y := v }
  | .quatZ => n.startValue.map fun v => { q with z := v }
  | _ => some q

/-- The first loop of `AlignQuaternionOps` (sqt_data.h:242-260). -/
def nextQuat (q : Quat) : List (OpInit D) → Option Quat
  | [] => some q
  | n :: ns => (nextStep q n).bind fun q' => nextQuat q' ns

/-- The body of the second loop of `AlignQuaternionOps` (sqt_data.h:266-278). -/
def Op.negate (o : Op D) : Op D :=
  if o.type.isQuat then
    match o.motivator with
    | some m => { o with motivator := some (D.setTarget m (.current (-o.value) (-o.velocity))) }
    | none => { o with const := -o.value }
  else o

open Classical in
/-- `AlignQuaternionOps` (sqt_data.h:240-280); `rotation` is `rotation_`. -/
def alignOps (rotation : Quat) (new : List (OpInit D)) (ops : List (Op D)) : Option (List (Op D)) :=
  (nextQuat .one new).bind fun q => q.normalize.map fun next =>
    if rotation.dot next < 0 then ops.map Op.negate else ops

/-- `SqtData::BlendToOps` (sqt_data.h:139-193). -/
def blendToOpsSqt (rotation : Quat) (new : List (OpInit D)) (pb : Playback) (ops : List (Op D)) : Option (List (Op D)) :=
  (alignOps rotation new ops).bind (blendToOps OpType.isRotate new pb)

/-- The types and values of operations. -/
def readOps (ops : List (Op D)) : List (OpType × ℝ) := ops.map fun o => (o.type, o.value)

/-! ### Specification -/

/-- `v` is the value of the last operation of kind `P`, or `d` if there is none. -/
def Last (P : OpType → Bool) (ops : List (OpType × ℝ)) (d v : ℝ) : Prop :=
  (∃ pre t post, ops = pre ++ (t, v) :: post ∧ P t ∧ ∀ o ∈ post, P o.1 = false) ∨ ((∀ o ∈ ops, P o.1 = false) ∧ v = d)

/-- The operations that an SQT motivator supports. -/
def SqtSupported (t : OpType) : Prop := t.isTranslate ∨ t.isScale ∨ t.isQuat

/-! ### C65: the result of an SQT motivator -/

/-- The value of the last operation of a kind. -/
def lastOf (P : OpType → Bool) (d : ℝ) : List (OpType × ℝ) → ℝ
  | [] => d
  | o :: ops => lastOf P (if P o.1 then o.2 else d) ops

theorem lastOf_append (P : OpType → Bool) (d : ℝ) (a b : List (OpType × ℝ)) : lastOf P d (a ++ b) = lastOf P (lastOf P d a) b := by
  induction a generalizing d with
  | nil => rfl
  | cons o a ih => simp [lastOf, ih]

theorem lastOf_none (P : OpType → Bool) (d : ℝ) (l : List (OpType × ℝ)) (h : ∀ o ∈ l, P o.1 = false) : lastOf P d l = d := by
  induction l with
  | nil => rfl
  | cons o l ih =>
    rw [lastOf, h o (by simp)]
    exact ih (fun x hx => h x (by simp [hx]))

theorem last_unique {P : OpType → Bool} {ops : List (OpType × ℝ)} {d v : ℝ} (h : Last P ops d v) : v = lastOf P d ops := by
  rcases h with ⟨pre, t, post, rfl, ht, hp⟩ | ⟨h, rfl⟩
  · rw [lastOf_append, lastOf, if_pos ht, lastOf_none _ _ _ hp]
  · rw [lastOf_none _ _ _ h]

theorem last_lastOf (P : OpType → Bool) (ops : List (OpType × ℝ)) (d : ℝ) : Last P ops d (lastOf P d ops) := by
  induction ops using List.reverseRecOn with
  | nil => exact Or.inr ⟨by simp, rfl⟩
  | append_singleton l o ih =>
    by_cases h : P o.1
    · exact Or.inl ⟨l, o.1, [], by rw [lastOf_append]; simp [lastOf, h], h, by simp⟩
    · rw [lastOf_append]
      simp only [lastOf, if_neg h]
      rcases ih with ⟨pre, t, post, e, ht, hp⟩ | ⟨h1, h2⟩
      · refine Or.inl ⟨pre, t, post ++ [o], ?_, ht, ?_⟩
        · conv_lhs => rw [e]
          simp
        · intro x hx
          rcases List.mem_append.mp hx with hx | hx
          · exact hp x hx
          · rw [List.mem_singleton] at hx; subst hx; simpa using h
      · refine Or.inr ⟨?_, h2⟩
        intro x hx
        rcases List.mem_append.mp hx with hx | hx
        · exact h1 x hx
        · rw [List.mem_singleton] at hx; subst hx; simpa using h

/-- A type, and for the scales `kScaleUniformly` too. -/
def scaleKind (t u : OpType) : Bool := u = t || u = .scaleUniformly

theorem gather_eq (p : Parts) (ops : List (OpType × ℝ)) (h : ∀ o ∈ ops, SqtSupported o.1) :
    p.gather ops = some ⟨lastOf (· = .translateX) p.tx ops, lastOf (· = .translateY) p.ty ops, lastOf (· = .translateZ) p.tz ops,
      ⟨lastOf (· = .quatW) p.q.w ops, lastOf (· = .quatX) p.q.x ops, lastOf (· = .quatY) p.q.y ops, lastOf (· = .quatZ) p.q.z ops⟩,
      lastOf (scaleKind .scaleX) p.sx ops, lastOf (scaleKind .scaleY) p.sy ops, lastOf (scaleKind .scaleZ) p.sz ops⟩ := by
  induction ops generalizing p with
  | nil => rfl
  | cons o ops ih =>
    obtain ⟨t, v⟩ := o
    have ht := h (t, v) (by simp)
    have ih' := fun p => ih p (fun x hx => h x (by simp [hx]))
    cases t <;> simp [SqtSupported, OpType.isTranslate, OpType.isScale, OpType.isQuat] at ht <;>
      simp [Parts.gather, Parts.assign, ih', lastOf, scaleKind]

theorem sq_sqrt_inv {a : ℝ} (h : 0 < a) : (1 / Real.sqrt a) * (1 / Real.sqrt a) * a = 1 := by
  have h1 := Real.mul_self_sqrt h.le
  have h2 := (Real.sqrt_pos.mpr h).ne'
  field_simp
  rw [sq, h1]

theorem Quat.dot_self_nonneg (q : Quat) : 0 ≤ q.dot q := by unfold Quat.dot; nlinarith [mul_self_nonneg q.w, mul_self_nonneg q.x, mul_self_nonneg q.y, mul_self_nonneg q.z]

theorem Quat.toMatrix_rotation (q : Quat) (h : q.dot q = 1) : IsRotation q.toMatrix := by
  unfold Quat.dot at h
  have h2 : q.w * q.w = 1 - q.x * q.x - q.y * q.y - q.z * q.z := by linarith
  constructor
  · ext i j
    fin_cases i <;> fin_cases j <;> simp [Quat.toMatrix, Matrix.mul_apply, Fin.sum_univ_three] <;> ring_nf <;>
      simp only [sq] <;> (try rw [h2]) <;> ring
  · rw [Matrix.det_fin_three]
    simp [Quat.toMatrix]
    linear_combination 4 * (q.x * q.x + q.y * q.y + q.z * q.z) * h

/-- C65: the matrix of an SQT motivator scales, then rotates by the normalised quaternion, then translates. Each component is the value of
the last operation for it, or its default. Zero quaternions aside, this never fails. -/
theorem C65_sqt (ops : List (OpType × ℝ)) (h : ∀ o ∈ ops, SqtSupported o.1) (tx ty tz w x y z sx sy sz : ℝ)
    (h1 : Last (· = .translateX) ops 0 tx) (h2 : Last (· = .translateY) ops 0 ty) (h3 : Last (· = .translateZ) ops 0 tz)
    (h4 : Last (· = .quatW) ops 1 w) (h5 : Last (· = .quatX) ops 0 x) (h6 : Last (· = .quatY) ops 0 y) (h7 : Last (· = .quatZ) ops 0 z)
    (h8 : Last (scaleKind .scaleX) ops 1 sx) (h9 : Last (scaleKind .scaleY) ops 1 sy) (h10 : Last (scaleKind .scaleZ) ops 1 sz)
    (hq : w ^ 2 + x ^ 2 + y ^ 2 + z ^ 2 ≠ 0) :
    ∃ r, updateSqt ops = some r ∧ r.scale = ![sx, sy, sz] ∧ (∃ k > 0, r.rotation = ⟨k * w, k * x, k * y, k * z⟩) ∧
      r.rotation.dot r.rotation = 1 ∧ IsRotation r.rotation.toMatrix ∧
      ∀ p : Fin 3 → ℝ, r.matrix.mulVec ![p 0, p 1, p 2, 1] =
        let v := r.rotation.toMatrix.mulVec ![sx * p 0, sy * p 1, sz * p 2]
        ![v 0 + tx, v 1 + ty, v 2 + tz, 1] := by
  have hq' : Quat.dot ⟨w, x, y, z⟩ ⟨w, x, y, z⟩ ≠ 0 := by
    unfold Quat.dot; intro h; apply hq; rw [← h]; ring
  have hpos : 0 < Quat.dot ⟨w, x, y, z⟩ ⟨w, x, y, z⟩ := lt_of_le_of_ne (Quat.dot_self_nonneg _) hq'.symm
  have hunit : (Quat.smul (1 / Real.sqrt (Quat.dot ⟨w, x, y, z⟩ ⟨w, x, y, z⟩)) ⟨w, x, y, z⟩).dot
      (Quat.smul (1 / Real.sqrt (Quat.dot ⟨w, x, y, z⟩ ⟨w, x, y, z⟩)) ⟨w, x, y, z⟩) = 1 := by
    have hk := sq_sqrt_inv hpos
    generalize 1 / Real.sqrt (Quat.dot ⟨w, x, y, z⟩ ⟨w, x, y, z⟩) = k at hk
    unfold Quat.dot at hk
    unfold Quat.dot Quat.smul
    linear_combination hk
  refine ⟨⟨transform ![tx, ty, tz] (Quat.smul (1 / Real.sqrt (Quat.dot ⟨w, x, y, z⟩ ⟨w, x, y, z⟩)) ⟨w, x, y, z⟩).toMatrix ![sx, sy, sz],
    Quat.smul (1 / Real.sqrt (Quat.dot ⟨w, x, y, z⟩ ⟨w, x, y, z⟩)) ⟨w, x, y, z⟩, ![sx, sy, sz]⟩, ?_, rfl,
    ⟨1 / Real.sqrt (Quat.dot ⟨w, x, y, z⟩ ⟨w, x, y, z⟩), by positivity, rfl⟩, hunit, Quat.toMatrix_rotation _ hunit, ?_⟩
  · rw [updateSqt, gather_eq _ _ h]
    simp only [Option.bind_some]
    change Option.map _ (Quat.normalize ⟨lastOf _ 1 ops, lastOf _ 0 ops, lastOf _ 0 ops, lastOf _ 0 ops⟩) = _
    rw [← last_unique h4, ← last_unique h5, ← last_unique h6, ← last_unique h7, ← last_unique h1, ← last_unique h2, ← last_unique h3,
      ← last_unique h8, ← last_unique h9, ← last_unique h10, Quat.normalize, if_neg hq']
    rfl
  · intro p
    ext i
    fin_cases i <;> simp [transform, Matrix.mulVec, dotProduct, Fin.sum_univ_four, Fin.sum_univ_three] <;> ring

end
end Motive.Matrix4
