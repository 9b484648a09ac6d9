import Verif.Matrix.Sqt
/-!
# Model of the hierarchy of bones (src/motive/processor/rig_data.h, src/motive/rig_anim.cpp)

Idealisation: `float` is `ℝ`. A failed assertion is `none`. `mathfu::AffineTransform` is a 3×4 matrix: the first three rows of a 4×4 matrix
whose last row is `(0, 0, 0, 1)`.
-/

namespace Motive.Rig
open Motive.Matrix4

noncomputable section

/-- `mathfu::mat4`. -/
abbrev Mat4 := Matrix (Fin 4) (Fin 4) ℝ
/-- `mathfu::AffineTransform`. -/
abbrev Affine := Matrix (Fin 3) (Fin 4) ℝ

/-- `mathfu::mat4::ToAffineTransform`: drops the last row. -/
def toAffine (m : Mat4) : Affine := Matrix.of fun i j => m i.castSucc j
/-- `mathfu::mat4::FromAffineTransform`: adds the last row `(0, 0, 0, 1)`. -/
def fromAffine (a : Affine) : Mat4 := Matrix.of fun i j => if h : i.val < 3 then a ⟨i.val, h⟩ j else if j = 3 then 1 else 0

/-- `kInvalidBoneIdx` (include/motive/common.h:69). -/
def kInvalidBoneIdx : ℕ := 255
/-- `kMaxNumBones` (include/motive/common.h:68). -/
def kMaxNumBones : ℕ := 254

/-- The variables of the loop: `out` up to the current bone, and `*root_motion_transform`. -/
structure Globals where
  out : List Affine
  rootMotion : Affine

/-- The body of the loops of `CalculateGlobalTransforms` and `CalculateBlendedGlobalTransforms` (rig_data.h:367-389, 460-482), for bone
`s.out.length`. -/
def Globals.step (root : ℕ) (s : Globals) (parent : ℕ) (loc : Mat4) : Option Globals :=
  if s.out.length = root then
    if parent = kInvalidBoneIdx then some ⟨s.out ++ [toAffine 1], toAffine loc⟩
    else if h : parent < s.out.length then some ⟨s.out ++ [s.out[parent]], toAffine loc⟩
    else none
  else if parent = kInvalidBoneIdx then some ⟨s.out ++ [toAffine loc], s.rootMotion⟩
  else if h : parent < s.out.length then some ⟨s.out ++ [toAffine (fromAffine s.out[parent] * loc)], s.rootMotion⟩
  else none

/-- The loops (rig_data.h:362-390, 401-483); `bones` are the parent and the local transform of each bone. -/
def Globals.run (root : ℕ) (s : Globals) : List (ℕ × Mat4) → Option Globals
  | [] => some s
  | b :: bones => (s.step root b.1 b.2).bind fun s' => s'.run root bones

/-- Both functions, given the local transforms. -/
def globals (root : ℕ) (rootMotion : Affine) (bones : List (ℕ × Mat4)) : Option Globals := Globals.run root ⟨[], rootMotion⟩ bones

/-- `InitMatrixAnim` asserts that a parent comes before its children (rig_anim.cpp:34-43). -/
def InOrder (parents : List ℕ) : Prop :=
  ∀ i (h : i < parents.length), parents[i] = kInvalidBoneIdx ∨ parents[i] < i

/-! ### Specification -/

/-- The path from a root of the hierarchy to a bone. -/
inductive Path (parents : List ℕ) : List ℕ → ℕ → Prop
  | root {i : ℕ} : parents[i]? = some kInvalidBoneIdx → Path parents [i] i
  | child {i p : ℕ} {path : List ℕ} : parents[i]? = some p → p ≠ kInvalidBoneIdx → Path parents path p → Path parents (path ++ [i]) i

/-- A matrix is that of an affine transform. -/
def IsAffine (m : Mat4) : Prop := m 3 = ![0, 0, 0, 1]

/-- The local transform that counts: the root motion bone is treated as the identity. -/
def counted (root : ℕ) (locals : List Mat4) (i : ℕ) : Mat4 := if i = root then 1 else locals.getD i 1

/-! ### C45 -/

theorem IsAffine.mul {a b : Mat4} (ha : IsAffine a) (hb : IsAffine b) : IsAffine (a * b) := by
  unfold IsAffine at *
  ext j
  rw [Matrix.mul_apply, Fin.sum_univ_four, ha, hb]
  simp

theorem isAffine_one : IsAffine 1 := by
  unfold IsAffine; ext j; fin_cases j <;> simp <;> exact Matrix.one_apply_eq _

theorem from_to {m : Mat4} (h : IsAffine m) : fromAffine (toAffine m) = m := by
  unfold IsAffine at h
  ext i j
  fin_cases i
  · rfl
  · rfl
  · rfl
  · change (if j = 3 then (1 : ℝ) else 0) = m 3 j
    rw [h]; fin_cases j <;> rfl

theorem to_from (a : Affine) : toAffine (fromAffine a) = a := by
  ext i j
  fin_cases i <;> rfl

theorem fromAffine_affine (a : Affine) : IsAffine (fromAffine a) := by
  ext j
  change (if j = 3 then (1 : ℝ) else 0) = _
  fin_cases j <;> rfl

theorem toAffine_mul_of (a : Affine) (m : Mat4) (hm : IsAffine m) : fromAffine (toAffine (fromAffine a * m)) = fromAffine a * m :=
  from_to ((fromAffine_affine a).mul hm)

/-- The paths are unique. -/
theorem Path.unique {parents : List ℕ} {p q : List ℕ} {i : ℕ} (hp : Path parents p i) : Path parents q i → p = q := by
  induction hp generalizing q with
  | root h =>
    intro hq
    cases hq with
    | root h' => rfl
    | child h' h2 h3 => rw [h] at h'; exact absurd (Option.some.inj h').symm h2
  | child h h2 h3 ih =>
    intro hq
    cases hq with
    | root h' => rw [h] at h'; exact absurd (Option.some.inj h') h2
    | child h' h2' h3' =>
      rw [h] at h'
      obtain rfl := Option.some.inj h'
      rw [ih h3']

theorem Path.exists_of_inOrder {parents : List ℕ} (h : InOrder parents) : ∀ i, i < parents.length → ∃ p, Path parents p i := by
  intro i
  induction i using Nat.strong_induction_on with
  | _ i ih =>
    intro hi
    rcases h i hi with h1 | h1
    · exact ⟨[i], .root (by rw [List.getElem?_eq_getElem hi, h1])⟩
    · by_cases h2 : parents[i] = kInvalidBoneIdx
      · exact ⟨[i], .root (by rw [List.getElem?_eq_getElem hi, h2])⟩
      · obtain ⟨p, hp⟩ := ih _ h1 (h1.trans hi)
        exact ⟨p ++ [i], .child (List.getElem?_eq_getElem hi) h2 hp⟩

/-- What holds of the first bones. -/
def Good (root : ℕ) (rm0 : Affine) (parents : List ℕ) (locals : List Mat4) (k : ℕ) (s : Globals) : Prop :=
  s.out.length = k ∧
  (∀ i path, i < k → Path parents path i → s.out[i]? = some (toAffine (path.map (counted root locals)).prod)) ∧
  s.rootMotion = if root < k then toAffine (locals.getD root 1) else rm0

theorem product_affine {root : ℕ} {locals : List Mat4} (h : ∀ m ∈ locals, IsAffine m) (path : List ℕ) :
    IsAffine (path.map (counted root locals)).prod := by
  induction path with
  | nil => exact isAffine_one
  | cons i path ih =>
    rw [List.map_cons, List.prod_cons]
    refine IsAffine.mul ?_ ih
    unfold counted
    split_ifs
    · exact isAffine_one
    · rw [List.getD_eq_getElem?_getD]
      by_cases hi : i < locals.length
      · rw [List.getElem?_eq_getElem hi]; exact h _ (List.getElem_mem hi)
      · rw [List.getElem?_eq_none (by omega)]; exact isAffine_one

theorem step_good {root : ℕ} {rm0 : Affine} {parents : List ℕ} {locals : List Mat4} {k : ℕ} {s : Globals}
    (hlen : parents.length = locals.length) (hord : InOrder parents) (haff : ∀ m ∈ locals, IsAffine m)
    (hg : Good root rm0 parents locals k s) (hk : k < parents.length) :
    ∃ s', s.step root parents[k] (locals[k]'(hlen ▸ hk)) = some s' ∧ Good root rm0 parents locals (k + 1) s' := by
  obtain ⟨g1, g2, g3⟩ := hg
  have hk' : k < locals.length := hlen ▸ hk
  have hget : locals.getD k 1 = locals[k] := by rw [List.getD_eq_getElem?_getD, List.getElem?_eq_getElem hk']; rfl
  have ext : ∀ a rm, (∀ path, Path parents path k → a = toAffine (path.map (counted root locals)).prod) →
      (rm = if root < k + 1 then toAffine (locals.getD root 1) else rm0) → Good root rm0 parents locals (k + 1) ⟨s.out ++ [a], rm⟩ := by
    intro a rm ha hrm
    refine ⟨by simp [g1], ?_, hrm⟩
    intro i path hi hpath
    by_cases hik : i = k
    · subst hik
      rw [List.getElem?_append_right (by omega), g1, Nat.sub_self, ha path hpath]; rfl
    · rw [List.getElem?_append_left (by omega)]
      exact g2 i path (by omega) hpath
  have hpk : parents[k]? = some parents[k] := List.getElem?_eq_getElem hk
  have hroot : ∀ path, parents[k] = kInvalidBoneIdx → Path parents path k → path = [k] := by
    intro path hp hpath
    exact hpath.unique (.root (by rw [hpk, hp]))
  have hchild : parents[k] ≠ kInvalidBoneIdx → ∃ h : parents[k] < s.out.length, ∃ path, Path parents path parents[k] ∧
      s.out[parents[k]] = toAffine (path.map (counted root locals)).prod ∧ ∀ q, Path parents q k → q = path ++ [k] := by
    intro hne
    have hlt : parents[k] < k := (hord k hk).resolve_left hne
    obtain ⟨path, hpath⟩ := Path.exists_of_inOrder hord parents[k] (hlt.trans hk)
    refine ⟨by omega, path, hpath, ?_, fun q hq => hq.unique (.child hpk hne hpath)⟩
    have := g2 _ path hlt hpath
    rw [List.getElem?_eq_getElem (by omega)] at this
    exact Option.some.inj this
  unfold Globals.step
  by_cases hr : k = root
  · have hrm : toAffine locals[k] = if root < k + 1 then toAffine (locals.getD root 1) else rm0 := by
      rw [if_pos (by omega), ← hr, hget]
    rw [if_pos (by omega)]
    by_cases hp : parents[k] = kInvalidBoneIdx
    · rw [if_pos hp]
      refine ⟨_, rfl, ext _ _ ?_ hrm⟩
      intro path hpath
      rw [hroot path hp hpath]
      simp [counted, hr]
    · rw [if_neg hp]
      obtain ⟨hlt, path, h1, h2, h3⟩ := hchild hp
      rw [dif_pos hlt]
      refine ⟨_, rfl, ext _ _ ?_ hrm⟩
      intro q hq
      rw [h3 q hq, h2]
      simp [counted, hr]
  · have hrm : s.rootMotion = if root < k + 1 then toAffine (locals.getD root 1) else rm0 := by
      rw [g3]
      by_cases h : root < k
      · rw [if_pos h, if_pos (by omega)]
      · rw [if_neg h, if_neg (by omega)]
    rw [if_neg (by omega)]
    by_cases hp : parents[k] = kInvalidBoneIdx
    · rw [if_pos hp]
      refine ⟨_, rfl, ext _ _ ?_ hrm⟩
      intro path hpath
      rw [hroot path hp hpath]
      simp only [counted, List.map_cons, List.map_nil, List.prod_cons, List.prod_nil, mul_one, if_neg hr, hget]
    · rw [if_neg hp]
      obtain ⟨hlt, path, h1, h2, h3⟩ := hchild hp
      rw [dif_pos hlt]
      refine ⟨_, rfl, ext _ _ ?_ hrm⟩
      intro q hq
      rw [h3 q hq, h2, from_to (product_affine haff path), List.map_append, List.prod_append]
      simp only [counted, List.map_cons, List.map_nil, List.prod_cons, List.prod_nil, mul_one, if_neg hr, hget]

theorem run_good {root : ℕ} {rm0 : Affine} {parents : List ℕ} {locals : List Mat4}
    (hlen : parents.length = locals.length) (hord : InOrder parents) (haff : ∀ m ∈ locals, IsAffine m) :
    ∀ (m k : ℕ) (s : Globals), k + m = parents.length → Good root rm0 parents locals k s →
      ∃ s', s.run root ((parents.zip locals).drop k) = some s' ∧ Good root rm0 parents locals parents.length s' := by
  intro m
  induction m with
  | zero =>
    intro k s hk hg
    rw [List.drop_eq_nil_of_le (by simp; omega)]
    obtain rfl : k = parents.length := by omega
    exact ⟨s, rfl, hg⟩
  | succ m ih =>
    intro k s hk hg
    have hk' : k < parents.length := by omega
    obtain ⟨s1, h1, h2⟩ := step_good hlen hord haff hg hk'
    obtain ⟨s2, h3, h4⟩ := ih (k + 1) s1 (by omega) h2
    refine ⟨s2, ?_, h4⟩
    rw [List.drop_eq_getElem_cons (by simp; omega), Globals.run, List.getElem_zip]
    simp only [h1, Option.bind_some, h3]

/-- C45: for every hierarchy whose parents come before their children, and all local transforms, the global transform of a bone is the product
of the local transforms along the path from its root to it. The bone of root motion counts as the identity; its local transform is
reported apart. -/
theorem C45_globals (parents : List ℕ) (locals : List Mat4) (root : ℕ) (rm0 : Affine)
    (hlen : parents.length = locals.length) (hord : InOrder parents) (haff : ∀ m ∈ locals, IsAffine m) :
    ∃ g, globals root rm0 (parents.zip locals) = some g ∧ g.out.length = parents.length ∧
      (∀ i < parents.length, ∃ path, Path parents path i ∧
        g.out[i]? = some (toAffine (path.map fun b => if b = root then 1 else locals.getD b 1).prod)) ∧
      g.rootMotion = if h : root < locals.length then toAffine locals[root] else rm0 := by
  obtain ⟨g, h1, h2, h3, h4⟩ := run_good (root := root) (rm0 := rm0) hlen hord haff parents.length 0 ⟨[], rm0⟩ (by omega)
    ⟨rfl, by intro i _ h; omega, by simp⟩
  refine ⟨g, h1, h2, ?_, ?_⟩
  · intro i hi
    obtain ⟨path, hp⟩ := Path.exists_of_inOrder hord i hi
    exact ⟨path, hp, h3 i path hi hp⟩
  · rw [h4, hlen]
    by_cases h : root < locals.length
    · rw [if_pos h, dif_pos h, List.getD_eq_getElem?_getD, List.getElem?_eq_getElem h]; rfl
    · rw [if_neg h, dif_neg h]

/-- The global transforms map points as the local transforms along the path do, one after the other, from the bone to its root. -/
theorem C45_acts_on_points (ms : List Mat4) (v : Fin 4 → ℝ) : ms.prod.mulVec v = ms.foldr (fun m w => m.mulVec w) v := by
  induction ms with
  | nil => simp
  | cons m ms ih => rw [List.prod_cons, ← Matrix.mulVec_mulVec, ih]; rfl

/-- A hierarchy with a child before its parent fails the assertion. -/
theorem C45_out_of_order_fails (parents : List ℕ) (locals : List Mat4) (root : ℕ) (rm0 : Affine)
    (hlen : parents.length = locals.length) (hord : ¬ InOrder parents) : globals root rm0 (parents.zip locals) = none := by
  unfold InOrder at hord
  push Not at hord
  obtain ⟨i, hi, h1, h2⟩ := hord
  have step_len : ∀ (s s' : Globals) p l, s.step root p l = some s' → s'.out.length = s.out.length + 1 := by
    intro s s' p l h
    unfold Globals.step at h
    split_ifs at h <;> (cases h; simp)
  have step_none : ∀ (s : Globals) l, s.out.length = i → s.step root parents[i] l = none := by
    intro s l hs
    unfold Globals.step
    split_ifs <;> first | rfl | omega
  have : ∀ (m k : ℕ) (s : Globals), k + m = i → s.out.length = k → s.run root ((parents.zip locals).drop k) = none := by
    intro m
    induction m with
    | zero =>
      intro k s hk hs
      obtain rfl : k = i := by omega
      rw [List.drop_eq_getElem_cons (by simp; omega), Globals.run, List.getElem_zip]
      simp only [step_none s _ hs, Option.bind_none]
    | succ m ih =>
      intro k s hk hs
      rw [List.drop_eq_getElem_cons (by simp; omega), Globals.run, List.getElem_zip]
      cases h : s.step root parents[k] locals[k] with
      | none => rfl
      | some s' => exact ih (k + 1) s' (by omega) (by rw [step_len _ _ _ _ h, hs])
  exact this i 0 ⟨[], rm0⟩ (by omega) rfl

/-- The local transforms of matrix motivators and of SQT motivators are affine. -/
theorem C45_locals_affine : (∀ (ops : List (OpType × ℝ)) M s, calculate ops = some (M, s) → IsAffine M) ∧
    (∀ (ops : List (OpType × ℝ)) r, updateSqt ops = some r → IsAffine r.matrix) ∧ IsAffine 1 := by
  refine ⟨?_, ?_, isAffine_one⟩
  · intro ops M s h
    by_cases hs : ∀ op ∈ ops, Supported op.1
    · rw [C42_result_is_product ops hs] at h
      cases h
      exact C42_affine ops
    · push Not at hs
      rw [C42_unsupported_fails ops hs] at h
      simp at h
  · intro ops r h
    unfold updateSqt at h
    cases hg : ({} : Parts).gather ops with
    | none => simp [hg] at h
    | some p =>
      rw [hg] at h
      simp only [Option.bind_some] at h
      cases hn : p.q.normalize with
      | none => simp [hn] at h
      | some q =>
        rw [hn] at h
        cases h
        unfold IsAffine
        ext j; fin_cases j <;> rfl

/-- A spine, an arm and a separate root, with root motion on the first bone. -/
example : InOrder [255, 0, 1, 255, 1] ∧ Path [255, 0, 1, 255, 1] [0, 1, 4] 4 ∧
    (∀ m ∈ List.replicate 5 (elementary (.translateX, 2)), IsAffine m) := by
  refine ⟨?_, ?_, ?_⟩
  · unfold InOrder kInvalidBoneIdx; decide
  · exact Path.child (path := [0, 1]) rfl (by decide) (Path.child (path := [0]) rfl (by decide) (Path.root rfl))
  · intro m hm
    rw [List.eq_of_mem_replicate hm]
    unfold IsAffine
    ext j; fin_cases j <;> rfl

end
end Motive.Rig
