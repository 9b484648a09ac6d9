import Verif.Rig.Clip

/-!
# C105: the tables of the values of a rig

Model of `CsvHeaderForDebugging`, `CsvValuesForDebugging` and `LocalTransformsForDebugging` (src/motive/processor/rig_data.h:258-350,
src/motive/rig_anim.cpp:45-52 and 92-113, src/motive/matrix_op.cpp:43-66). The text that they return is a list of what is written to the stream:
texts, numbers, commas and ends of lines. How numbers are formatted is left out, and so are commas in names.
-/

namespace Motive.Rig
open Motive.Matrix4

noncomputable section

variable {F : Matrix (Fin 3) (Fin 3) ℝ → Quat}

/-! ### Model -/

/-- What is written to a stream. -/
inductive Tok where
  | text (s : String)
  | num (x : ℝ)
  | time (t : ℤ)
  | comma
  | newline

/-- `MatrixOpName` (matrix_op.cpp:43-66). -/
def opName : OpType → String
  | .invalid => "Invalid Matrix Operation"
  | .rotateX => "Rotate About X"
  | .rotateY => "Rotate About Y"
  | .rotateZ => "Rotate About Z"
  | .translateX => "Translate X"
  | .translateY => "Translate Y"
  | .translateZ => "Translate Z"
  | .scaleX => "Scale X"
  | .scaleY => "Scale Y"
  | .scaleZ => "Scale Z"
  | .scaleUniformly => "Scale Uniformly"
  | .quatW => "Quaternion W"
  | .quatX => "Quaternion X"
  | .quatY => "Quaternion Y"
  | .quatZ => "Quaternion Z"

/-- The operations of each bone of an animation. -/
def Anim.ops (a : Anim (boneJoint F)) : List (List (OpInit splineDriver)) := a.bones.map fun b => b.ops

/-- `RigAnim::CsvHeaderForDebugging` (rig_anim.cpp:92-113). `names` are the names of the bones; the list is that of the bones from number `i` on. -/
def headerLoop (names : ℕ → String) (line : ℕ) (i : ℕ) : List (List (OpInit splineDriver)) → List Tok
  | [] => []
  | ops :: rest =>
    (if ops.length = 0 then [] else
      (if line = 0 then [.text (names i)] else []) ++
        ops.flatMap fun o => if line = 0 then [.comma] else [.text (opName o.type), .comma]) ++ headerLoop names line (i + 1) rest

/-- `RigData::CsvHeaderForDebugging` (rig_data.h:271-277). -/
def RigData.csvHeader (r : RigData (boneJoint F)) (names : ℕ → String) : List Tok :=
  [.text "animation name", .comma, .text "time", .comma] ++ headerLoop names 0 0 r.defining.ops ++ [.newline] ++
    ([.comma, .comma] ++ headerLoop names 1 0 r.defining.ops ++ [.newline])

/-- `RigAnim::NumOps` (rig_anim.cpp:45-52). -/
def Anim.numOps (a : Anim (boneJoint F)) : ℕ := (a.ops.map List.length).sum

/-- The inner loop of `ChildValuesForDebugging` (rig_data.h:265-267): writing past the end of the vector is `none`. -/
def fillValues (values : List ℝ) (k : ℕ) : List ℝ → Option (List ℝ × ℕ)
  | [] => some (values, k)
  | v :: vs => if k < values.length then fillValues (values.set k v) (k + 1) vs else none

/-- The outer loop of `ChildValuesForDebugging` (rig_data.h:263-268), over the motivators of the first `numBones` bones. -/
def childLoop (values : List ℝ) (k : ℕ) : List (Option Bone) → Option (List ℝ)
  | [] => some values
  | none :: _ => none
  | some m :: ms =>
    match fillValues values k (m.ops.map Op.value) with
    | none => none
    | some (values', k') => childLoop values' k' ms

/-- `ChildValuesForDebugging` (rig_data.h:258-269): `resize` fills with zeros. -/
def RigData.childValues (r : RigData (boneJoint F)) : Option (List ℝ) :=
  childLoop (List.replicate r.defining.numOps 0) 0 (r.motivators.take r.numBones)

/-- The multiplier of rotations, which are shown in degrees (rig_data.h:297, 340). -/
def degrees (t : OpType) : ℝ := if t.isRotate then 180 / Real.pi else 1

/-- The loops of `CsvValuesForDebugging` (rig_data.h:290-301) over the operations of all the bones. -/
def valuesLoop (values : List ℝ) (k : ℕ) : List OpType → Option (List Tok)
  | [] => some []
  | t :: ts =>
    match values[k]? with
    | none => none
    | some v => (valuesLoop values (k + 1) ts).map ([.num (degrees t * v), .comma] ++ ·)

/-- `CsvValuesForDebugging` (rig_data.h:279-304). `name` and `current` are those of `current_anim_`; `time` is the time of the processor. -/
def RigData.csvValues (r : RigData (boneJoint F)) (name : String) (current : Anim (boneJoint F)) (time : ℤ) : Option (List Tok) :=
  match r.childValues, (addTime time (-r.endTime)).bind fun x => addTime x current.endTime with
  | some values, some t =>
    (valuesLoop values 0 (r.defining.ops.flatten.map (·.type))).map ([.text name, .comma, .time t, .comma] ++ ·)
  | _, _ => none

/-- The operations of a bone in `LocalTransformsForDebugging` (rig_data.h:338-348), from the operation with number `i` on. -/
def opsLoop (ops : List (Op splineDriver)) (i : ℕ) : List OpType → Option (List Tok)
  | [] => some []
  | t :: ts =>
    match ops[i]? with
    | none => none
    | some o => (opsLoop ops (i + 1) ts).map
        ([.text (opName t), .text "=", .num (degrees t * o.value), if ts.length = 0 then .newline else .comma] ++ ·)

/-- A row of the matrix of a bone (rig_data.h:328-332). -/
def rowToks (m : Mat4) (row : Fin 4) : List Tok :=
  [.text "  (", .num (m row 0), .num (m row 1), .num (m row 2), .num (m row 3), .text ")", .newline]

/-- The lines of a bone in `LocalTransformsForDebugging` (rig_data.h:322-349): `types` are those of the operations of `current_anim_`. -/
def boneToks (name : String) (types : List OpType) (m : Bone) : Option (List Tok) :=
  (opsLoop m.ops 0 types).map fun l => [.text name, .newline] ++ rowToks m.matrix 0 ++ rowToks m.matrix 1 ++ rowToks m.matrix 2 ++
    [.text "  "] ++ l ++ [.newline]

/-- The bones of `LocalTransformsForDebugging` (rig_data.h:320-321): a bone of the rig, its parent, and so on. A parent that does not come before its child
is `none`. -/
def chain (parents : List ℕ) (i : ℕ) : Option (List ℕ) :=
  match parents[i]? with
  | none => none
  | some p => if p = kInvalidBoneIdx then some [i] else if p < i then (chain parents p).map (i :: ·) else none

/-- The loop of `LocalTransformsForDebugging` (rig_data.h:320-349) over the bones. -/
def RigData.localLoop (r : RigData (boneJoint F)) (names : ℕ → String) (current : Anim (boneJoint F)) : List ℕ → Option (List Tok)
  | [] => some []
  | k :: ks =>
    match r.motivators[k]?, current.bones[k]? with
    | some (some m), some b =>
      match boneToks (names k) (b.ops.map fun o => o.type) m, r.localLoop names current ks with
      | some l, some l' => some (l ++ l')
      | _, _ => none
    | _, _ => none

/-- `LocalTransformsForDebugging` (rig_data.h:306-351). The time is also shown in frames, 24 per second. -/
def RigData.localTransforms (r : RigData (boneJoint F)) (name : String) (names : ℕ → String) (current : Anim (boneJoint F)) (bone : ℕ)
    (time : ℤ) : Option (List Tok) :=
  match (addTime r.endTime (-time)).bind fun x => addTime current.endTime (-x), chain r.defining.parents bone with
  | some t, some ks => (r.localLoop names current ks).map
      ([.text name, .text " at time ", .time t, .text " (", .num (t * 24 / 1000), .text " @24fps)", .newline] ++ ·)
  | _, _ => none

/-! ### Specification -/

/-- The text between separators. -/
def split (sep : Tok → Bool) : List Tok → List (List Tok)
  | [] => [[]]
  | t :: ts =>
    if sep t then [] :: split sep ts
    else match split sep ts with
      | [] => [[t]]
      | c :: cs => (t :: c) :: cs

/-- The end of a line. -/
def isNewline : Tok → Bool
  | .newline => true
  | _ => false

/-- The end of a cell. -/
def isComma : Tok → Bool
  | .comma => true
  | _ => false

/-- The cells of the lines of a table. -/
def table (l : List Tok) : List (List (List Tok)) := (split isNewline l).map (split isComma)

/-- A column of the table: the bone, whether it is the bone's first, the type of the operation, and its value. -/
structure Column where
  bone : String
  first : Bool
  op : OpType
  value : ℝ

/-- The columns for the operations of bones. -/
def columns (names : ℕ → String) (bones : List Bone) : List Column :=
  bones.zipIdx.flatMap fun x => x.1.ops.zipIdx.map fun y => ⟨names x.2, y.2 = 0, y.1.type, y.1.value⟩

/-- A value as it is shown: angles in degrees. -/
def Column.shown (c : Column) : ℝ :=
  match c.op with
  | .rotateX | .rotateY | .rotateZ => c.value * 180 / Real.pi
  | _ => c.value

/-- The lines about a bone: its name, the first three rows of its local transform, and its operations with their values. -/
def boneText (name : String) (m : Bone) : List Tok :=
  [.text name, .newline] ++
  [.text "  (", .num (m.matrix 0 0), .num (m.matrix 0 1), .num (m.matrix 0 2), .num (m.matrix 0 3), .text ")", .newline] ++
  [.text "  (", .num (m.matrix 1 0), .num (m.matrix 1 1), .num (m.matrix 1 2), .num (m.matrix 1 3), .text ")", .newline] ++
  [.text "  (", .num (m.matrix 2 0), .num (m.matrix 2 1), .num (m.matrix 2 2), .num (m.matrix 2 3), .text ")", .newline] ++
  [.text "  "] ++ List.intercalate [.comma] (m.ops.map fun o => [.text (opName o.type), .text "=", .num (Column.mk name false o.type o.value).shown]) ++
  (if m.ops = [] then [] else [.newline]) ++ [.newline]

/-- The operation with number `i` of bone `k` has been part of the first animation of one of the calls. -/
def Played (cs : List (Call F)) (k i : ℕ) : Prop :=
  ∃ c ∈ cs, ∃ x, c.starts.head? = some x ∧ ∃ b, x.1.bones[k]? = some b ∧ ∃ o ∈ b.ops, o.id = i

/-- C105: operations of different types have different names. -/
theorem C105_names_differ {a b : OpType} (h : opName a = opName b) : a = b := by
  cases a <;> cases b <;> first | rfl | exact absurd h (by decide)

/-! ### The operations of a rig -/

/-- The ids of the operations of a bone. -/
def RigData.idsOf (r : RigData (boneJoint F)) (k : ℕ) : List ℕ :=
  match r.motivators[k]? with
  | some (some m) => m.ops.map (·.id)
  | _ => []

theorem advanceAll_ids (l : List (Op splineDriver)) (dts : List ℤ) : (advanceAll l dts).map (·.id) = l.map (·.id) := by
  unfold advanceAll
  rw [List.map_map]
  refine List.map_congr_left ?_
  intro o _
  clear * -
  simp only [Function.comp_apply]
  induction dts generalizing o with
  | nil => rfl
  | cons d ds ih => rw [List.foldl_cons, ih]; rfl

theorem played_cons (c : Call F) (cs : List (Call F)) (k i : ℕ) : Played (c :: cs) k i ↔ Played [c] k i ∨ Played cs k i := by
  unfold Played
  constructor
  · rintro ⟨c', hc, h⟩
    rcases List.mem_cons.mp hc with rfl | hc
    · exact Or.inl ⟨c', by simp, h⟩
    · exact Or.inr ⟨c', hc, h⟩
  · rintro (⟨c', hc, h⟩ | ⟨c', hc, h⟩)
    · rw [List.mem_singleton] at hc; subst hc; exact ⟨c', by simp, h⟩
    · exact ⟨c', by simp [hc], h⟩

theorem start_ids {sqt : ℕ → Bool} {kind : ℕ → ℕ → OpType} {n : ℕ} {r r' : RigData (boneJoint F)} {t t' : ℤ} (hi : Inv sqt kind n r) {c : Call F}
    (hc : c.starts ≠ []) (hs : ∀ x ∈ c.starts, Suits sqt kind x.1 x.2) (h : step (r, t) c = some (r', t')) {k : ℕ} (hk : k < r.numBones) (i : ℕ) :
    i ∈ r'.idsOf k ↔ i ∈ r.idsOf k ∨ Played [c] k i := by
  have hpos : 0 < c.starts.length := List.length_pos_iff.mpr hc
  obtain ⟨-, -, -, e⟩ := start_inv hi hc hs h
  obtain ⟨b, m, m', e1, e2, e3, e4, e5⟩ := e 0 hpos k hk
  obtain ⟨m2, f1, f2, f3⟩ := suits_blend (hs _ (List.getElem_mem hpos)) e1 e3
  rw [e4] at f1
  cases f1
  obtain ⟨g, -⟩ := f3 [] (by simp [Paced]) m' f2.1 (advanceAll_nil _).symm
  have hold : i ∈ r.idsOf k ↔ i ∈ m.ops.map (·.id) := by
    unfold Source at e2
    unfold RigData.idsOf
    split_ifs at e2 with g1 g2
    · rw [Nat.zero_mul, Nat.zero_add] at e2
      rw [e2]
    · exact absurd g2 (by omega)
    · have hw : r.weights = [] := List.length_eq_zero_iff.mp (by omega)
      rw [e2]
      have : ∀ m ∈ r.motivators, m = none := hi.fresh hw
      cases hm : r.motivators[k]? with
      | none => simp [Bone.create]
      | some x => rw [this x (List.mem_of_getElem? hm)]; simp [Bone.create]
  have hnew : Played [c] k i ↔ i ∈ b.ops.map fun o => o.id := by
    unfold Played
    constructor
    · rintro ⟨c', hc', x, hx, b', hb', o, ho, hoi⟩
      rw [List.mem_singleton] at hc'
      subst hc'
      rw [List.head?_eq_getElem?, List.getElem?_eq_getElem hpos] at hx
      cases hx
      rw [e1] at hb'
      cases hb'
      exact List.mem_map.mpr ⟨o, ho, hoi⟩
    · intro hm
      obtain ⟨o, ho, hoi⟩ := List.mem_map.mp hm
      exact ⟨c, by simp, c.starts[0], by rw [List.head?_eq_getElem?, List.getElem?_eq_getElem hpos], b, e1, o, ho, hoi⟩
  rw [hold, hnew, ← g i]
  unfold RigData.idsOf
  rw [Nat.zero_mul, Nat.zero_add] at e5
  rw [e5]

theorem other_ids {sqt : ℕ → Bool} {kind : ℕ → ℕ → OpType} {n : ℕ} {r r' : RigData (boneJoint F)} {t t' : ℤ} (hi : Inv sqt kind n r) {c : Call F}
    (hc : c.starts = []) {cs : List (Call F)} (hs : Allowed sqt kind n (c :: cs)) (h : step (r, t) c = some (r', t')) (k : ℕ) :
    r'.idsOf k = r.idsOf k := by
  obtain ⟨-, -, -, -, -, e⟩ := other_inv hi hc hs h
  have hnone : (∀ m, r.motivators[k]? ≠ some (some m)) → ∀ m, r'.motivators[k]? ≠ some (some m) := by
    intro hn m hm
    cases c with
    | play a pb => simp [Call.starts] at hc
    | blend as =>
      have : as = [] := by simpa [Call.starts] using hc
      subst this
      rw [blend_nil_fails] at h; cases h
    | weights ws =>
      obtain ⟨r1, h1, h2⟩ := Option.map_eq_some_iff.mp h
      cases h2
      obtain ⟨-, e2, -⟩ := weights_inv hi hs.1 h1
      rw [e2] at hm
      exact hn m hm
    | frame dt =>
      obtain ⟨r1, h1, h2⟩ := Option.bind_eq_some_iff.mp h
      obtain ⟨t1, -, h3⟩ := Option.map_eq_some_iff.mp h2
      cases h3
      obtain ⟨ms, f1, -, f3, -, -, -, f7⟩ := frame_fields h1
      rw [f3] at hm
      have := congrArg (·[k]?) f7
      simp only [List.getElem?_map, hm, Option.map_some, Option.isSome_some] at this
      cases hx : r.motivators[k]? with
      | none => rw [hx] at this; cases this
      | some x =>
        rw [hx] at this
        cases x with
        | none => simp at this
        | some m0 => exact hn m0 hx
  unfold RigData.idsOf
  cases hx : r.motivators[k]? with
  | none =>
    have := hnone (by rw [hx]; simp)
    split
    · rename_i m hm; exact absurd hm (this m)
    · rfl
  | some x =>
    cases x with
    | none =>
      have := hnone (by rw [hx]; simp)
      split
      · rename_i m hm; exact absurd hm (this m)
      · rfl
    | some m =>
      obtain ⟨m', e1, -, e3⟩ := e k m hx
      rw [e1]
      simp only [e3, advanceAll_ids]

/-- The operations of a rig are those of the first animations of all the calls. -/
theorem run_ids {sqt : ℕ → Bool} {kind : ℕ → ℕ → OpType} : ∀ (cs : List (Call F)) {n : ℕ} {r r' : RigData (boneJoint F)}
    {t t' : ℤ}, Inv sqt kind n r → Allowed sqt kind n cs → run (r, t) cs = some (r', t') → ∀ k < r.numBones, ∀ i,
    (i ∈ r'.idsOf k ↔ i ∈ r.idsOf k ∨ Played cs k i) := by
  intro cs
  induction cs with
  | nil => intro n r r' t t' hi ha h k _ i; cases h; simp [Played]
  | cons c cs ih =>
    intro n r r' t t' hi ha h k hk i
    obtain ⟨⟨r1, t1⟩, h1, h2⟩ := run_cons.mp h
    rw [played_cons, ← or_assoc]
    by_cases hc : c.starts = []
    · obtain ⟨e1, e2, e3, -⟩ := other_inv hi hc ha h1
      rw [ih e1 e2 h2 k (by unfold RigData.numBones; rw [e3]; exact hk) i, other_ids hi hc ha h1 k]
      have : ¬ Played [c] k i := by
        rintro ⟨c', hc', x, hx, -⟩
        rw [List.mem_singleton] at hc'
        subst hc'
        rw [hc] at hx; cases hx
      simp [this]
    · obtain ⟨a1, a2⟩ := allowed_starts hc ha
      obtain ⟨e1, e3, -⟩ := start_inv hi hc a1 h1
      rw [ih e1 a2 h2 k (by unfold RigData.numBones; rw [e3]; exact hk) i, start_ids hi hc a1 h1 hk i]

/-! ### Cells -/

theorem split_cell {sep : Tok → Bool} {s : Tok} (hs : sep s = true) : ∀ (pre rest : List Tok), (∀ t ∈ pre, sep t = false) →
    split sep (pre ++ s :: rest) = pre :: split sep rest
  | [], rest, _ => by simp [split, hs]
  | t :: pre, rest, h => by
    rw [List.cons_append, split, if_neg (by simp [h t (by simp)]), split_cell hs pre rest (fun x hx => h x (by simp [hx]))]

theorem split_none {sep : Tok → Bool} : ∀ pre : List Tok, (∀ t ∈ pre, sep t = false) → split sep pre = [pre]
  | [], _ => rfl
  | t :: pre, h => by rw [split, if_neg (by simp [h t (by simp)]), split_none pre (fun x hx => h x (by simp [hx]))]

/-- The columns from bone `i` on. -/
def columnsFrom (names : ℕ → String) (i : ℕ) : List Bone → List Column
  | [] => []
  | m :: ms => (m.ops.zipIdx.map fun y => ⟨names i, y.2 = 0, y.1.type, y.1.value⟩) ++ columnsFrom names (i + 1) ms

theorem columns_eq (names : ℕ → String) (ms : List Bone) : columns names ms = columnsFrom names 0 ms := by
  have : ∀ (ms : List Bone) (i : ℕ), ((ms.zipIdx i).flatMap fun x => x.1.ops.zipIdx.map fun y : Op splineDriver × ℕ =>
      (⟨names x.2, y.2 = 0, y.1.type, y.1.value⟩ : Column)) = columnsFrom names i ms := by
    intro ms
    induction ms with
    | nil => intro i; rfl
    | cons m ms ih => intro i; rw [List.zipIdx_cons, List.flatMap_cons, ih]; rfl
  exact this ms 0

/-- The definition of the rig names the operations that it has. -/
abbrev Named (opss : List (List (OpInit splineDriver))) (ms : List Bone) : Prop :=
  List.Forall₂ (fun ops m => ops.map (·.type) = m.ops.map (·.type)) opss ms

theorem cell_one {t : Tok} (h : isComma t = false) (rest : List Tok) : split isComma (t :: .comma :: rest) = [t] :: split isComma rest := by
  have := split_cell (sep := isComma) (s := .comma) rfl [t] rest (by simpa using h)
  simpa using this

theorem commas_cells (n : ℕ) (rest : List Tok) : split isComma (List.replicate n .comma ++ rest) = List.replicate n [] ++ split isComma rest := by
  induction n with
  | zero => rfl
  | succ n ih => rw [List.replicate_succ, List.cons_append, split, if_pos (by rfl), ih]; rfl

theorem names_cells (names : ℕ → String) (rest : List Tok) : ∀ (opss : List (List (OpInit splineDriver))) (ms : List Bone) (i : ℕ), Named opss ms →
    split isComma (headerLoop names 0 i opss ++ rest) =
      (columnsFrom names i ms).map (fun c => if c.first then [.text c.bone] else []) ++ split isComma rest := by
  intro opss ms i h
  induction h generalizing i with
  | nil => rfl
  | @cons ops m opss ms h1 _ ih =>
    rw [headerLoop, columnsFrom, List.append_assoc, List.map_append, List.append_assoc, ← ih (i + 1)]
    have hl : ops.length = m.ops.length := by simpa using congrArg List.length h1
    cases ho : m.ops with
    | nil => rw [ho, List.length_nil] at hl; rw [if_pos hl]; rfl
    | cons o os =>
      rw [ho] at hl
      rw [if_neg (by rw [hl]; simp)]
      simp only [if_true]
      have hc : (ops.flatMap fun _ => [Tok.comma]) = List.replicate (os.length + 1) .comma := by
        have : ∀ l : List (OpInit splineDriver), (l.flatMap fun _ => [Tok.comma]) = List.replicate l.length .comma := by
          intro l; induction l with
          | nil => rfl
          | cons a l ih => rw [List.flatMap_cons, ih]; rfl
        rw [this, hl]; rfl
      rw [hc, List.replicate_succ, List.append_assoc, List.cons_append, List.cons_append, List.nil_append, cell_one rfl, commas_cells]
      rw [List.zipIdx_cons, List.map_cons, List.map_cons]
      simp only [decide_true, if_true, List.cons_append, List.map_map]
      congr 2
      have : ∀ (l : List (Op splineDriver)) (j : ℕ), 0 < j → (l.zipIdx j).map ((fun c : Column => if c.first = true then [Tok.text c.bone] else []) ∘
          fun y : Op splineDriver × ℕ => ⟨names i, y.2 = 0, y.1.type, y.1.value⟩) = List.replicate l.length [] := by
        intro l
        induction l with
        | nil => intro j _; rfl
        | cons a l ih =>
          intro j hj
          rw [List.zipIdx_cons, List.map_cons, ih (j + 1) (by omega)]
          have : ¬ j = 0 := by omega
          simp [this, List.replicate_succ]
      rw [Nat.zero_add, this os 1 (by omega)]

theorem types_cells (names : ℕ → String) (rest : List Tok) : ∀ (opss : List (List (OpInit splineDriver))) (ms : List Bone) (i : ℕ), Named opss ms →
    split isComma (headerLoop names 1 i opss ++ rest) = (columnsFrom names i ms).map (fun c => [.text (opName c.op)]) ++ split isComma rest := by
  intro opss ms i h
  induction h generalizing i with
  | nil => rfl
  | @cons ops m opss ms h1 _ ih =>
    rw [headerLoop, columnsFrom, List.append_assoc, List.map_append, List.append_assoc, ← ih (i + 1)]
    generalize headerLoop names 1 (i + 1) opss ++ rest = more
    have key : ∀ (ops : List (OpInit splineDriver)) (os : List (Op splineDriver)) (j : ℕ), ops.map (·.type) = os.map (·.type) →
        split isComma ((ops.flatMap fun o => [.text (opName o.type), .comma]) ++ more) =
          ((os.zipIdx j).map fun y => (⟨names i, y.2 = 0, y.1.type, y.1.value⟩ : Column)).map (fun c => [.text (opName c.op)]) ++ split isComma more := by
      intro ops
      induction ops with
      | nil => intro os j h; rw [List.map_eq_nil_iff.mp h.symm]; rfl
      | cons a ops ih =>
        intro os j h
        cases os with
        | nil => simp at h
        | cons b os =>
          obtain ⟨h1, h2⟩ := List.cons.inj h
          have := ih os (j + 1) h2
          rw [List.flatMap_cons, List.append_assoc, List.zipIdx_cons, List.map_cons, List.map_cons]
          simp only [List.cons_append, List.nil_append]
          rw [cell_one rfl, this, show a.type = b.type from h1]
    by_cases hl : ops.length = 0
    · have : ops = [] := List.length_eq_zero_iff.mp hl
      subst this
      have : m.ops = [] := List.map_eq_nil_iff.mp h1.symm
      rw [this]; rfl
    · rw [if_neg hl]
      simp only [one_ne_zero, if_false, List.nil_append]
      exact key ops m.ops 0 h1

theorem header_newlines (names : ℕ → String) (line : ℕ) : ∀ (opss : List (List (OpInit splineDriver))) (i : ℕ),
    ∀ t ∈ headerLoop names line i opss, isNewline t = false := by
  intro opss
  induction opss with
  | nil => intro i t ht; simp [headerLoop] at ht
  | cons ops opss ih =>
    intro i t ht
    rw [headerLoop, List.mem_append] at ht
    rcases ht with ht | ht
    · split_ifs at ht
      · simp at ht
      · simp at ht
        rcases ht with rfl | ⟨-, rfl⟩ <;> rfl
      · simp at ht
        obtain ⟨a, -, rfl | rfl⟩ := ht <;> rfl
    · exact ih (i + 1) t ht

theorem fill_eq : ∀ (new vs : List ℝ) (n : ℕ), fillValues (vs ++ List.replicate n 0) vs.length new =
    if new.length ≤ n then some (vs ++ new ++ List.replicate (n - new.length) 0, vs.length + new.length) else none := by
  intro new
  induction new with
  | nil => intro vs n; simp [fillValues]
  | cons v new ih =>
    intro vs n
    rw [fillValues]
    cases n with
    | zero => simp
    | succ n =>
      rw [if_pos (by simp), List.replicate_succ, List.set_append_right _ _ le_rfl, Nat.sub_self, List.set_cons_zero]
      have := ih (vs ++ [v]) n
      simp only [List.append_assoc, List.singleton_append, List.length_append, List.length_singleton] at this
      rw [this]
      simp only [List.length_cons, Nat.add_le_add_iff_right, List.append_assoc, List.cons_append, Nat.add_sub_add_right]
      congr 3
      omega

/-- The values of the operations of bones. -/
def allValues (ms : List Bone) : List ℝ := ms.flatMap fun m => m.ops.map Op.value

theorem childLoop_eq : ∀ (ms : List Bone) (vs : List ℝ) (n : ℕ), childLoop (vs ++ List.replicate n 0) vs.length (ms.map some) =
    if (allValues ms).length ≤ n then some (vs ++ allValues ms ++ List.replicate (n - (allValues ms).length) 0) else none := by
  intro ms
  induction ms with
  | nil => intro vs n; simp [childLoop, allValues]
  | cons m ms ih =>
    intro vs n
    rw [List.map_cons, childLoop, fill_eq]
    have hc : allValues (m :: ms) = m.ops.map Op.value ++ allValues ms := rfl
    rw [hc, List.length_append]
    by_cases h : (m.ops.map Op.value).length ≤ n
    · rw [if_pos h]
      simp only
      have := ih (vs ++ m.ops.map Op.value) (n - (m.ops.map Op.value).length)
      rw [List.length_append] at this
      rw [this]
      by_cases h2 : (allValues ms).length ≤ n - (m.ops.map Op.value).length
      · rw [if_pos h2, if_pos (by omega), List.append_assoc, List.append_assoc, List.append_assoc, List.append_assoc, Nat.sub_sub]
      · rw [if_neg h2, if_neg (by omega)]
    · rw [if_neg h, if_neg (by omega)]

theorem valuesLoop_eq : ∀ (ts : List OpType) (pre vs rest : List ℝ), ts.length = vs.length → valuesLoop (pre ++ vs ++ rest) pre.length ts =
    some ((ts.zip vs).flatMap fun x => [.num (degrees x.1 * x.2), .comma]) := by
  intro ts
  induction ts with
  | nil => intro pre vs rest h; rfl
  | cons t ts ih =>
    intro pre vs rest h
    cases vs with
    | nil => simp at h
    | cons v vs =>
      have := ih (pre ++ [v]) vs rest (by simpa using h)
      simp only [List.append_assoc, List.length_append, List.length_singleton, List.singleton_append] at this
      rw [valuesLoop]
      rw [List.cons_append] at this
      simp [this]

theorem values_cells : ∀ (l : List (OpType × ℝ)), split isComma (l.flatMap fun x => [.num (degrees x.1 * x.2), .comma]) =
    l.map (fun x => [.num (degrees x.1 * x.2)]) ++ [[]] := by
  intro l
  induction l with
  | nil => rfl
  | cons x l ih =>
    rw [List.flatMap_cons]
    simp only [List.cons_append, List.nil_append]
    rw [cell_one rfl, ih]
    rfl

theorem values_newlines (l : List (OpType × ℝ)) : ∀ t ∈ l.flatMap fun x => [Tok.num (degrees x.1 * x.2), Tok.comma], isNewline t = false := by
  intro t ht
  obtain ⟨x, -, hx⟩ := List.mem_flatMap.mp ht
  simp at hx
  rcases hx with rfl | rfl <;> rfl

/-! ### Times -/

/-- The length of the longest animation that a call starts. -/
def Call.longest : Call F → ℤ
  | .play a _ => a.endTime
  | .blend as => as.foldl (fun t a => max t a.1.endTime) 0
  | _ => 0

theorem addTime_eq {a b c : ℤ} (h : addTime a b = some c) : c = a + b := by
  unfold addTime at h
  split_ifs at h
  cases h
  rfl

theorem start_time {r r' : RigData (boneJoint F)} {t t' : ℤ} {c : Call F} (hc : c.starts ≠ []) (h : step (r, t) c = some (r', t')) :
    t' = t ∧ r'.endTime = t + c.longest := by
  cases c with
  | weights ws => exact absurd rfl hc
  | frame dt => exact absurd rfl hc
  | play a pb =>
    obtain ⟨r1, h1, h2⟩ := Option.map_eq_some_iff.mp h
    cases h2
    obtain ⟨e, ms, he, -, hr⟩ := blendToAnim_fields h1
    exact ⟨rfl, by rw [hr]; exact addTime_eq he⟩
  | blend as =>
    obtain ⟨r1, h1, h2⟩ := Option.map_eq_some_iff.mp h
    cases h2
    obtain ⟨e, ms, total, he, -, -, hr⟩ := blendToAnims_fields h1
    exact ⟨rfl, by rw [hr]; exact addTime_eq he⟩

theorem tail_time : ∀ (cs : List (Call F)) {r r' : RigData (boneJoint F)} {t t' : ℤ}, (∀ c ∈ cs, c.starts = []) → run (r, t) cs = some (r', t') →
    r'.endTime = r.endTime ∧ t' = t + (cs.flatMap Call.time).sum := by
  intro cs
  induction cs with
  | nil => intro r r' t t' _ h; cases h; simp
  | cons c cs ih =>
    intro r r' t t' hc h
    obtain ⟨⟨r1, t1⟩, h1, h2⟩ := run_cons.mp h
    obtain ⟨e1, e2⟩ := ih (fun c hm => hc c (by simp [hm])) h2
    have hstep : r1.endTime = r.endTime ∧ t1 = t + c.time.sum := by
      cases c with
      | play a pb => exact absurd (hc _ List.mem_cons_self) (by simp [Call.starts])
      | blend as =>
        have : as = [] := by simpa [Call.starts] using hc _ List.mem_cons_self
        subst this
        rw [blend_nil_fails] at h1; cases h1
      | weights ws =>
        obtain ⟨r2, f1, f2⟩ := Option.map_eq_some_iff.mp h1
        cases f2
        obtain ⟨total, -, rfl⟩ := setWeights_eq f1
        simp [Call.time]
      | frame dt =>
        obtain ⟨r2, f1, f2⟩ := Option.bind_eq_some_iff.mp h1
        obtain ⟨t2, f3, f4⟩ := Option.map_eq_some_iff.mp f2
        cases f4
        obtain ⟨ms, -, g, -⟩ := frame_fields f1
        obtain ⟨-, -, -, -, g2⟩ := update_fields g
        exact ⟨g2, by simp [Call.time, addTime_eq f3]⟩
    rw [List.flatMap_cons, List.sum_append]
    exact ⟨e1.trans hstep.1, by rw [e2, hstep.2]; ring⟩

/-! ### Theorems -/

theorem eq_of_ascending : ∀ {l l' : List ℕ}, Ascending l → Ascending l' → (∀ i, i ∈ l ↔ i ∈ l') → l = l' := by
  intro l l' h h' hm
  exact List.Perm.eq_of_pairwise' (r := (· < ·)) h h' ((List.perm_ext_iff_of_nodup (h.imp (fun h => Nat.ne_of_lt h)) (h'.imp (fun h => Nat.ne_of_lt h))).mpr hm)

theorem map_types {α β : Type} {f : α → ℕ} {g : β → ℕ} {u : α → OpType} {v : β → OpType} {kind : ℕ → OpType} {l : List α} {l' : List β}
    (h : l.map f = l'.map g) (h1 : ∀ x ∈ l, u x = kind (f x)) (h2 : ∀ x ∈ l', v x = kind (g x)) : l.map u = l'.map v := by
  rw [List.map_congr_left h1, List.map_congr_left h2]
  have := congrArg (List.map kind) h
  simpa [List.map_map, Function.comp_def] using this

/-- Every bone has the operations of the first animations of the calls so far, in the order of their ids, and nothing else. -/
theorem C105_channels {sqt : ℕ → Bool} {kind : ℕ → ℕ → OpType} {a : Anim (boneJoint F)} {root : ℕ} {t₀ : ℤ} {r₀ : RigData (boneJoint F)}
    (hp : a.parents.length = a.bones.length) (ho : InOrder a.parents) (h0 : RigData.new a root t₀ = some r₀)
    {pre tail : List (Call F)} {order : Call F} (hs : order.starts ≠ []) (ht : ∀ c ∈ tail, c.starts = [])
    (ha : Allowed sqt kind 0 (pre ++ order :: tail)) {r : RigData (boneJoint F)} {t : ℤ}
    (h : run (r₀, t₀) (pre ++ order :: tail) = some (r, t)) :
    ∀ k < a.bones.length, ∃ m : Bone, r.motivators[k]? = some (some m) ∧ Ascending (m.ops.map (·.id)) ∧
      (∀ o ∈ m.ops, o.type = kind k o.id) ∧ ∀ i, (∃ o ∈ m.ops, o.id = i) ↔ Played (pre ++ order :: tail) k i := by
  intro k hk
  have hd0 : r₀.defining = a := (update_fields h0).2.2.1
  have hids := run_ids (pre ++ order :: tail) (new_inv hp ho h0 sqt kind) ha h k (by unfold RigData.numBones; rw [hd0]; exact hk)
  have hnone : r₀.idsOf k = [] := by
    have e := (new_inv hp ho h0 sqt kind).fresh (update_fields h0).2.1
    unfold RigData.idsOf
    split
    · rename_i m hm; exact absurd (e _ (List.mem_of_getElem? hm)) (by simp)
    · rfl
  obtain ⟨⟨old, told⟩, p1, p2⟩ := run_append.mp h
  obtain ⟨⟨r1, t1⟩, p3, p4⟩ := run_cons.mp p2
  obtain ⟨n, i1, a1, d1, b1⟩ := run_inv pre (new_inv hp ho h0 sqt kind) ha p1
  obtain ⟨a2, a3⟩ := allowed_starts hs a1
  obtain ⟨i2, d2, b2, s2⟩ := start_inv i1 hs a2 p3
  obtain ⟨i3, -, d3, -, -, s3⟩ := tail_inv tail ht i2 (rest := []) (by simpa using a3) p4
  have hno : old.numBones = a.bones.length := by unfold RigData.numBones; rw [d1, hd0]
  have hnr : r.numBones = a.bones.length := by unfold RigData.numBones; rw [d3, d2, d1, hd0]
  obtain ⟨b, m, m', -, -, -, -, e5⟩ := s2 0 (List.length_pos_iff.mpr hs) k (by rw [hno]; exact hk)
  obtain ⟨m2, f1, -, -⟩ := s3 _ _ e5
  have hw := (i3.healthy 0 k m2 (by rw [hnr]; exact hk) (by rw [hnr, ← hno]; exact f1)).works
  rw [Nat.zero_mul, Nat.zero_add] at f1
  refine ⟨m2, f1, hw.ascending, hw.typed, ?_⟩
  intro i
  have := hids i
  rw [hnone] at this
  unfold RigData.idsOf at this
  rw [f1] at this
  simpa using this

theorem exists_list {α : Type} (l : List (Option α)) (h : ∀ k < l.length, ∃ x, l[k]? = some (some x)) : ∃ xs : List α, l = xs.map some := by
  induction l with
  | nil => exact ⟨[], rfl⟩
  | cons y l ih =>
    obtain ⟨x, hx⟩ := h 0 (by simp)
    obtain ⟨xs, rfl⟩ := ih (fun k hk => by simpa using h (k + 1) (by simpa using hk))
    exact ⟨x :: xs, by simpa using hx⟩

/-- The motivators of the first animation. -/
theorem run_bones {sqt : ℕ → Bool} {kind : ℕ → ℕ → OpType} {a : Anim (boneJoint F)} {root : ℕ} {t₀ : ℤ} {r₀ : RigData (boneJoint F)}
    (hp : a.parents.length = a.bones.length) (ho : InOrder a.parents) (h0 : RigData.new a root t₀ = some r₀)
    {pre tail : List (Call F)} {order : Call F} (hs : order.starts ≠ []) (ht : ∀ c ∈ tail, c.starts = [])
    (ha : Allowed sqt kind 0 (pre ++ order :: tail)) {r : RigData (boneJoint F)} {t : ℤ}
    (h : run (r₀, t₀) (pre ++ order :: tail) = some (r, t)) :
    ∃ ms : List Bone, r.motivators.take a.bones.length = ms.map some ∧ ms.length = a.bones.length ∧ r.defining = a ∧
      t - r.endTime = (tail.flatMap Call.time).sum - order.longest ∧ 0 ≤ (tail.flatMap Call.time).sum := by
  have hc := C105_channels hp ho h0 hs ht ha h
  have hlen : (r.motivators.take a.bones.length).length = a.bones.length := by
    rw [List.length_take]
    by_contra hn
    have hlt : r.motivators.length < a.bones.length := by omega
    obtain ⟨m, hm, -⟩ := hc r.motivators.length hlt
    simp at hm
  obtain ⟨ms, hms⟩ := exists_list (r.motivators.take a.bones.length) (by
    intro k hk
    rw [hlen] at hk
    obtain ⟨m, hm, -⟩ := hc k hk
    exact ⟨m, by rw [List.getElem?_take_of_lt hk, hm]⟩)
  obtain ⟨⟨old, told⟩, p1, p2⟩ := run_append.mp h
  obtain ⟨⟨r1, t1⟩, p3, p4⟩ := run_cons.mp p2
  obtain ⟨n, i1, a1, d1, b1⟩ := run_inv pre (new_inv hp ho h0 sqt kind) ha p1
  obtain ⟨a2, a3⟩ := allowed_starts hs a1
  obtain ⟨i2, d2, b2, s2⟩ := start_inv i1 hs a2 p3
  obtain ⟨-, -, d3, -, hpc, -⟩ := tail_inv tail ht i2 (rest := []) (by simpa using a3) p4
  obtain ⟨e1, e2⟩ := start_time hs p3
  obtain ⟨e3, e4⟩ := tail_time tail ht p4
  refine ⟨ms, hms, by rw [hms, List.length_map] at hlen; exact hlen, by rw [d3, d2, d1]; exact (update_fields h0).2.2.1,
    by rw [e4, e3, e2, e1]; ring, List.sum_nonneg fun d hd => ?_⟩
  exact (hpc d hd).1.le

theorem shown_eq (c : Column) : degrees c.op * c.value = c.shown := by
  unfold degrees Column.shown
  cases c.op <;> simp [OpType.isRotate] <;> ring

theorem zip_columns (names : ℕ → String) : ∀ (opss : List (List (OpInit splineDriver))) (ms : List Bone) (i : ℕ), Named opss ms →
    ((opss.flatten.map (·.type)).zip (allValues ms)).map (fun x => [Tok.num (degrees x.1 * x.2)]) =
      (columnsFrom names i ms).map fun c => [Tok.num c.shown] := by
  intro opss ms i h
  induction h generalizing i with
  | nil => rfl
  | @cons ops m opss ms h1 _ ih =>
    have hl : (ops.map (·.type)).length = (m.ops.map Op.value).length := by
      rw [h1]; simp
    have hc : allValues (m :: ms) = m.ops.map Op.value ++ allValues ms := rfl
    rw [columnsFrom, List.map_append, ← ih (i + 1), hc, List.flatten_cons, List.map_append, List.zip_append hl, List.map_append]
    congr 1
    rw [h1]
    clear * -
    have : ∀ (l : List (Op splineDriver)) (j : ℕ), ((l.map (·.type)).zip (l.map Op.value)).map (fun x => [Tok.num (degrees x.1 * x.2)]) =
        (l.zipIdx j).map ((fun c : Column => [Tok.num c.shown]) ∘ fun y => ⟨names i, y.2 = 0, y.1.type, y.1.value⟩) := by
      intro l
      induction l with
      | nil => intro j; rfl
      | cons o l ih =>
        intro j
        rw [List.zipIdx_cons, List.map_cons, List.map_cons, List.zip_cons_cons, List.map_cons, List.map_cons, ih (j + 1)]
        simp only [Function.comp_apply]
        rw [← shown_eq]
    rw [List.map_map]
    exact this m.ops 0

theorem named_length {opss : List (List (OpInit splineDriver))} {ms : List Bone} (h : Named opss ms) :
    (opss.map List.length).sum = (allValues ms).length := by
  induction h with
  | nil => rfl
  | @cons ops m opss ms h1 _ ih =>
    have hl : ops.length = m.ops.length := by simpa using congrArg List.length h1
    have hc : allValues (m :: ms) = m.ops.map Op.value ++ allValues ms := rfl
    rw [hc, List.map_cons, List.sum_cons, ih, hl, List.length_append, List.length_map]

/-- The tables name every operation of the rig, in the column in which its value is. **Partial**: the animations played so far must have had the
operations of the definition of the rig, no more and no fewer. The time is that since the animation was started, if no other was started
with it that is longer. -/
theorem C105_csv_partial {sqt : ℕ → Bool} {kind : ℕ → ℕ → OpType} {a : Anim (boneJoint F)} {root : ℕ} {t₀ : ℤ} {r₀ : RigData (boneJoint F)}
    (hp : a.parents.length = a.bones.length) (ho : InOrder a.parents) (h0 : RigData.new a root t₀ = some r₀)
    {pre tail : List (Call F)} {order : Call F} (ht : ∀ c ∈ tail, c.starts = [])
    (ha : Allowed sqt kind 0 (pre ++ order :: tail)) {r : RigData (boneJoint F)} {t : ℤ}
    (h : run (r₀, t₀) (pre ++ order :: tail) = some (r, t))
    {current : Anim (boneJoint F)} {pb : Playback} (hs : order.starts.head? = some (current, pb))
    (hd : ∀ k b, a.bones[k]? = some b → Ascending (b.ops.map (·.id)) ∧ (∀ o ∈ b.ops, o.type = kind k o.id) ∧
      ∀ i, (∃ o ∈ b.ops, o.id = i) ↔ Played (pre ++ order :: tail) k i)
    (hl : order.longest = current.endTime) (h1 : 0 ≤ current.endTime ∧ current.endTime ≤ 2 ^ 31)
    (h2 : (tail.flatMap Call.time).sum ≤ 2 ^ 31 - 1) (names : ℕ → String) (name : String) :
    ∃ ms : List Bone, r.motivators.take a.bones.length = ms.map some ∧ ms.length = a.bones.length ∧
      table (r.csvHeader names) =
        [[[.text "animation name"], [.text "time"]] ++ (columns names ms).map (fun c => if c.first then [.text c.bone] else []) ++ [[]],
         [[], []] ++ (columns names ms).map (fun c => [.text (opName c.op)]) ++ [[]],
         [[]]] ∧
      ∃ row, r.csvValues name current t = some row ∧
        table row = [[[.text name], [.time (tail.flatMap Call.time).sum]] ++ (columns names ms).map (fun c => [.num c.shown]) ++ [[]]] := by
  have hs' : order.starts ≠ [] := by intro hn; rw [hn] at hs; cases hs
  have hch := C105_channels hp ho h0 hs' ht ha h
  obtain ⟨ms, e1, e2, e3, e4, e5⟩ := run_bones hp ho h0 hs' ht ha h
  have hget : ∀ k (hk : k < ms.length), r.motivators[k]? = some (some ms[k]) := by
    intro k hk
    have := congrArg (·[k]?) e1
    simp only [List.getElem?_map, List.getElem?_eq_getElem hk, Option.map_some] at this
    rw [List.getElem?_take_of_lt (by omega)] at this
    exact this
  have hnamed : Named a.ops ms := by
    rw [Named, List.forall₂_iff_get]
    refine ⟨by rw [Anim.ops, List.length_map, e2], ?_⟩
    intro k hk1 hk2
    have hk : k < a.bones.length := by omega
    simp only [List.get_eq_getElem]
    obtain ⟨m, f1, f2, f3, f4⟩ := hch k hk
    rw [hget k hk2] at f1
    cases f1
    obtain ⟨g1, g2, g3⟩ := hd k _ (List.getElem?_eq_getElem hk)
    have hids : (a.bones[k].ops.map (·.id)) = ms[k].ops.map (·.id) := by
      refine eq_of_ascending g1 f2 ?_
      intro i
      have := (g3 i).trans (f4 i).symm
      simpa using this
    have hop : (a.ops)[k] = a.bones[k].ops := by simp [Anim.ops]
    rw [hop]
    exact map_types hids g2 f3
  have hlen := named_length hnamed
  have hfl : (a.ops.flatten.map (·.type)).length = (allValues ms).length := by
    rw [List.length_map, List.length_flatten]; exact hlen
  refine ⟨ms, e1, e2, ?_, ?_⟩
  · have hn : ∀ l, ∀ t ∈ headerLoop names l 0 a.ops, isNewline t = false := fun l => header_newlines names l a.ops 0
    unfold table RigData.csvHeader
    rw [e3, List.append_assoc, List.singleton_append, split_cell (sep := isNewline) (s := .newline) rfl _ _ (by
      intro t ht
      rcases List.mem_append.mp ht with ht | ht
      · simp at ht; rcases ht with rfl | rfl | rfl | rfl <;> rfl
      · exact hn 0 t ht), split_cell (sep := isNewline) (s := .newline) rfl _ _ (by
      intro t ht
      rcases List.mem_append.mp ht with ht | ht
      · simp at ht; subst ht; rfl
      · exact hn 1 t ht)]
    have k0 := names_cells names [] a.ops ms 0 hnamed
    have k1 := types_cells names [] a.ops ms 0 hnamed
    rw [List.append_nil] at k0 k1
    have hcom : ∀ l : List Tok, split isComma ([.comma, .comma] ++ l) = [[], []] ++ split isComma l := commas_cells 2
    simp only [List.map_cons, List.map_nil, split]
    rw [hcom, k1]
    simp only [List.cons_append, List.nil_append]
    rw [cell_one rfl, cell_one rfl, k0, columns_eq]
    rfl
  · have hv : r.childValues = some (allValues ms) := by
      unfold RigData.childValues RigData.numBones
      rw [e3, e1]
      have := childLoop_eq ms [] a.numOps
      rw [List.nil_append, List.nil_append, if_pos (show (allValues ms).length ≤ a.numOps from hlen.ge)] at this
      rw [show ([] : List ℝ).length = 0 from rfl] at this
      rw [this]
      rw [show a.numOps - (allValues ms).length = 0 by unfold Anim.numOps; omega]
      simp
    have ht1 : (addTime t (-r.endTime)).bind (fun x => addTime x current.endTime) = some (tail.flatMap Call.time).sum := by
      have hx : t + -r.endTime = (tail.flatMap Call.time).sum - current.endTime := by rw [← hl, ← e4]; ring
      unfold addTime
      rw [hx, if_pos (by constructor <;> omega)]
      simp only [Option.bind_some]
      rw [if_pos (by constructor <;> omega)]
      congr 1
      ring
    have hval := valuesLoop_eq (a.ops.flatten.map (·.type)) [] (allValues ms) [] hfl
    rw [List.nil_append, List.append_nil] at hval
    refine ⟨_, by unfold RigData.csvValues; rw [hv, ht1, e3]; simp only; rw [show (0 : ℕ) = ([] : List ℝ).length from rfl, hval, Option.map_some], ?_⟩
    unfold table
    rw [split_none (sep := isNewline) _ (by
      intro t ht
      rcases List.mem_append.mp ht with ht | ht
      · simp at ht; rcases ht with rfl | rfl | rfl | rfl <;> rfl
      · exact values_newlines _ t ht)]
    simp only [List.map_cons, List.map_nil, List.cons_append, List.nil_append]
    rw [cell_one rfl, cell_one rfl, values_cells, zip_columns names a.ops ms 0 hnamed, columns_eq]

/-- The time in the table: that since the animations were started, less what the first is shorter than the longest. -/
theorem C105_csv_time {sqt : ℕ → Bool} {kind : ℕ → ℕ → OpType} {a : Anim (boneJoint F)} {root : ℕ} {t₀ : ℤ} {r₀ : RigData (boneJoint F)}
    (hp : a.parents.length = a.bones.length) (ho : InOrder a.parents) (h0 : RigData.new a root t₀ = some r₀)
    {pre tail : List (Call F)} {order : Call F} (ht : ∀ c ∈ tail, c.starts = [])
    (ha : Allowed sqt kind 0 (pre ++ order :: tail)) {r : RigData (boneJoint F)} {t : ℤ}
    (h : run (r₀, t₀) (pre ++ order :: tail) = some (r, t))
    {current : Anim (boneJoint F)} {pb : Playback} (hs : order.starts.head? = some (current, pb)) {name : String} {row : List Tok}
    (hr : r.csvValues name current t = some row) :
    ∃ cells, row = [.text name, .comma, .time ((tail.flatMap Call.time).sum - (order.longest - current.endTime)), .comma] ++ cells := by
  have hs' : order.starts ≠ [] := by intro hn; rw [hn] at hs; cases hs
  obtain ⟨ms, -, -, -, e4, -⟩ := run_bones hp ho h0 hs' ht ha h
  unfold RigData.csvValues at hr
  split at hr
  · rename_i values x _ hx
    obtain ⟨l, -, rfl⟩ := Option.map_eq_some_iff.mp hr
    obtain ⟨y, hy1, hy2⟩ := Option.bind_eq_some_iff.mp hx
    have := addTime_eq hy1
    have := addTime_eq hy2
    exact ⟨l, by rw [show x = (tail.flatMap Call.time).sum - (order.longest - current.endTime) by omega]⟩
  · cases hr

/-- If the animations played so far have had more operations than the definition of the rig has, then values are written past the end of a
vector. -/
theorem C105_csv_overflows {r : RigData (boneJoint F)} {ms : List Bone} (h : r.motivators.take r.numBones = ms.map some)
    (hn : r.defining.numOps < (ms.map fun m => m.ops.length).sum) (name : String) (current : Anim (boneJoint F)) (t : ℤ) :
    r.csvValues name current t = none := by
  have hv : r.childValues = none := by
    unfold RigData.childValues
    rw [h]
    have := childLoop_eq ms [] r.defining.numOps
    rw [List.nil_append, List.nil_append] at this
    rw [show ([] : List ℝ).length = 0 from rfl] at this
    rw [this, if_neg]
    have : (allValues ms).length = (ms.map fun m => m.ops.length).sum := by simp [allValues, List.length_flatMap]
    omega
  unfold RigData.csvValues
  rw [hv]

/-- Before any animation is played the motivators are not valid, and there is nothing to read. -/
theorem C105_csv_before_playing {a : Anim (boneJoint F)} {root : ℕ} {t₀ : ℤ} {r₀ : RigData (boneJoint F)} (h0 : RigData.new a root t₀ = some r₀)
    (hb : a.bones ≠ []) (name : String) (current : Anim (boneJoint F)) (t : ℤ) : r₀.csvValues name current t = none := by
  obtain ⟨e1, -, e3, -⟩ := update_fields h0
  have hv : r₀.childValues = none := by
    unfold RigData.childValues RigData.numBones
    rw [e1, e3]
    obtain ⟨b, bs, hbs⟩ := List.exists_cons_of_ne_nil hb
    simp [hbs, List.replicate_succ, childLoop]
  unfold RigData.csvValues
  rw [hv]

theorem chain_path {parents : List ℕ} (ho : InOrder parents) : ∀ i < parents.length, ∃ path, Path parents path i ∧ chain parents i = some path.reverse ∧
    ∀ k ∈ path, k < parents.length := by
  intro i
  induction i using Nat.strong_induction_on with
  | _ i ih =>
    intro hi
    have hg : parents[i]? = some parents[i] := List.getElem?_eq_getElem hi
    rw [chain, hg]
    by_cases hk : parents[i] = kInvalidBoneIdx
    · exact ⟨[i], .root (by rw [hg, hk]), by simp [hk], by simpa using hi⟩
    · have hlt : parents[i] < i := by
        rcases ho i hi with h | h
        · exact absurd h hk
        · exact h
      obtain ⟨path, h1, h2, h3⟩ := ih _ hlt (by omega)
      refine ⟨path ++ [i], .child hg hk h1, by simp [hk, hlt, h2], ?_⟩
      intro k hm
      rcases List.mem_append.mp hm with hm | hm
      · exact h3 k hm
      · rw [List.mem_singleton] at hm; omega

theorem opsLoop_eq (name : String) : ∀ (os pre : List (Op splineDriver)), opsLoop (pre ++ os) pre.length (os.map (·.type)) =
    some (List.intercalate [.comma] (os.map fun o => [.text (opName o.type), .text "=", .num (Column.mk name false o.type o.value).shown]) ++
      if os = [] then [] else [.newline]) := by
  intro os
  induction os with
  | nil => intro pre; rfl
  | cons o os ih =>
    intro pre
    rw [List.map_cons, opsLoop]
    have hget : (pre ++ o :: os)[pre.length]? = some o := by simp
    rw [hget]
    have := ih (pre ++ [o])
    rw [List.append_assoc, List.singleton_append, List.length_append, List.length_singleton] at this
    simp only
    have hs : degrees o.type * o.value = (Column.mk name false o.type o.value).shown := shown_eq (Column.mk name false o.type o.value)
    rw [this, Option.map_some, hs]
    cases os with
    | nil => simp [List.intercalate]
    | cons o2 os => simp [List.intercalate]

/-- The lines about a bone, its parent, and so on. **Partial**: the current animation must have all the operations of these bones. -/
theorem C105_local_partial {sqt : ℕ → Bool} {kind : ℕ → ℕ → OpType} {a : Anim (boneJoint F)} {root : ℕ} {t₀ : ℤ} {r₀ : RigData (boneJoint F)}
    (hp : a.parents.length = a.bones.length) (ho : InOrder a.parents) (h0 : RigData.new a root t₀ = some r₀)
    {pre tail : List (Call F)} {order : Call F} (ht : ∀ c ∈ tail, c.starts = [])
    (ha : Allowed sqt kind 0 (pre ++ order :: tail)) {r : RigData (boneJoint F)} {t : ℤ}
    (h : run (r₀, t₀) (pre ++ order :: tail) = some (r, t))
    {current : Anim (boneJoint F)} {pb : Playback} (hs : order.starts.head? = some (current, pb))
    (hd : ∀ k < a.bones.length, ∃ b, current.bones[k]? = some b ∧ ∀ i, Played (pre ++ order :: tail) k i → ∃ o ∈ b.ops, o.id = i)
    (hl : order.longest = current.endTime) (h1 : 0 ≤ current.endTime ∧ current.endTime ≤ 2 ^ 31 - 1)
    (h2 : (tail.flatMap Call.time).sum ≤ 2 ^ 31 - 1) (names : ℕ → String) (name : String) {bone : ℕ} (hb : bone < a.bones.length) :
    ∃ path, Path a.parents path bone ∧ ∃ ms : List Bone, r.motivators.take a.bones.length = ms.map some ∧ ms.length = a.bones.length ∧
      r.localTransforms name names current bone t = some
        ([.text name, .text " at time ", .time (tail.flatMap Call.time).sum, .text " (", .num ((tail.flatMap Call.time).sum * 24 / 1000),
          .text " @24fps)", .newline] ++ path.reverse.flatMap fun k => (ms[k]?.map (boneText (names k))).getD []) := by
  have hs' : order.starts ≠ [] := by intro hn; rw [hn] at hs; cases hs
  have hch := C105_channels hp ho h0 hs' ht ha h
  obtain ⟨ms, e1, e2, e3, e4, e5⟩ := run_bones hp ho h0 hs' ht ha h
  obtain ⟨path, p1, p2, p3⟩ := chain_path ho bone (by rw [hp]; exact hb)
  have hget : ∀ k (hk : k < ms.length), r.motivators[k]? = some (some ms[k]) := by
    intro k hk
    have := congrArg (·[k]?) e1
    simp only [List.getElem?_map, List.getElem?_eq_getElem hk, Option.map_some] at this
    rw [List.getElem?_take_of_lt (by omega)] at this
    exact this
  have hsuit : Suits sqt kind current pb := by
    obtain ⟨⟨old, told⟩, q1, -⟩ := run_append.mp h
    obtain ⟨n, i1, a1, -⟩ := run_inv pre (new_inv hp ho h0 sqt kind) ha q1
    obtain ⟨a2, -⟩ := allowed_starts hs' a1
    exact a2 (current, pb) (List.mem_of_mem_head? hs)
  have hbone : ∀ k (hk : k < ms.length), ∃ b, current.bones[k]? = some b ∧ b.ops.map (fun o => o.type) = ms[k].ops.map (·.type) := by
    intro k hk
    obtain ⟨b, g1, g2⟩ := hd k (by omega)
    obtain ⟨m, f1, f2, f3, f4⟩ := hch k (by omega)
    rw [hget k hk] at f1
    cases f1
    have hc := (hsuit k b g1).2.1
    refine ⟨b, g1, map_types (f := fun o => o.id) (g := fun o => o.id) (kind := kind k) (eq_of_ascending hc.ascending f2 ?_) hc.typed f3⟩
    intro i
    have : (∃ o ∈ b.ops, o.id = i) ↔ ∃ o ∈ ms[k].ops, o.id = i := by
      rw [f4 i]
      exact ⟨fun ⟨o, ho, hoi⟩ => ⟨order, by simp, (current, pb), hs, b, g1, o, ho, hoi⟩, g2 i⟩
    simpa using this
  refine ⟨path, p1, ms, e1, e2, ?_⟩
  have ht1 : (addTime r.endTime (-t)).bind (fun x => addTime current.endTime (-x)) = some (tail.flatMap Call.time).sum := by
    have hx : r.endTime + -t = current.endTime - (tail.flatMap Call.time).sum := by rw [← hl]; omega
    unfold addTime
    rw [hx, if_pos (by constructor <;> omega)]
    simp only [Option.bind_some]
    rw [if_pos (by constructor <;> omega)]
    congr 1
    ring
  have hloop : ∀ ks : List ℕ, (∀ k ∈ ks, k < ms.length) → r.localLoop names current ks =
      some (ks.flatMap fun k => (ms[k]?.map (boneText (names k))).getD []) := by
    intro ks
    induction ks with
    | nil => intro _; rfl
    | cons k ks ih =>
      intro hks
      have hk := hks k (by simp)
      obtain ⟨b, g1, g2⟩ := hbone k hk
      have hbt : boneToks (names k) (b.ops.map fun o => o.type) ms[k] = some (boneText (names k) ms[k]) := by
        unfold boneToks
        rw [g2]
        have := opsLoop_eq (names k) ms[k].ops []
        rw [List.nil_append] at this
        rw [show (0 : ℕ) = ([] : List (Op splineDriver)).length from rfl, this, Option.map_some]
        unfold boneText rowToks
        simp only [List.append_assoc]
      rw [RigData.localLoop, hget k hk, g1]
      simp only
      rw [hbt, ih (fun k hm => hks k (by simp [hm])), List.flatMap_cons, List.getElem?_eq_getElem hk]
      rfl
  unfold RigData.localTransforms
  rw [ht1, e3, p2]
  simp only
  rw [hloop _ (by intro k hk; have := p3 k (by simpa using hk); omega), Option.map_some]

/-! ### Where the tables are wrong -/

/-- An animation of one bone that moves. -/
def moves : Anim (boneJoint F) := ⟨[⟨false, [⟨none, 9, .translateY, .initial 3⟩]⟩], [kInvalidBoneIdx], 50⟩

/-- An animation of one bone that grows and moves. -/
def growsAndMoves : Anim (boneJoint F) := ⟨[⟨false, [⟨none, 8, .scaleX, .initial 2⟩, ⟨none, 9, .translateY, .initial 3⟩]⟩], [kInvalidBoneIdx], 90⟩

def oneKind (_ i : ℕ) : OpType := if i = 8 then .scaleX else .translateY

theorem moves_suits : Suits (F := F) (fun _ => false) oneKind moves {} := by
  intro k b hb
  have hk : k = 0 := by
    have := (List.getElem?_eq_some_iff.mp hb).1
    simp [moves] at this
    omega
  subst hk
  have : b = ⟨false, [⟨none, 9, .translateY, .initial 3⟩]⟩ := (Option.some.inj hb).symm
  subst this
  refine ⟨rfl, ⟨by norm_num, by norm_num, by norm_num, ?_, by simp [Ascending], ?_, ?_, ?_, ?_, by simp [Paced]⟩, by simp⟩
  · intro n hn
    rw [List.mem_singleton] at hn
    subst hn
    exact .const _ _ _ (by norm_num)
  · simp [Kinds, Supported, OpType.isTranslate]
  · simp [oneKind]
  · intro n hn
    rw [List.mem_singleton] at hn
    subst hn
    trivial
  · simp [rangeOfOp, OpType.isRotate]

theorem growsAndMoves_suits : Suits (F := F) (fun _ => false) oneKind growsAndMoves {} := by
  intro k b hb
  have hk : k = 0 := by
    have := (List.getElem?_eq_some_iff.mp hb).1
    simp [growsAndMoves] at this
    omega
  subst hk
  have : b = ⟨false, [⟨none, 8, .scaleX, .initial 2⟩, ⟨none, 9, .translateY, .initial 3⟩]⟩ := (Option.some.inj hb).symm
  subst this
  refine ⟨rfl, ⟨by norm_num, by norm_num, by norm_num, ?_, by simp [Ascending], ?_, ?_, ?_, ?_, by simp [Paced]⟩, by simp⟩
  · intro n hn
    simp only [List.mem_cons, List.not_mem_nil, or_false] at hn
    rcases hn with rfl | rfl <;> exact .const _ _ _ (by norm_num)
  · simp [Kinds, Supported, OpType.isTranslate, OpType.isScale]
  · simp [oneKind]
  · intro n hn
    simp only [List.mem_cons, List.not_mem_nil, or_false] at hn
    rcases hn with rfl | rfl <;> trivial
  · simp [rangeOfOp, OpType.isRotate]

theorem one_order : InOrder [kInvalidBoneIdx] := by unfold InOrder kInvalidBoneIdx; decide

theorem played_skip {c : Call F} (h : c.starts = []) (cs : List (Call F)) (k i : ℕ) : Played (c :: cs) k i ↔ Played cs k i := by
  rw [played_cons]
  refine or_iff_right ?_
  rintro ⟨c', hc, x, hx, -⟩
  rw [List.mem_singleton] at hc
  subst hc
  rw [h] at hx
  cases hx

theorem played_start {c : Call F} {x : Anim (boneJoint F) × Playback} (h : c.starts.head? = some x) {k : ℕ} {b : BoneAnim (boneJoint F)}
    (hb : x.1.bones[k]? = some b) (cs : List (Call F)) (i : ℕ) : Played (c :: cs) k i ↔ i ∈ b.ops.map (fun o => o.id) ∨ Played cs k i := by
  rw [played_cons]
  refine or_congr_left ⟨?_, ?_⟩
  · rintro ⟨c', hc, y, hy, b', hb', o, ho, hoi⟩
    rw [List.mem_singleton] at hc
    subst hc
    rw [h] at hy
    cases hy
    rw [hb] at hb'
    cases hb'
    exact List.mem_map.mpr ⟨o, ho, hoi⟩
  · intro hm
    obtain ⟨o, ho, hoi⟩ := List.mem_map.mp hm
    exact ⟨c, by simp, x, h, b, hb, o, ho, hoi⟩

theorem played_nil (k i : ℕ) : ¬ Played ([] : List (Call F)) k i := by simp [Played]

/-- The rotation of matrices in the examples, which have none. -/
abbrev noTurn : Matrix (Fin 3) (Fin 3) ℝ → Quat := fun _ => .one

/-- The rig is defined by an animation that moves a bone; another that also makes it grow is played. -/
theorem C105_more_operations : ∃ (r₀ r : RigData (boneJoint noTurn)) (t : ℤ), RigData.new moves 0 0 = some r₀ ∧
    run (r₀, 0) [.play growsAndMoves {}, .frame 10] = some (r, t) ∧ r.csvValues "grow" growsAndMoves t = none := by
  have hal : Allowed (F := noTurn) (fun _ => false) oneKind 0 ([] ++ .play growsAndMoves {} :: [.frame 10]) :=
    ⟨growsAndMoves_suits, by norm_num, trivial⟩
  have ho : InOrder (moves (F := noTurn)).parents := one_order
  obtain ⟨r₀, r, t, h0, h⟩ := C98_runs (a := moves) (by intro _; simp [Quat.one]) 0 0 rfl ho hal (by
    exact ⟨⟨rfl, rfl⟩, ⟨by norm_num [growsAndMoves], by norm_num [growsAndMoves]⟩, by norm_num, trivial⟩)
  refine ⟨r₀, r, t, h0, h, ?_⟩
  obtain ⟨ms, e1, e2, e3, -, -⟩ := run_bones rfl ho h0 (by simp [Call.starts]) (by simp [Call.starts]) hal h
  obtain ⟨m, f1, f2, f3, f4⟩ := C105_channels rfl ho h0 (by simp [Call.starts]) (by simp [Call.starts]) hal h 0 (by simp [moves])
  have hids : m.ops.map (·.id) = [8, 9] := by
    refine eq_of_ascending f2 (by simp [Ascending]) ?_
    intro i
    simp only [List.mem_map]
    rw [f4 i, List.nil_append, played_start (x := (growsAndMoves, {})) rfl rfl, played_skip rfl]
    simp [played_nil]
  obtain ⟨m', rfl⟩ : ∃ m', ms = [m'] := List.length_eq_one_iff.mp e2
  refine C105_csv_overflows (by unfold RigData.numBones; rw [e3]; exact e1) ?_ _ _ _
  have : m' = m := by
    have := congrArg (·[0]?) e1
    simp only [List.map_cons, List.map_nil, List.getElem?_cons_zero] at this
    rw [List.getElem?_take_of_lt (by simp [moves]), f1] at this
    exact (Option.some.inj (Option.some.inj this)).symm
  subst this
  have hl := congrArg List.length hids
  rw [List.length_map] at hl
  rw [e3]
  simp [hl, Anim.numOps, Anim.ops, moves]

/-- The rig is defined by an animation that makes a bone grow and moves it; another that only moves it is played. Where it has moved is shown as its
scale. -/
theorem C105_fewer_operations : ∃ (r₀ r : RigData (boneJoint noTurn)) (t : ℤ), RigData.new growsAndMoves 0 0 = some r₀ ∧
    run (r₀, 0) [.play moves {}] = some (r, t) ∧
    table (r.csvHeader fun _ => "bone") = [[[.text "animation name"], [.text "time"], [.text "bone"], [], []],
      [[], [], [.text "Scale X"], [.text "Translate Y"], []], [[]]] ∧
    ∃ row, r.csvValues "move" moves t = some row ∧ table row = [[[.text "move"], [.time 0], [.num 3], [.num 0], []]] := by
  have hal : Allowed (F := noTurn) (fun _ => false) oneKind 0 ([] ++ .play moves {} :: []) := ⟨moves_suits, trivial⟩
  have ho : InOrder (growsAndMoves (F := noTurn)).parents := one_order
  obtain ⟨r₀, r, t, h0, h⟩ := C98_runs (a := growsAndMoves) (by intro _; simp [Quat.one]) 0 0 rfl ho hal (by
    exact ⟨⟨rfl, rfl⟩, ⟨by norm_num [moves], by norm_num [moves]⟩, trivial⟩)
  obtain ⟨ms, e1, e2, e3, e4, -⟩ := run_bones rfl ho h0 (by simp [Call.starts]) (by simp) hal h
  obtain ⟨m', rfl⟩ : ∃ m', ms = [m'] := List.length_eq_one_iff.mp e2
  have hm : m'.ops.map Op.value = [3] := by
    obtain ⟨⟨r1, t1⟩, p3, p4⟩ := run_cons.mp h
    cases p4
    have hi := new_inv rfl ho h0 (fun _ => false) oneKind
    obtain ⟨-, -, -, s2⟩ := start_inv hi (by simp [Call.starts]) (allowed_starts (by simp [Call.starts]) hal).1 p3
    have hn : r₀.numBones = 1 := by unfold RigData.numBones; rw [(update_fields h0).2.2.1]; rfl
    obtain ⟨b, m, m2, f1, f2, -, f4, f5⟩ := s2 0 (by simp [Call.starts]) 0 (by rw [hn]; omega)
    have hb : b = ⟨false, [⟨none, 9, .translateY, .initial 3⟩]⟩ := by
      simp only [Call.starts, moves, List.getElem_cons_zero, List.getElem?_cons_zero, Option.some.injEq] at f1
      exact f1.symm
    have hw : r₀.weights = [] := (update_fields h0).2.1
    unfold Source at f2
    rw [hw] at f2
    simp only [List.length_nil, lt_self_iff_false, if_false] at f2
    rw [if_neg (by omega)] at f2
    subst f2
    subst hb
    have hm2 : m2 = m' := by
      have := congrArg (·[0]?) e1
      simp only [List.map_cons, List.map_nil, List.getElem?_cons_zero] at this
      rw [List.getElem?_take_of_lt (by simp [growsAndMoves])] at this
      rw [Nat.zero_mul, Nat.zero_add, this] at f5
      exact (Option.some.inj (Option.some.inj f5)).symm
    subst hm2
    simp [Bone.blend, Bone.create, blendToOps_eq, mergeRec, OpInit.construct] at f4
    simp [Op.blendToOp, OpInit.fresh] at f4
    subst f4
    rfl
  refine ⟨r₀, r, t, h0, h, ?_, ?_⟩
  · unfold RigData.csvHeader
    rw [e3]
    rfl
  · have ht : t - r.endTime = -50 := by rw [e4]; rfl
    have hv : r.childValues = some [3, 0] := by
      unfold RigData.childValues RigData.numBones
      rw [e3, e1]
      have := childLoop_eq [m'] [] 2
      have ha : allValues [m'] = [3] := by simp [allValues, hm]
      rw [ha] at this
      rw [show (growsAndMoves (F := noTurn)).numOps = 2 from rfl]
      simpa using this
    have ht1 : (addTime t (-r.endTime)).bind (fun x => addTime x 50) = some 0 := by
      unfold addTime
      rw [← sub_eq_add_neg, ht]
      rfl
    refine ⟨[.text "move", .comma, .time 0, .comma, .num 3, .comma, .num 0, .comma], ?_, rfl⟩
    unfold RigData.csvValues
    rw [hv, show (moves (F := noTurn)).endTime = 50 from rfl, ht1, e3]
    simp [growsAndMoves, Anim.ops, valuesLoop, degrees, OpType.isRotate]

/-- An animation and a longer one are blended: the table shows a negative time. -/
theorem C105_time_since_longest : ∃ (r₀ r : RigData (boneJoint noTurn)) (t : ℤ), RigData.new growsAndMoves 0 0 = some r₀ ∧
    run (r₀, 0) [.play growsAndMoves {}, .blend [(moves, {}, 1), (growsAndMoves, {}, 1)], .frame 10] = some (r, t) ∧
    ∃ row, r.csvValues "move" moves t = some row ∧ ∃ cells, row = [.text "move", .comma, .time (-30), .comma] ++ cells := by
  have hal : Allowed (F := noTurn) (fun _ => false) oneKind 0
      ([.play growsAndMoves {}] ++ .blend [(moves, {}, 1), (growsAndMoves, {}, 1)] :: [.frame 10]) :=
    ⟨growsAndMoves_suits, by intro x hx; simp at hx; rcases hx with rfl | rfl; exacts [moves_suits, growsAndMoves_suits], by norm_num, trivial⟩
  have ho : InOrder (growsAndMoves (F := noTurn)).parents := one_order
  obtain ⟨r₀, r, t, h0, h⟩ := C98_runs (a := growsAndMoves) (by intro _; simp [Quat.one]) 0 0 rfl ho hal (by
    refine ⟨⟨rfl, rfl⟩, ⟨by norm_num [growsAndMoves], by norm_num [growsAndMoves]⟩, ?_, ⟨_, rfl, by norm_num⟩, ?_, by norm_num, trivial⟩
    · intro x hx
      simp at hx
      rcases hx with rfl | rfl <;> exact ⟨⟨rfl, rfl⟩, by norm_num⟩
    · intro e he
      simp [moves, growsAndMoves] at he
      rcases he with rfl | rfl | rfl <;> norm_num)
  refine ⟨r₀, r, t, h0, h, ?_⟩
  obtain ⟨ms, e1, e2, e3, e4, -⟩ := run_bones rfl ho h0 (by simp [Call.starts]) (by simp [Call.starts]) hal h
  obtain ⟨m, f1, f2, f3, f4⟩ := C105_channels rfl ho h0 (by simp [Call.starts]) (by simp [Call.starts]) hal h 0 (by simp [growsAndMoves])
  have hids : m.ops.map (·.id) = [8, 9] := by
    refine eq_of_ascending f2 (by simp [Ascending]) ?_
    intro i
    simp only [List.mem_map]
    rw [f4 i, List.singleton_append, played_start (x := (growsAndMoves, {})) rfl rfl, played_start (x := (moves, {})) rfl rfl, played_skip rfl]
    simp [played_nil]
  obtain ⟨m', rfl⟩ : ∃ m', ms = [m'] := List.length_eq_one_iff.mp e2
  have : m' = m := by
    have := congrArg (·[0]?) e1
    simp only [List.map_cons, List.map_nil, List.getElem?_cons_zero] at this
    rw [List.getElem?_take_of_lt (by simp [growsAndMoves]), f1] at this
    exact (Option.some.inj (Option.some.inj this)).symm
  subst this
  have hl := congrArg List.length hids
  rw [List.length_map] at hl
  obtain ⟨o1, o2, hops⟩ : ∃ o1 o2, m'.ops = [o1, o2] := List.length_eq_two.mp hl
  have hv : r.childValues = some [o1.value, o2.value] := by
    unfold RigData.childValues RigData.numBones
    rw [e3, e1]
    have := childLoop_eq [m'] [] 2
    rw [show allValues [m'] = [o1.value, o2.value] by simp [allValues, hops]] at this
    rw [show (growsAndMoves (F := noTurn)).numOps = 2 from rfl]
    simpa using this
  have ht1 : (addTime t (-r.endTime)).bind (fun x => addTime x 50) = some (-30) := by
    unfold addTime
    rw [← sub_eq_add_neg, e4]
    rfl
  refine ⟨[.text "move", .comma, .time (-30), .comma, .num o1.value, .comma, .num o2.value, .comma], ?_, _, rfl⟩
  unfold RigData.csvValues
  rw [hv, show (moves (F := noTurn)).endTime = 50 from rfl, ht1, e3]
  simp [growsAndMoves, Anim.ops, valuesLoop, degrees, OpType.isRotate]

/-- The current animation lacks an operation of an animation before: the scale of the bone is shown as where it has moved. -/
theorem C105_local_wrong_name : ∃ (r₀ r : RigData (boneJoint noTurn)) (t : ℤ), RigData.new growsAndMoves 0 0 = some r₀ ∧
    run (r₀, 0) [.play growsAndMoves {}, .play moves {}, .frame 10] = some (r, t) ∧
    ∃ (m : Bone) (o1 o2 : Op splineDriver), r.motivators[0]? = some (some m) ∧ m.ops = [o1, o2] ∧ o1.type = .scaleX ∧ o2.type = .translateY ∧
      ∃ l, r.localTransforms "move" (fun _ => "bone") moves 0 t = some (l ++ [.text "Translate Y", .text "=", .num o1.value, .newline, .newline]) := by
  have hal : Allowed (F := noTurn) (fun _ => false) oneKind 0 ([.play growsAndMoves {}] ++ .play moves {} :: [.frame 10]) :=
    ⟨growsAndMoves_suits, moves_suits, by norm_num, trivial⟩
  have ho : InOrder (growsAndMoves (F := noTurn)).parents := one_order
  obtain ⟨r₀, r, t, h0, h⟩ := C98_runs (a := growsAndMoves) (by intro _; simp [Quat.one]) 0 0 rfl ho hal (by
    exact ⟨⟨rfl, rfl⟩, ⟨by norm_num [growsAndMoves], by norm_num [growsAndMoves]⟩, ⟨rfl, rfl⟩, ⟨by norm_num [moves], by norm_num [moves]⟩,
      by norm_num, trivial⟩)
  obtain ⟨ms, e1, e2, e3, e4, -⟩ := run_bones rfl ho h0 (by simp [Call.starts]) (by simp [Call.starts]) hal h
  obtain ⟨m, f1, f2, f3, f4⟩ := C105_channels rfl ho h0 (by simp [Call.starts]) (by simp [Call.starts]) hal h 0 (by simp [growsAndMoves])
  have hids : m.ops.map (·.id) = [8, 9] := by
    refine eq_of_ascending f2 (by simp [Ascending]) ?_
    intro i
    simp only [List.mem_map]
    rw [f4 i, List.singleton_append, played_start (x := (growsAndMoves, {})) rfl rfl, played_start (x := (moves, {})) rfl rfl, played_skip rfl]
    simp [played_nil]
  have hl := congrArg List.length hids
  rw [List.length_map] at hl
  obtain ⟨o1, o2, hops⟩ : ∃ o1 o2, m.ops = [o1, o2] := List.length_eq_two.mp hl
  rw [hops] at hids f3
  simp only [List.map_cons, List.map_nil, List.cons.injEq, and_true] at hids
  have ht1 : (addTime r.endTime (-t)).bind (fun x => addTime 50 (-x)) = some 10 := by
    have : r.endTime + -t = 40 := by
      have : t - r.endTime = -40 := by rw [e4]; rfl
      omega
    unfold addTime
    rw [this]
    rfl
  refine ⟨r₀, r, t, h0, h, m, o1, o2, f1, hops, by rw [f3 o1 (by simp), hids.1]; rfl, by rw [f3 o2 (by simp), hids.2]; rfl, ?_⟩
  have hc : chain (growsAndMoves (F := noTurn)).parents 0 = some [0] := by
    rw [chain]
    simp [growsAndMoves]
  unfold RigData.localTransforms
  rw [show (moves (F := noTurn)).endTime = 50 from rfl, ht1, e3, hc]
  refine ⟨[.text "move", .text " at time ", .time 10, .text " (", .num ((10 : ℤ) * 24 / 1000), .text " @24fps)", .newline] ++
    ([.text "bone", .newline] ++ rowToks m.matrix 0 ++ rowToks m.matrix 1 ++ rowToks m.matrix 2 ++ [.text "  "]), ?_⟩
  simp [RigData.localLoop, f1, moves, boneToks, opsLoop, hops, degrees, OpType.isRotate, opName]

/-- The hypotheses of `C105_csv_partial`, `C105_local_partial`, `C105_channels` and `C105_csv_time` are met: two bones, one of which turns and the other
grows and moves. -/
example : ∃ (r₀ r : RigData (boneJoint noTurn)) (t : ℤ) (tail : List (Call noTurn)), InOrder (samplePlay (F := noTurn)).parents ∧
    RigData.new samplePlay 0 7 = some r₀ ∧ (∀ c ∈ tail, c.starts = []) ∧ tail ≠ [] ∧
    Allowed (fun _ => false) sampleKind 0 ([] ++ .play samplePlay samplePlayback :: tail) ∧
    run (r₀, 7) ([] ++ .play samplePlay samplePlayback :: tail) = some (r, t) ∧
    (∀ k b, (samplePlay (F := noTurn)).bones[k]? = some b → Ascending (b.ops.map (·.id)) ∧ (∀ o ∈ b.ops, o.type = sampleKind k o.id) ∧
      ∀ i, (∃ o ∈ b.ops, o.id = i) ↔ Played ([] ++ .play samplePlay samplePlayback :: tail) k i) ∧
    (∀ k < (samplePlay (F := noTurn)).bones.length, ∃ b, (samplePlay (F := noTurn)).bones[k]? = some b ∧
      ∀ i, Played ([] ++ .play samplePlay samplePlayback :: tail) k i → ∃ o ∈ b.ops, o.id = i) ∧
    (Call.play (F := noTurn) samplePlay samplePlayback).longest = (samplePlay (F := noTurn)).endTime ∧ (tail.flatMap Call.time).sum = 26 := by
  have hal : Allowed (F := noTurn) (fun _ => false) sampleKind 0 ([] ++ .play samplePlay samplePlayback :: [.frame 16, .frame 10]) :=
    ⟨sample_suits, by norm_num, by norm_num, trivial⟩
  have ho : InOrder (samplePlay (F := noTurn)).parents := by unfold InOrder samplePlay kInvalidBoneIdx; decide
  obtain ⟨r₀, r, t, h0, h⟩ := C98_runs (a := samplePlay) (by intro _; simp [Quat.one]) 0 7 rfl ho hal (by
    exact ⟨⟨rfl, rfl⟩, ⟨by norm_num [samplePlay], by norm_num [samplePlay]⟩, by norm_num, by norm_num, trivial⟩)
  have hpl : ∀ k b, (samplePlay (F := noTurn)).bones[k]? = some b → ∀ i,
      (∃ o ∈ b.ops, o.id = i) ↔ Played ([] ++ Call.play (F := noTurn) samplePlay samplePlayback :: [.frame 16, .frame 10]) k i := by
    intro k b hb i
    rw [List.nil_append, played_start (x := (samplePlay, samplePlayback)) rfl hb, played_skip rfl, played_skip rfl, List.mem_map]
    simp [played_nil]
  refine ⟨r₀, r, t, [.frame 16, .frame 10], ho, h0, by simp [Call.starts], by simp, hal, h, ?_, ?_, rfl, rfl⟩
  · intro k b hb
    exact ⟨(sample_suits k b hb).2.1.ascending, (sample_suits k b hb).2.1.typed, hpl k b hb⟩
  · intro k hk
    exact ⟨_, List.getElem?_eq_getElem hk, fun i => (hpl k _ (List.getElem?_eq_getElem hk) i).mpr⟩

end
end Motive.Rig
