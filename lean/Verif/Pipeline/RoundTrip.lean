import Verif.Pipeline.Export
import Verif.Pipeline.Repeat
/-!
# C71: reading an exported animation

Model of the writer, `FlatAnim::CreateFlatBuffer` and the functions it calls (src/anim_pipeline/flat_anim.cpp), and of the reader,
`RigAnimFromFlatBuffers` and the functions it calls (src/motive/io/flatbuffers.cpp, src/motive/rig_anim.cpp).

Idealisation: the FlatBuffers library is trusted to return the tables that were written, so a file is its tables.  `float` is `ℝ`.  Names are
strings without a zero character.  `none` is a failed assertion, an access outside an array, or a value that does not fit its type.
-/

namespace Motive.Pipeline
open Motive.Curve Motive.Math Motive.Matrix4

noncomputable section
open Classical

/-! ### The tables (schemas/anim.fbs, schemas/compact_spline.fbs) -/

/-- `CompactSplineFb` (compact_spline.fbs:32-38). -/
structure SplineFb where
  start : ℝ
  stop : ℝ
  g : ℝ
  nodes : List SNode

/-- `MatrixOpValueFb` (anim.fbs:46-54): a spline or float spline may be missing. -/
inductive ValueFb where
  | spline (s : Option SplineFb)
  | floatSpline (nodes : Option (List (ℝ × ℝ × ℝ)))
  | const (y : ℝ)
  | invalid

/-- `MatrixOpFb` (anim.fbs:58-62). The id is a signed byte. -/
structure OpFb where
  id : ℤ
  type : ℕ
  value : ValueFb

/-- `MatrixAnimFb` (anim.fbs:66-71). -/
structure MatrixAnimFb where
  ops : List OpFb
  sqt : Bool

/-- `RigAnimFb` (anim.fbs:74-94). -/
structure RigAnimFb where
  anims : List MatrixAnimFb
  parents : List ℕ
  names : Option (List String)
  rep : Bool
  name : Option String

/-- The two kinds of files (anim.fbs:98, anim_list.fbs:39-53): an animation, or a list of embedded animations. -/
inductive FileFb where
  | rig (r : RigAnimFb)
  | list (rs : List RigAnimFb)

/-! ### Model of the writer -/

/-- The conversion of the id, a `uint8_t`, to a signed byte (flat_anim.cpp:204). -/
def toInt8 (id : ℕ) : ℤ := if id % 256 ≤ 127 then (id % 256 : ℕ) else (id % 256 : ℕ) - 256

/-- `BoneBaseName` (flat_anim.cpp:240-244). -/
def boneBaseName (name : String) : String := String.ofList (name.toList.reverse.takeWhile (· ≠ ':')).reverse

/-- `BoneParent` (anim_data.cpp:560-564). -/
def boneParent (p : ℤ) : ℕ := if p < 0 then 255 else (p % 256).toNat

/-- `CreateSplineFlatBuffer` (flat_anim.cpp:228-238). -/
def writeSpline (s : CSpline) : SplineFb := ⟨s.yRange.start, s.yRange.stop, s.g, s.nodes⟩

/-- The output of a channel (flat_anim.cpp:177-207). -/
def writeOp (c : Channel) : Option OpFb :=
  match c.nodes with
  | [] => none
  | [n] => some ⟨toInt8 c.id, opValue c.op, .const n.val⟩
  | _ :: _ :: _ => (createCompactSpline c.nodes).map fun s => ⟨toInt8 c.id, opValue c.op, .spline (some (writeSpline s))⟩

/-- The output of a bone (flat_anim.cpp:171-212). -/
def writeBone (b : Bone) : Option MatrixAnimFb := (b.channels.mapM writeOp).map fun ops => ⟨ops, false⟩

/-- `CreateRigAnimFbFromBoneRange` (flat_anim.cpp:160-226); `range` holds the bones of the range. -/
def writeRig (tl : Tolerances) (pref : RepeatPreference) (all range : List Bone) (name : String) : Option RigAnimFb :=
  match range.mapM writeBone, repeats tl pref all with
  | some anims, some rep => some ⟨anims, range.map fun b => boneParent b.parent, some (range.map fun b => boneBaseName b.name), rep, some name⟩
  | _, _ => none

/-- The loop over the bones with channels (flat_anim.cpp:119-134); `i` is the index of the first. -/
def writeEach (tl : Tolerances) (pref : RepeatPreference) (all : List Bone) (name : String) : ℕ → List Bone → Option (List RigAnimFb)
  | _, [] => some []
  | i, b :: bs =>
    if b.channels = [] then writeEach tl pref all name (i + 1) bs
    else match writeRig tl pref all [b] (name ++ "_" ++ toString i), writeEach tl pref all name (i + 1) bs with
      | some r, some rs => some (r :: rs)
      | _, _ => none

/-- What `CreateFlatBuffer` does: it refuses to write a file, or writes one. -/
inductive Written where
  | refused
  | file (f : FileFb)

/-- `CreateFlatBuffer` (flat_anim.cpp:96-158). -/
def writeFile (tl : Tolerances) (pref : RepeatPreference) (rootBonesOnly : Bool) (bones : List Bone) (name : String) : Option Written :=
  if 254 < bones.length then some .refused
  else if !rootBonesOnly then (writeRig tl pref bones bones name).map fun r => .file (.rig r)
  else (writeEach tl pref bones name 0 bones).map fun rs =>
    match rs with
    | [] => .refused
    | [r] => .file (.rig r)
    | rs => .file (.list rs)

/-! ### Model of the reader -/

/-- What drives an operation: the union of `MatrixOperationInit` (matrix_op.h:130-202), without targets, which no file has; with
whether the motivator's values are angles, the range of its initialiser (`RangeOfOp`, matrix_op.h:121-123). -/
inductive Drive where
  | empty (angle : Bool)
  | const (y : ℝ)
  | spline (angle : Bool) (s : CSpline)

/-- `MatrixOperationInit` (matrix_op.h:130-202) with its initialiser moved into the value. -/
structure RigOp where
  id : ℕ
  type : OpType
  drive : Drive

/-- `MatrixAnim` (matrix_anim.h:25-84). -/
structure MatrixAnim where
  ops : List RigOp
  sqt : Bool

/-- `RigAnim` (rig_anim.h:26-127). -/
structure RigAnim where
  name : String
  parents : List ℕ
  names : List String
  anims : List MatrixAnim
  endTime : ℤ
  rep : Bool

/-- The conversion of a signed byte to `MatrixOpId`, a `uint8_t` (flatbuffers.cpp:137, 195). -/
def toUint8 (x : ℤ) : ℕ := (x % 256).toNat

/-- `static_cast<MatrixOperationType>` of the type that was read (flatbuffers.cpp:100-101). -/
def opOfValue : ℕ → Option OpType
  | 0 => some .invalid | 1 => some .rotateX | 2 => some .rotateY | 3 => some .rotateZ | 4 => some .translateX | 5 => some .translateY
  | 6 => some .translateZ | 7 => some .scaleX | 8 => some .scaleY | 9 => some .scaleZ | 10 => some .scaleUniformly | 11 => some .quatW
  | 12 => some .quatX | 13 => some .quatY | 14 => some .quatZ | _ => none

/-- The copy of a spline (flatbuffers.cpp:122-136) with its assertion. -/
def readSpline (f : SplineFb) : Option CSpline :=
  match f.nodes.foldlM (fun s n => Motive.Splines.Spline.addVerbatim s n)
      ((Motive.Splines.Spline.create (f.nodes.length % 65536)).init ⟨f.start, f.stop⟩ f.g) with
  | none => none
  | some s => if s.nodes.length = s.maxNodes then some s else none

/-- The value of an operation (flatbuffers.cpp:110-201).  A float spline reads the node after the last one (159). -/
def readValue (t : OpType) : ValueFb → Option Drive
  | .spline none => some (.empty t.isRotate)
  | .spline (some f) => (readSpline f).map (.spline t.isRotate)
  | .floatSpline none => some (.empty t.isRotate)
  | .floatSpline (some _) => none
  | .const y => some (.const y)
  | .invalid => none

/-- The body of the loop of `MatrixAnimFromFlatBuffers` (flatbuffers.cpp:99-202), with the assertions of 104-108. -/
def readOp (sqt : Bool) (o : OpFb) : Option RigOp :=
  match opOfValue o.type with
  | none => none
  | some t =>
    if t.isQuat && !sqt then none
    else if !t.isQuat && t.isRotate && sqt then none
    else (readValue t o.value).map fun d => ⟨toUint8 o.id, t, d⟩

/-- `MatrixAnimFromFlatBuffers` (flatbuffers.cpp:75-203). -/
def readMatrixAnim (m : MatrixAnimFb) : Option MatrixAnim := (m.ops.mapM (readOp m.sqt)).map fun ops => ⟨ops, m.sqt⟩

/-- The body of the loop of `EndTime` (flatbuffers.cpp:209-212). -/
def laterOp (t : ℤ) (o : RigOp) : Option ℤ :=
  match o.drive with
  | .spline _ s => match s.endX with
    | none => none
    | some e => (Motive.Splines.toInt e).map fun k => max t k
  | _ => some t

/-- `EndTime` (flatbuffers.cpp:206-215). -/
def endTime (ops : List RigOp) : Option ℤ := ops.foldlM laterOp 0

/-- The loop over the bones (flatbuffers.cpp:230-236), from bone `i` on, with the assertion of `InitMatrixAnim` (rig_anim.cpp:37, `assert(parent < idx || ...)`). -/
def readBones : ℕ → List (MatrixAnimFb × ℕ) → ℤ → Option (List MatrixAnim × ℤ)
  | _, [], t => some ([], t)
  | i, (m, p) :: rest, t =>
    if p < i ∨ p = 255 then
      match readMatrixAnim m with
      | none => none
      | some a => match endTime a.ops with
        | none => none
        | some e => (readBones (i + 1) rest (max t e)).map fun r => (a :: r.1, r.2)
    else none

/-- `RigAnimFromFlatBuffers` (flatbuffers.cpp:217-242) with `Init` (rig_anim.cpp:21-32): the name is recorded only if the names of the bones are.
With more than 254 bones an assertion fails: that of `Init` for 255, or that of `InitMatrixAnim` when the count was cut to a byte. -/
def readRig (r : RigAnimFb) : Option RigAnim :=
  if r.parents.length ≠ r.anims.length then none
  else if 254 < r.anims.length then none
  else
    let record := match r.names with | none => false | some ns => decide (ns.length = r.anims.length)
    (readBones 0 (r.anims.zip r.parents) 0).map fun x =>
      { name := if record then r.name.getD "Unknown" else "",
        parents := r.parents,
        names := if record then r.names.getD [] else [],
        anims := x.1,
        endTime := if r.rep then intMax else x.2,
        rep := r.rep }

/-! ### Specification -/

/-- A channel that can be exported: a constant, or a curve from time zero or later to a time that fits an `int`. -/
def Channel.CanExport (c : Channel) : Prop :=
  c.id ≤ 255 ∧ c.op.isQuat = false ∧ (c.nodes.length = 1 ∨ ∃ T ≤ intMax, Exportable T c.nodes)

/-- The operation `o` that was read is the channel `c`: its kind, its id, and what drives it.  The spline is the one of C70. -/
def IsChannel (c : Channel) (o : RigOp) : Prop :=
  o.id = c.id ∧ o.type = c.op ∧
    ((∃ n, c.nodes = [n] ∧ o.drive = .const n.val) ∨
      ∃ s s', 2 ≤ c.nodes.length ∧ createCompactSpline c.nodes = some s ∧ o.drive = .spline (decide (c.op ∈ [OpType.rotateX, .rotateY, .rotateZ])) s' ∧ s'.yRange = s.yRange ∧ s'.g = s.g ∧ s'.nodes = s.nodes)

/-- `s` is the part of `name` after the last colon. -/
def AfterColon (name s : String) : Prop :=
  ':' ∉ s.toList ∧ (name = s ∨ ∃ pre, name = pre ++ ":" ++ s)

/-! ### Lemmas -/

theorem toUint8_toInt8 {id : ℕ} (h : id ≤ 255) : toUint8 (toInt8 id) = id := by
  unfold toUint8 toInt8
  split_ifs <;> omega

theorem opOfValue_opValue (t : OpType) : opOfValue (opValue t) = some t := by cases t <;> rfl

theorem boneBaseName_spec (name : String) : AfterColon name (boneBaseName name) := by
  unfold AfterColon boneBaseName
  constructor
  · rw [String.toList_ofList]
    intro h
    have key : ∀ l : List Char, ':' ∉ l.takeWhile (fun c => decide (c ≠ ':')) := by
      intro l
      induction l with
      | nil => simp
      | cons x l ih =>
        rw [List.takeWhile_cons]
        split_ifs with hx
        · intro h
          rcases List.mem_cons.mp h with rfl | h
          · simp at hx
          · exact ih h
        · simp
    exact key _ (List.mem_reverse.mp h)
  · have e := List.takeWhile_append_dropWhile (p := fun c : Char => decide (c ≠ ':')) (l := name.toList.reverse)
    cases hd : name.toList.reverse.dropWhile (fun c : Char => decide (c ≠ ':')) with
    | nil =>
      left
      rw [hd, List.append_nil] at e
      rw [e, List.reverse_reverse, String.ofList_toList]
    | cons x xs =>
      right
      have hx : x = ':' := by
        have := List.head_dropWhile_not (p := fun c : Char => decide (c ≠ ':')) (l := name.toList.reverse) (by rw [hd]; simp)
        simp only [hd, List.head_cons] at this
        simpa using this
      refine ⟨String.ofList xs.reverse, ?_⟩
      rw [hd, hx] at e
      have e' := congrArg List.reverse e
      rw [List.reverse_reverse, List.reverse_append, List.reverse_cons] at e'
      apply String.toList_inj.mp
      simp only [String.toList_append, String.toList_ofList]
      rw [show ":".toList = [':'] from rfl]
      exact e'.symm

theorem addVerbatim_all : ∀ (ns : List SNode) (s : CSpline), s.nodes.length + ns.length ≤ s.maxNodes →
    ns.foldlM (fun s n => Motive.Splines.Spline.addVerbatim s n) s = some { s with nodes := s.nodes ++ ns }
  | [], s, _ => by simp
  | n :: ns, s, h => by
    simp only [List.length_cons] at h
    rw [List.foldlM_cons]
    have : s.addVerbatim n = some { s with nodes := s.nodes ++ [n] } := by
      unfold Motive.Splines.Spline.addVerbatim
      rw [if_pos (by omega)]
    rw [this]
    change ns.foldlM (fun s n => Motive.Splines.Spline.addVerbatim s n) { s with nodes := s.nodes ++ [n] } = _
    rw [addVerbatim_all ns _ (by simp; omega)]
    simp

/-- A spline is read as it was written. -/
theorem readSpline_writeSpline (s : CSpline) (h : s.nodes.length ≤ 65535) :
    readSpline (writeSpline s) = some { s with maxNodes := s.nodes.length } := by
  unfold readSpline writeSpline
  simp only
  rw [show s.nodes.length % 65536 = s.nodes.length by omega, addVerbatim_all _ _ (by simp [Motive.Splines.Spline.create, Motive.Splines.Spline.init])]
  simp only
  rw [if_pos (by simp [Motive.Splines.Spline.create, Motive.Splines.Spline.init])]
  simp [Motive.Splines.Spline.create, Motive.Splines.Spline.init]

theorem toInt_int {T : ℤ} (h0 : 0 ≤ T) (h : T ≤ intMax) : Motive.Splines.toInt (T : ℝ) = some T := by
  unfold Motive.Splines.toInt
  have : Motive.Splines.trunc (T : ℝ) = T := by
    unfold Motive.Splines.trunc
    rw [if_pos (by exact_mod_cast h0), Int.floor_intCast]
  unfold intMax at h
  rw [this, if_pos (by omega)]

/-- What is written for a channel is read as that channel, and ends when the channel ends. -/
theorem op_round_trip {c : Channel} (h : c.CanExport) : ∃ f o, writeOp c = some f ∧ readOp false f = some o ∧ IsChannel c o ∧
    ∀ t, laterOp t o = some (laterEnd t c) := by
  obtain ⟨hid, hq, hn⟩ := h
  have hread : ∀ v : ValueFb, readOp false ⟨toInt8 c.id, opValue c.op, v⟩ = (readValue c.op v).map fun d => ⟨c.id, c.op, d⟩ := by
    intro v
    unfold readOp
    simp only [opOfValue_opValue, hq, toUint8_toInt8 hid]
    simp
  rcases hn with hn | ⟨T, hT, he⟩
  · obtain ⟨n, hn⟩ := List.length_eq_one_iff.mp hn
    refine ⟨⟨toInt8 c.id, opValue c.op, .const n.val⟩, ⟨c.id, c.op, .const n.val⟩, ?_, ?_, ⟨rfl, rfl, Or.inl ⟨n, hn, rfl⟩⟩, fun t => ?_⟩
    · unfold writeOp; rw [hn]
    · rw [hread]; rfl
    · unfold laterOp laterEnd; rw [hn]; simp
  · obtain ⟨s, r, e, -, hix, -, -, hend, -⟩ := C70_export he
    have h2 := he.two
    refine ⟨⟨toInt8 c.id, opValue c.op, .spline (some (writeSpline s))⟩, ⟨c.id, c.op, .spline c.op.isRotate { s with maxNodes := s.nodes.length }⟩, ?_, ?_,
      ⟨rfl, rfl, Or.inr ⟨s, { s with maxNodes := s.nodes.length }, h2, e, by rw [show c.op.isRotate = decide (c.op ∈ [OpType.rotateX, .rotateY, .rotateZ]) by cases c.op <;> rfl], rfl, rfl, rfl⟩⟩, fun t => ?_⟩
    · unfold writeOp
      cases hc : c.nodes with
      | nil => rw [hc] at h2; simp at h2
      | cons a l =>
        cases l with
        | nil => rw [hc] at h2; simp at h2
        | cons b l =>
          simp only
          rw [← hc, e]
          rfl
    · rw [hread]
      change ((readSpline (writeSpline s)).map (Drive.spline c.op.isRotate)).map _ = _
      rw [readSpline_writeSpline s (by have := hix.2; omega)]
      rfl
    · unfold laterOp laterEnd
      simp only
      rw [show ({ s with maxNodes := s.nodes.length } : CSpline).endX = s.endX from rfl, hend, if_pos (by omega)]
      simp only
      rw [toInt_int he.pos.le hT]
      obtain ⟨b, hb, hbT⟩ := Option.map_eq_some_iff.mp he.last
      rw [hb]
      simp [hbT]

theorem ops_round_trip : ∀ {cs : List Channel}, (∀ c ∈ cs, c.CanExport) → ∃ fs os, cs.mapM writeOp = some fs ∧ fs.mapM (readOp false) = some os ∧
    List.Forall₂ IsChannel cs os ∧ ∀ t, os.foldlM laterOp t = some (cs.foldl laterEnd t)
  | [], _ => ⟨[], [], rfl, rfl, .nil, fun _ => rfl⟩
  | c :: cs, h => by
    obtain ⟨f, o, h1, h2, h3, h4⟩ := op_round_trip (h c (by simp))
    obtain ⟨fs, os, k1, k2, k3, k4⟩ := ops_round_trip fun d hd => h d (List.mem_cons_of_mem _ hd)
    refine ⟨f :: fs, o :: os, ?_, ?_, .cons h3 k3, fun t => ?_⟩
    · rw [List.mapM_cons, h1, k1]; rfl
    · rw [List.mapM_cons, h2, k2]; rfl
    · rw [List.foldlM_cons, h4]
      exact k4 _

theorem laterEnd_max : ∀ (cs : List Channel) (t e : ℤ), max t (cs.foldl laterEnd e) = cs.foldl laterEnd (max t e)
  | [], _, _ => rfl
  | c :: cs, t, e => by
    rw [List.foldl_cons, List.foldl_cons, laterEnd_max]
    congr 1
    by_cases h : c.Animated
    · obtain ⟨k, hk, h1⟩ := (laterEnd_eq e c).1 h
      obtain ⟨k', hk', h2⟩ := (laterEnd_eq (max t e) c).1 h
      rw [hk] at hk'
      obtain rfl := Option.some.inj hk'
      rw [h1, h2, max_assoc]
    · rw [(laterEnd_eq e c).2 h, (laterEnd_eq _ c).2 h]

/-- The parent of a bone as it is stored, for a bone at position `i`. -/
theorem boneParent_spec {p : ℤ} {i : ℕ} (hi : i < 255) (h : p < i) : boneParent p < i ∨ boneParent p = 255 := by
  unfold boneParent
  split_ifs with h1
  · exact Or.inr rfl
  · left; omega

theorem bones_round_trip : ∀ (bs : List Bone) (i : ℕ) (t : ℤ), 0 ≤ t → i + bs.length ≤ 255 → (∀ b ∈ bs, ∀ c ∈ b.channels, c.CanExport) →
    (∀ k b, bs[k]? = some b → b.parent < ((i + k : ℕ) : ℤ)) → ∃ ms as, bs.mapM writeBone = some ms ∧ ms.length = bs.length ∧
      readBones i (ms.zip (bs.map fun b => boneParent b.parent)) t = some (as, bs.foldl (fun m b => b.channels.foldl laterEnd m) t) ∧
      List.Forall₂ (fun (b : Bone) (a : MatrixAnim) => a.sqt = false ∧ List.Forall₂ IsChannel b.channels a.ops) bs as
  | [], i, t, _, _, _, _ => ⟨[], [], rfl, rfl, rfl, .nil⟩
  | b :: bs, i, t, h0, hl, hc, hp => by
    simp only [List.length_cons] at hl
    obtain ⟨fs, os, h1, h2, h3, h4⟩ := ops_round_trip (hc b (by simp))
    have hb : writeBone b = some ⟨fs, false⟩ := by unfold writeBone; rw [h1]; rfl
    have hm : readMatrixAnim ⟨fs, false⟩ = some ⟨os, false⟩ := by unfold readMatrixAnim; simp only; rw [h2]; rfl
    have ht : endTime os = some (b.channels.foldl laterEnd 0) := h4 0
    have hmax : max t (b.channels.foldl laterEnd 0) = b.channels.foldl laterEnd t := by
      rw [laterEnd_max, max_eq_left h0]
    have hge : ∀ (cs : List Channel) (e : ℤ), e ≤ cs.foldl laterEnd e := by
      intro cs
      induction cs with
      | nil => intro e; exact le_rfl
      | cons c cs ih =>
        intro e
        refine le_trans ?_ (ih _)
        by_cases h : c.Animated
        · obtain ⟨k, -, hk⟩ := (laterEnd_eq e c).1 h
          rw [hk]; exact le_max_left _ _
        · rw [(laterEnd_eq e c).2 h]
    obtain ⟨ms, as, k1, k2, k3, k4⟩ := bones_round_trip bs (i + 1) (b.channels.foldl laterEnd t) (h0.trans (hge _ _)) (by omega)
      (fun d hd => hc d (List.mem_cons_of_mem _ hd)) (fun k d hd => by have := hp (k + 1) d (by simpa using hd); push_cast at this ⊢; omega)
    refine ⟨⟨fs, false⟩ :: ms, ⟨os, false⟩ :: as, ?_, by simp [k2], ?_, .cons ⟨rfl, h3⟩ k4⟩
    · rw [List.mapM_cons, hb, k1]; rfl
    · rw [List.map_cons, List.zip_cons_cons, readBones, if_pos (boneParent_spec (by omega) (by simpa using hp 0 b rfl)), hm]
      simp only
      rw [ht]
      simp only
      rw [hmax, k3]
      rfl

/-! ### C71 -/

/-- C71: an animation whose bones follow their parents, and whose channels can be exported, is written to a file that reads as the same animation:
its name, the names of its bones without their name spaces, its hierarchy, all channels in the same order, whether it repeats (C69), and the
time at which its last channel ends. -/
theorem C71_round_trip (tl : Tolerances) (pref : RepeatPreference) (bones : List Bone) (name : String) (hl : bones.length ≤ 254)
    (hp : ∀ (i : ℕ) (b : Bone), bones[i]? = some b → b.parent < i) (hc : ∀ b ∈ bones, ∀ c ∈ b.channels, c.CanExport) :
    ∃ f a rep, writeFile tl pref false bones name = some (.file (.rig f)) ∧ readRig f = some a ∧ repeats tl pref bones = some rep ∧
      a.name = name ∧ a.rep = rep ∧
      List.Forall₂ (fun b s => AfterColon b.name s) bones a.names ∧
      List.Forall₂ (fun (b : Bone) (p : ℕ) => if b.parent < 0 then p = 255 else (p : ℤ) = b.parent) bones a.parents ∧
      List.Forall₂ (fun b m => m.sqt = false ∧ List.Forall₂ IsChannel b.channels m.ops) bones a.anims ∧
      (rep = true → a.endTime = intMax) ∧ (rep = false → IsGreatest (insert 0 (ends bones)) a.endTime) := by
  have hne : ∀ b ∈ bones, ∀ c ∈ b.channels, c.nodes ≠ [] := by
    intro b hb c hcc hn
    rcases (hc b hb c hcc).2.2 with h | ⟨T, -, h⟩
    · rw [hn] at h; simp at h
    · have := h.two; rw [hn] at this; simp at this
  obtain ⟨rep, hrep, -⟩ := C69_repeat tl pref bones (by omega) hne
  obtain ⟨ms, as, h1, h2, h3, h4⟩ := bones_round_trip bones 0 0 le_rfl (by omega) hc (by simpa using hp)
  have hfor : ∀ {α β : Type} (R : α → β → Prop) (f : α → β) (l : List α), (∀ x ∈ l, R x (f x)) → List.Forall₂ R l (l.map f) := by
    intro α β R f l
    induction l with
    | nil => intro _; exact .nil
    | cons x l ih => intro h; exact .cons (h x (by simp)) (ih fun y hy => h y (by simp [hy]))
  set f : RigAnimFb := ⟨ms, bones.map fun b => boneParent b.parent, some (bones.map fun b => boneBaseName b.name), rep, some name⟩ with hf
  set stop := bones.foldl (fun m b => b.channels.foldl laterEnd m) 0 with hstop
  refine ⟨f, ⟨name, bones.map fun b => boneParent b.parent, bones.map fun b => boneBaseName b.name, as, if rep then intMax else stop, rep⟩, rep,
    ?_, ?_, hrep, rfl, rfl, ?_, ?_, h4, ?_, ?_⟩
  · unfold writeFile
    rw [if_neg (by omega)]
    unfold writeRig
    rw [h1, hrep]
    rfl
  · unfold readRig
    rw [if_neg (by simp [hf, h2]), if_neg (by simp only [hf]; omega)]
    simp only [hf]
    rw [h3]
    simp [h2]
  · exact hfor _ _ _ fun b _ => boneBaseName_spec b.name
  · refine hfor _ _ _ fun b hb => ?_
    obtain ⟨i, hi⟩ := List.mem_iff_getElem?.mp hb
    have := hp i b hi
    have hlt := (List.getElem?_eq_some_iff.mp hi).1
    unfold boneParent
    split_ifs with h
    · rfl
    · omega
  · rintro rfl; rfl
  · rintro rfl
    simp only [Bool.false_eq_true, if_false]
    -- the fold is the greatest of zero and the ends
    have key : ∀ (cs : List Channel) (k : ℤ), k ≤ cs.foldl laterEnd k ∧ (∀ c ∈ cs, c.Animated → ∀ t, c.last = some t → t ≤ cs.foldl laterEnd k) ∧
        (cs.foldl laterEnd k = k ∨ ∃ c ∈ cs, c.Animated ∧ c.last = some (cs.foldl laterEnd k)) := by
      intro cs
      induction cs with
      | nil => intro k; simp
      | cons c cs ih =>
        intro k
        rw [List.foldl_cons]
        obtain ⟨i1, i2, i3⟩ := ih (laterEnd k c)
        by_cases hcA : c.Animated
        · obtain ⟨t, ht, e⟩ := (laterEnd_eq k c).1 hcA
          rw [e] at i1 i2 i3 ⊢
          refine ⟨(le_max_left _ _).trans i1, ?_, ?_⟩
          · intro d hd hA u hu
            rcases List.mem_cons.mp hd with rfl | hd
            · rw [ht] at hu
              obtain rfl := Option.some.inj hu
              exact (le_max_right _ _).trans i1
            · exact i2 d hd hA u hu
          · rcases i3 with h | ⟨d, hd, h⟩
            · rcases max_choice k t with hk | hk
              · left; rw [h, hk]
              · right; exact ⟨c, by simp, hcA, by rw [h, hk]; exact ht⟩
            · right; exact ⟨d, by simp [hd], h⟩
        · rw [(laterEnd_eq k c).2 hcA] at i1 i2 i3 ⊢
          refine ⟨i1, ?_, ?_⟩
          · intro d hd hA u hu
            rcases List.mem_cons.mp hd with rfl | hd
            · exact absurd hA hcA
            · exact i2 d hd hA u hu
          · rcases i3 with h | ⟨d, hd, h⟩
            · exact Or.inl h
            · right; exact ⟨d, by simp [hd], h⟩
    rw [hstop, foldl_bones]
    obtain ⟨k1, k2, k3⟩ := key (bones.flatMap Bone.channels) 0
    constructor
    · rcases k3 with h | ⟨c, hcm, hA, hlast⟩
      · exact Or.inl h
      · obtain ⟨b, hb, hcb⟩ := List.mem_flatMap.mp hcm
        exact Or.inr ⟨b, hb, c, hcb, hA, hlast⟩
    · rintro t (rfl | ⟨b, hb, c, hcb, hA, hlast⟩)
      · exact k1
      · exact k2 c (List.mem_flatMap.mpr ⟨b, hb, hcb⟩) hA t hlast

/-- Two bones, one of them with a parent, with a constant and a curve. -/
example : ∃ bones : List Bone, bones.length = 2 ∧ (∀ (i : ℕ) (b : Bone), bones[i]? = some b → b.parent < i) ∧ (∀ b ∈ bones, ∀ c ∈ b.channels, c.CanExport) ∧
    ends bones = {20} := by
  refine ⟨[⟨"rig:root", -1, [⟨.translateX, 0, [⟨0, 5, 0⟩]⟩]⟩, ⟨"rig:arm", 0, [⟨.rotateX, 3, [⟨0, 1, 0⟩, ⟨20, 2, 0⟩]⟩]⟩], rfl, ?_, ?_, ?_⟩
  · intro i b h
    rcases i with _ | _ | i
    · obtain rfl := Option.some.inj h; norm_num
    · obtain rfl := Option.some.inj h; norm_num
    · simp at h
  · intro b hb c hc
    simp only [List.mem_cons, List.not_mem_nil, or_false] at hb
    rcases hb with rfl | rfl
    · simp only [List.mem_cons, List.not_mem_nil, or_false] at hc
      subst hc
      exact ⟨by norm_num, rfl, Or.inl rfl⟩
    · simp only [List.mem_cons, List.not_mem_nil, or_false] at hc
      subst hc
      refine ⟨by norm_num, rfl, Or.inr ⟨20, by norm_num [intMax], ?_⟩⟩
      exact Exportable.short (by simp) (by simp) (kinked_pair.mpr (by norm_num)) (by simp) rfl (by norm_num) (by norm_num)
  · ext t
    simp [ends, Channel.Animated, Channel.last]
    try exact eq_comm

/-- More than 254 bones are refused, whatever the options. -/
theorem C71_too_many_bones (tl : Tolerances) (pref : RepeatPreference) (root : Bool) (bones : List Bone) (name : String) (h : 254 < bones.length) :
    writeFile tl pref root bones name = some .refused := by
  unfold writeFile
  rw [if_pos h]

/-! ### Only the bones with channels -/

theorem writeEach_spec (tl : Tolerances) (pref : RepeatPreference) (all : List Bone) (name : String) {rep : Bool} (hrep : repeats tl pref all = some rep) :
    ∀ (bs : List Bone) (i : ℕ), (∀ b ∈ bs, ∀ c ∈ b.channels, c.CanExport) → ∃ rs, writeEach tl pref all name i bs = some rs ∧
      List.Forall₂ (fun (kb : Bone × ℕ) (r : RigAnimFb) => writeRig tl pref all [kb.1] (name ++ "_" ++ toString kb.2) = some r)
        ((bs.zipIdx i).filter fun kb => decide (kb.1.channels ≠ [])) rs
  | [], i, _ => ⟨[], rfl, .nil⟩
  | b :: bs, i, hc => by
    obtain ⟨rs, h1, h2⟩ := writeEach_spec tl pref all name hrep bs (i + 1) fun d hd => hc d (List.mem_cons_of_mem _ hd)
    rw [List.zipIdx_cons]
    by_cases hb : b.channels = []
    · refine ⟨rs, ?_, ?_⟩
      · rw [writeEach, if_pos hb, h1]
      · rw [List.filter_cons_of_neg (by simp [hb])]
        exact h2
    · obtain ⟨fs, os, k1, -⟩ := ops_round_trip (hc b (by simp))
      have hw : ∃ r, writeRig tl pref all [b] (name ++ "_" ++ toString i) = some r := by
        unfold writeRig
        have : [b].mapM writeBone = some [⟨fs, false⟩] := by
          rw [List.mapM_cons]
          unfold writeBone
          rw [k1]
          rfl
        rw [this, hrep]
        exact ⟨_, rfl⟩
      obtain ⟨r, hr⟩ := hw
      refine ⟨r :: rs, ?_, ?_⟩
      · rw [writeEach, if_neg hb, hr, h1]
      · rw [List.filter_cons_of_pos (by simp [hb])]
        exact .cons hr h2

/-- Reading the animation of a single bone. -/
theorem readRig_single (tl : Tolerances) (pref : RepeatPreference) (all : List Bone) {b : Bone} (name : String) (hc : ∀ c ∈ b.channels, c.CanExport)
    {rep : Bool} (hrep : repeats tl pref all = some rep) : ∃ r, writeRig tl pref all [b] name = some r ∧
      (b.parent < 0 → ∃ a m, readRig r = some a ∧ a.name = name ∧ a.rep = rep ∧ a.parents = [255] ∧ a.anims = [m] ∧
        List.Forall₂ IsChannel b.channels m.ops) ∧
      (0 ≤ b.parent → b.parent ≤ 253 → readRig r = none) := by
  obtain ⟨fs, os, k1, k2, k3, k4⟩ := ops_round_trip hc
  have hb : [b].mapM writeBone = some [⟨fs, false⟩] := by
    rw [List.mapM_cons]
    unfold writeBone
    rw [k1]
    rfl
  refine ⟨⟨[⟨fs, false⟩], [boneParent b.parent], some [boneBaseName b.name], rep, some name⟩, ?_, ?_, ?_⟩
  · unfold writeRig
    rw [hb, hrep]
    rfl
  · intro hneg
    have hbp : boneParent b.parent = 255 := by unfold boneParent; rw [if_pos hneg]
    refine ⟨⟨name, [255], [boneBaseName b.name], [⟨os, false⟩], if rep then intMax else max 0 (b.channels.foldl laterEnd 0), rep⟩, ⟨os, false⟩, ?_, rfl, rfl,
      rfl, rfl, k3⟩
    unfold readRig
    rw [if_neg (by simp), if_neg (by simp), hbp]
    simp only [List.zip_cons_cons, List.zip_nil_right, readBones]
    rw [if_pos (Or.inr trivial)]
    have hm : readMatrixAnim ⟨fs, false⟩ = some ⟨os, false⟩ := by unfold readMatrixAnim; simp only; rw [k2]; rfl
    rw [hm]
    simp only
    rw [show endTime os = some (b.channels.foldl laterEnd 0) from k4 0]
    simp
  · intro h0 h1
    unfold readRig
    rw [if_neg (by simp), if_neg (by simp)]
    simp only [List.zip_cons_cons, List.zip_nil_right, readBones]
    have hn : ¬ (boneParent b.parent < 0 ∨ boneParent b.parent = 255) := by
      unfold boneParent
      rw [if_neg (by omega)]
      omega
    rw [if_neg hn]
    rfl

/-- C71: with `root_bones_only`, the file holds one animation of one bone for each bone with channels, in order, named after the bone's index.  The
animations of bones without a parent read as what was written; but the reader's assertion fails on those of bones with a parent, because the
index of the parent is that in the whole hierarchy. -/
theorem C71_roots (tl : Tolerances) (pref : RepeatPreference) (bones : List Bone) (name : String) (hl : bones.length ≤ 254)
    (hp : ∀ (i : ℕ) (b : Bone), bones[i]? = some b → b.parent < i) (hc : ∀ b ∈ bones, ∀ c ∈ b.channels, c.CanExport) :
    ∃ rs, writeFile tl pref true bones name = some (match rs with | [] => .refused | [r] => .file (.rig r) | rs => .file (.list rs)) ∧
      List.Forall₂ (fun (kb : Bone × ℕ) (r : RigAnimFb) =>
        (kb.1.parent < 0 → ∃ a m, readRig r = some a ∧ a.name = name ++ "_" ++ toString kb.2 ∧ repeats tl pref bones = some a.rep ∧ a.parents = [255] ∧
          a.anims = [m] ∧ List.Forall₂ IsChannel kb.1.channels m.ops) ∧
        (0 ≤ kb.1.parent → readRig r = none))
        (bones.zipIdx.filter fun kb => decide (kb.1.channels ≠ [])) rs := by
  have hne : ∀ b ∈ bones, ∀ c ∈ b.channels, c.nodes ≠ [] := by
    intro b hb c hcc hn
    rcases (hc b hb c hcc).2.2 with h | ⟨T, -, h⟩
    · rw [hn] at h; simp at h
    · have := h.two; rw [hn] at this; simp at this
  obtain ⟨rep, hrep, -⟩ := C69_repeat tl pref bones (by omega) hne
  obtain ⟨rs, h1, h2⟩ := writeEach_spec tl pref bones name hrep bones 0 hc
  refine ⟨rs, ?_, ?_⟩
  · unfold writeFile
    rw [if_neg (by omega)]
    simp only [Bool.not_true, Bool.false_eq_true, if_false]
    rw [h1]
    rfl
  · have hmem : ∀ kb ∈ (bones.zipIdx.filter fun kb => decide (kb.1.channels ≠ [])), kb.1 ∈ bones ∧ kb.1.parent ≤ 253 := by
      rintro ⟨b, k⟩ hkb
      have h3 := List.mem_zipIdx_iff_getElem?.mp (List.mem_filter.mp hkb).1
      have := hp k b h3
      have hlt := (List.getElem?_eq_some_iff.mp h3).1
      exact ⟨List.mem_of_getElem? h3, by simp only; omega⟩
    clear h1
    generalize (bones.zipIdx.filter fun kb => decide (kb.1.channels ≠ [])) = l at h2 hmem
    induction h2 with
    | nil => exact .nil
    | @cons kb r l rs hr _ ih =>
      refine .cons ?_ (ih fun x hx => hmem x (List.mem_cons_of_mem _ hx))
      obtain ⟨hb, hp253⟩ := hmem kb (by simp)
      obtain ⟨r', e, k1, k2⟩ := readRig_single tl pref bones (b := kb.1) (name ++ "_" ++ toString kb.2) (hc kb.1 hb) hrep
      rw [hr] at e
      obtain rfl := Option.some.inj e
      refine ⟨fun h => ?_, fun h => k2 h hp253⟩
      obtain ⟨a, m, e1, e2, e3, e4⟩ := k1 h
      exact ⟨a, m, e1, e2, by rw [e3]; exact hrep, e4⟩

/-- An animated bone below a bone without channels: a file is written, and the reader's assertion fails on it. -/
theorem C71_roots_fail (tl : Tolerances) (pref : RepeatPreference) (name : String) :
    ∃ f, writeFile tl pref true [⟨"group", -1, []⟩, ⟨"ball", 0, [⟨.translateX, 0, [⟨0, 5, 0⟩]⟩]⟩] name = some (.file (.rig f)) ∧ readRig f = none := by
  have hc : ∀ b ∈ [(⟨"group", -1, []⟩ : Bone), ⟨"ball", 0, [⟨.translateX, 0, [⟨0, 5, 0⟩]⟩]⟩], ∀ c ∈ b.channels, c.CanExport := by
    intro b hb c hc
    simp only [List.mem_cons, List.not_mem_nil, or_false] at hb
    rcases hb with rfl | rfl
    · simp at hc
    · simp only [List.mem_cons, List.not_mem_nil, or_false] at hc
      subst hc
      exact ⟨by norm_num, rfl, Or.inl rfl⟩
  obtain ⟨rs, h1, h2⟩ := C71_roots tl pref _ name (by simp) (by
    intro i b h
    rcases i with _ | _ | i
    · obtain rfl := Option.some.inj h; norm_num
    · obtain rfl := Option.some.inj h; norm_num
    · simp at h) hc
  have e : ([(⟨"group", -1, []⟩ : Bone), ⟨"ball", 0, [⟨.translateX, 0, [⟨0, 5, 0⟩]⟩]⟩].zipIdx.filter fun kb => decide (kb.1.channels ≠ [])) =
      [(⟨"ball", 0, [⟨.translateX, 0, [⟨0, 5, 0⟩]⟩]⟩, 1)] := by
    simp [List.zipIdx]
  rw [e] at h2
  cases h2 with
  | cons h h3 =>
    cases h3
    exact ⟨_, h1, h.2 le_rfl⟩

/-- An animation with a float spline cannot be read: the reader takes its length from the node after the last one. -/
theorem C71_float_spline_fails (m : MatrixAnimFb) (o : OpFb) (ho : o ∈ m.ops) {nodes : List (ℝ × ℝ × ℝ)} (h : o.value = .floatSpline (some nodes)) :
    readMatrixAnim m = none := by
  have h1 : readOp m.sqt o = none := by
    unfold readOp
    rw [h]
    cases opOfValue o.type with
    | none => rfl
    | some t =>
      simp only
      split_ifs <;> rfl
  have h2 : ∀ l : List OpFb, o ∈ l → l.mapM (readOp m.sqt) = none := by
    intro l
    induction l with
    | nil => intro h; simp at h
    | cons x l ih =>
      intro hx
      rw [List.mapM_cons]
      rcases List.mem_cons.mp hx with rfl | hx
      · rw [h1]; rfl
      · rw [ih hx]
        cases readOp m.sqt x <;> rfl
  unfold readMatrixAnim
  rw [h2 _ ho]
  rfl

end

end Motive.Pipeline
