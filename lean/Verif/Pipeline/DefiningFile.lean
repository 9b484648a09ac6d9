import Verif.Pipeline.Output
import Verif.Table.DefiningProps
/-!
# C94: the tool that writes defining animations

Model of src/anim_pipeline/defining_anim_pipeline.cpp: `CreateRigAnimFbFromRigAnim`, `SaveFile` and `main`, on the defining animations of C48 and
the reader of C71.

Idealisation: as in C71 and C93.  The animations of the input files are given; the tool loads them into one list (C47).  The names of the bones of
the defining animation are given as well: they are those of the most complete rig (anim_table.cpp:287-288).
-/

namespace Motive.Pipeline.Defining
open Motive.Pipeline Motive.Matrix4 Motive.Pipeline.Output Motive.Table

noncomputable section
open Classical

/-! ### Model -/

/-- The output of an operation (defining_anim_pipeline.cpp:66-82): constant or not, it is written as a spline without a value.  The operations of
a defining animation have no splines, so the refusal of 75-81 does not happen. -/
def writeOp (o : DefOp ℝ) : OpFb := ⟨toInt8 o.id, opValue o.type, .spline none⟩

/-- `CreateRigAnimFbFromRigAnim` (defining_anim_pipeline.cpp:47-94).  The flag for SQT has its default, false (anim.fbs:66-71); the defining
animation does not repeat (rig_anim.h:28) and is called `defining_anim` (anim_table.cpp:282). -/
def writeDefining (d : Table.Defining ℝ) (names : List String) : RigAnimFb :=
  ⟨d.bones.map fun ops => ⟨ops.map writeOp, false⟩, d.parents, some names, false, some "defining_anim"⟩

/-- `SaveFile` (defining_anim_pipeline.cpp:40-45): the disks it leaves; it always returns true. -/
def saveFile (opens : String → Bool) (room : ℕ) (d : Disk) (name : String) (bytes : Bytes) : List Disk × Bool :=
  (if opens name then d :: writeBytes room d name bytes else [d], true)

/-- `main` (defining_anim_pipeline.cpp:97-132): `argv` without the name of the program; `loads` whether all inputs load; `anims` the animations
that were loaded. -/
def main (argv : List String) (loads : Bool) (anims : List (Table.RigAnim ℝ)) (names : List String) (encode : FileFb → Bytes)
    (opens : String → Bool) (room : ℕ) (d : Disk) : Option (List Disk × ℤ) :=
  match argv with
  | [] => some ([d], -1)
  | [_] => some ([d], -1)
  | output :: _ :: _ =>
    match (if anims = [] then some {} else createDefiningAnim anims {}) with
    | none => none
    | some def_ =>
      if !loads then some ([d], -1)
      else
        let r := saveFile opens room d output (encode (.rig (writeDefining def_ names)))
        some (r.1, if r.2 then 0 else -1)

/-! ### Lemmas -/

theorem read_op {o : DefOp ℝ} (hq : o.type.isQuat = false) (hid : o.id ≤ 255) :
    readOp false (writeOp o) = some ⟨o.id, o.type, .empty o.type.isRotate⟩ := by
  unfold readOp writeOp
  simp only [opOfValue_opValue]
  rw [hq]
  simp [readValue, toUint8_toInt8 hid]

theorem read_ops {ops : List (DefOp ℝ)} (h : ∀ o ∈ ops, o.type.isQuat = false ∧ o.id ≤ 255) :
    (ops.map writeOp).mapM (readOp false) = some (ops.map fun o => (⟨o.id, o.type, .empty o.type.isRotate⟩ : RigOp)) := by
  induction ops with
  | nil => rfl
  | cons o ops ih =>
    rw [List.map_cons, List.mapM_cons, read_op (h o (by simp)).1 (h o (by simp)).2, ih (fun o ho => h o (by simp [ho]))]
    rfl

theorem endTime_empty (ops : List (DefOp ℝ)) : endTime (ops.map fun o => (⟨o.id, o.type, .empty o.type.isRotate⟩ : RigOp)) = some 0 := by
  unfold endTime
  induction ops with
  | nil => rfl
  | cons o ops ih => rw [List.map_cons, List.foldlM_cons]; exact ih

theorem read_bones {bones : List (List (DefOp ℝ))} {parents : List ℕ} (h : ∀ ops ∈ bones, ∀ o ∈ ops, o.type.isQuat = false ∧ o.id ≤ 255)
    (hl : parents.length = bones.length) :
    ∀ (i : ℕ), (∀ (k p : ℕ), parents[k]? = some p → p < i + k ∨ p = 255) →
      readBones i ((bones.map fun ops => (⟨ops.map writeOp, false⟩ : MatrixAnimFb)).zip parents) 0 =
        some (bones.map fun ops => ⟨ops.map fun o => ⟨o.id, o.type, .empty o.type.isRotate⟩, false⟩, 0) := by
  induction bones generalizing parents with
  | nil => intro i _; rfl
  | cons b bones ih =>
    intro i hp
    cases parents with
    | nil => simp at hl
    | cons p parents =>
      rw [List.map_cons, List.zip_cons_cons]
      unfold readBones
      rw [if_pos (by simpa using hp 0 p rfl)]
      have hm : readMatrixAnim ⟨b.map writeOp, false⟩ = some ⟨b.map fun o => ⟨o.id, o.type, .empty o.type.isRotate⟩, false⟩ := by
        unfold readMatrixAnim
        rw [read_ops (h b (by simp))]
        rfl
      rw [hm]
      simp only
      rw [endTime_empty]
      simp only
      rw [max_self, ih (fun ops ho => h ops (by simp [ho])) (by simpa using hl) (i + 1) (fun k q hk => by
        have := hp (k + 1) q (by simpa using hk)
        omega)]
      rfl

theorem readRig_some {r : RigAnimFb} {a : RigAnim} (h : readRig r = some a) :
    r.parents.length = r.anims.length ∧ ∃ x, readBones 0 (r.anims.zip r.parents) 0 = some x ∧ a.anims = x.1 := by
  unfold readRig at h
  by_cases h1 : r.parents.length ≠ r.anims.length
  · rw [if_pos h1] at h; simp at h
  · rw [if_neg h1] at h
    by_cases h2 : 254 < r.anims.length
    · rw [if_pos h2] at h; simp at h
    · rw [if_neg h2] at h
      obtain ⟨x, hx, rfl⟩ := Option.map_eq_some_iff.mp h
      exact ⟨not_not.mp h1, x, hx, rfl⟩

/-! ### C94 -/

/-- The rig that is read has the operations of the defining animation, but nothing drives them: not even the constant ones have values. -/
def SameOps (ops : List (DefOp ℝ)) (m : MatrixAnim) : Prop :=
  m.sqt = false ∧ List.Forall₂ (fun (d : DefOp ℝ) (o : RigOp) => o.id = d.id ∧ o.type = d.type ∧ ∃ angle, o.drive = .empty angle ∧ (angle = true ↔ d.type.isRotate = true)) ops m.ops

theorem read_defining {d : Table.Defining ℝ} {names : List String} (h : ∀ ops ∈ d.bones, ∀ o ∈ ops, o.type.isQuat = false ∧ o.id ≤ 255)
    (hn : names.length = d.bones.length) (hl : d.parents.length = d.bones.length) (hb : d.bones.length ≤ 254)
    (hp : ∀ (k p : ℕ), d.parents[k]? = some p → p < k ∨ p = 255) :
    ∃ a, readRig (writeDefining d names) = some a ∧ a.name = "defining_anim" ∧ a.names = names ∧ a.parents = d.parents ∧ a.rep = false ∧
      a.endTime = 0 ∧ List.Forall₂ SameOps d.bones a.anims := by
  have hr := read_bones h hl 0 (by simpa using hp)
  refine ⟨⟨"defining_anim", d.parents, names, d.bones.map fun ops => ⟨ops.map fun o => ⟨o.id, o.type, .empty o.type.isRotate⟩, false⟩, 0, false⟩, ?_,
    rfl, rfl, rfl, rfl, rfl, ?_⟩
  · unfold readRig writeDefining
    simp only [List.length_map]
    rw [if_neg (by simpa using hl), if_neg (by omega), hr]
    simp [hn]
  · rw [List.forall₂_map_right_iff]
    refine List.forall₂_same.mpr ?_
    intro ops hops
    refine ⟨rfl, ?_⟩
    rw [List.forall₂_map_right_iff]
    exact List.forall₂_same.mpr fun o ho => ⟨rfl, rfl, _, rfl, Iff.rfl⟩

/-- The operations that the animations have under their ids, for each bone. -/
def Uses (anims : List (Table.RigAnim ℝ)) (j id : ℕ) (t : OpType) : Prop := ∃ a ∈ anims, ∃ ops, a.bones[j]? = some ops ∧ ∃ o ∈ ops, o.id = id ∧ o.type = t

theorem uses_iff (anims : List (Table.RigAnim ℝ)) (j id : ℕ) (t : OpType) : Uses anims j id t ↔ ∃ o ∈ opsOf anims j, o.id = id ∧ o.type = t := by
  unfold Uses opsOf
  constructor
  · rintro ⟨a, ha, ops, hops, o, ho, h⟩
    refine ⟨o, List.mem_flatMap.mpr ⟨a, ha, ?_⟩, h⟩
    rw [List.getD_eq_getElem?_getD, hops]; exact ho
  · rintro ⟨o, ho, h⟩
    obtain ⟨a, ha, hoa⟩ := List.mem_flatMap.mp ho
    rw [List.getD_eq_getElem?_getD] at hoa
    cases hb : a.bones[j]? with
    | none => rw [hb] at hoa; simp at hoa
    | some ops => rw [hb] at hoa; exact ⟨a, ha, ops, hb, o, hoa, h⟩

/-- The animations do not disagree on what an id of a bone stands for. -/
def Consistent (anims : List (Table.RigAnim ℝ)) : Prop := ∀ j id t t', Uses anims j id t → Uses anims j id t' → t = t'

theorem consistent_agree {anims : List (Table.RigAnim ℝ)} (h : Consistent anims) (j : ℕ) : Agree (opsOf anims j) := by
  intro a ha b hb hab
  exact h j a.id a.type b.type ((uses_iff _ _ _ _).2 ⟨a, ha, rfl, rfl⟩) ((uses_iff _ _ _ _).2 ⟨b, hb, hab.symm, rfl⟩)

/-- C94: for at most 256 well-formed animations without quaternions that agree on what their ids stand for, the tool writes a file and exits with
status 0; the file reads, with any layout of the tables that can be read back, as an animation with the hierarchy of the animation with the most
bones, and whose bones have, in the order of their ids and without repetition, exactly the operations that the animations use. -/
theorem C94_round_trip {anims : List (Table.RigAnim ℝ)} (hw : ∀ a ∈ anims, WellFormed a) (hpos : anims ≠ []) (hlen : anims.length ≤ 256)
    (hag : Consistent anims) (hq : ∀ j id t, Uses anims j id t → t.isQuat = false ∧ id ≤ 255)
    {names : List String} (hn : ∀ a ∈ anims, (∀ b ∈ anims, b.numBones ≤ a.numBones) → names.length = a.numBones)
    {output input : String} {inputs : List String} {encode : FileFb → Bytes} {opens : String → Bool} {room : ℕ} {d : Disk} (hopen : opens output = true)
    {decode : Bytes → Option FileFb} (hdec : ∀ def_, createDefiningAnim anims {} = some def_ →
      decode (encode (.rig (writeDefining def_ names))) = some (.rig (writeDefining def_ names)) ∧ (encode (.rig (writeDefining def_ names))).length ≤ room) :
    ∃ ds bytes f a, main (output :: input :: inputs) true anims names encode opens room d = some (ds, 0) ∧
      (ds.getLastD d) output = some bytes ∧ (∀ n ≠ output, (ds.getLastD d) n = d n) ∧ decode bytes = some (.rig f) ∧ readRig f = some a ∧
      a.names = names ∧ a.rep = false ∧
      (∃ x ∈ anims, a.parents = x.parents ∧ a.anims.length = x.numBones ∧ ∀ b ∈ anims, b.numBones ≤ x.numBones) ∧
      ∀ j m, a.anims[j]? = some m → (m.ops.map RigOp.id).Pairwise (· < ·) ∧
        ∀ id t, (∃ o ∈ m.ops, o.id = id ∧ o.type = t) ↔ Uses anims j id t := by
  obtain ⟨e1, e2⟩ := C48_defining anims hw hpos hlen
  obtain ⟨def_, hdef⟩ := Option.isSome_iff_exists.mp (e1.mpr (consistent_agree hag))
  obtain ⟨⟨x, hx, p1, p2, p3⟩, p4⟩ := e2 def_ hdef
  obtain ⟨w1, w2, w3, -⟩ := hw x hx
  have hcov : ∀ ops ∈ def_.bones, ∀ o ∈ ops, o.type.isQuat = false ∧ o.id ≤ 255 := by
    intro ops hops o ho
    obtain ⟨j, hj, rfl⟩ := List.getElem_of_mem hops
    have c := p4 j _ (List.getElem?_eq_getElem hj)
    obtain ⟨o', ho', hid⟩ := (c.ids o.id).mp ⟨o, ho, rfl⟩
    have := hq j o.id o.type ((uses_iff _ _ _ _).2 ⟨o', ho', hid, (c.types o ho o' ho' hid).symm⟩)
    exact this
  obtain ⟨a, hr, r1, r2, r3, r4, r5, r6⟩ := read_defining (d := def_) (names := names) hcov (by rw [p2]; exact hn x hx p3)
    (by rw [p1, p2]; exact w2) (by rw [p2]; exact w1) (by rw [p1]; exact w3)
  obtain ⟨dec1, dec2⟩ := hdec def_ hdef
  have hlast : ((d :: writeBytes room d output (encode (.rig (writeDefining def_ names)))).getLastD d) = d.put output (encode (.rig (writeDefining def_ names))) := by
    rw [List.getLastD_cons, writeBytes_last, List.take_of_length_le dec2]
  refine ⟨d :: writeBytes room d output (encode (.rig (writeDefining def_ names))), encode (.rig (writeDefining def_ names)), writeDefining def_ names, a,
    ?_, ?_, ?_, dec1, hr, r2, r4, ⟨x, hx, by rw [r3, p1], by rw [← r6.length_eq, p2], p3⟩, ?_⟩
  · unfold main
    rw [if_neg hpos, hdef]
    simp [saveFile, hopen]
  · rw [hlast]; exact if_pos rfl
  · intro n hne
    rw [hlast]; exact if_neg hne
  · intro j m hm
    have hj : j < def_.bones.length := by
      rw [r6.length_eq]; exact (List.getElem?_eq_some_iff.mp hm).1
    have hjm := (List.forall₂_iff_get.mp r6).2 j hj (List.getElem?_eq_some_iff.mp hm).1
    simp only [List.get_eq_getElem] at hjm
    rw [(List.getElem?_eq_some_iff.mp hm).2] at hjm
    have c := p4 j _ (List.getElem?_eq_getElem hj)
    obtain ⟨-, f2⟩ := hjm
    have hids : m.ops.map RigOp.id = (def_.bones[j]).map fun o => o.id := by
      clear c
      generalize def_.bones[j] = l at f2
      generalize m.ops = k at f2
      induction f2 with
      | nil => rfl
      | cons h _ ih => rw [List.map_cons, List.map_cons, ih, h.1]
    refine ⟨by rw [hids]; exact c.sorted, ?_⟩
    intro id t
    have hmem : (∃ o ∈ m.ops, o.id = id ∧ o.type = t) ↔ ∃ o ∈ def_.bones[j], o.id = id ∧ o.type = t := by
      clear c hids
      generalize def_.bones[j] = l at f2
      generalize m.ops = k at f2
      induction f2 with
      | nil => simp
      | cons h _ ih =>
        simp only [List.mem_cons, exists_eq_or_imp]
        rw [ih, h.1, h.2.1]
    rw [hmem, uses_iff]
    constructor
    · rintro ⟨o, ho, rfl, rfl⟩
      obtain ⟨o', ho', hid⟩ := (c.ids o.id).mp ⟨o, ho, rfl⟩
      exact ⟨o', ho', hid, (c.types o ho o' ho' hid).symm⟩
    · rintro ⟨o, ho, rfl, rfl⟩
      obtain ⟨o', ho', hid⟩ := (c.ids o.id).mpr ⟨o, ho, rfl⟩
      exact ⟨o', ho', hid, c.types o' ho' o ho hid.symm⟩

/-- Disagreement: the constants are lost: whatever was written, no operation of a defining animation that is read has a constant or a spline. -/
theorem C94_constants_lost {d : Table.Defining ℝ} {names : List String} {a : RigAnim} (h : readRig (writeDefining d names) = some a) :
    ∀ m ∈ a.anims, ∀ o ∈ m.ops, ∃ angle, o.drive = .empty angle := by
  have key : ∀ (bones : List (List (DefOp ℝ))) (ps : List ℕ) (i : ℕ) (t : ℤ) (r : List MatrixAnim × ℤ),
      readBones i ((bones.map fun ops => (⟨ops.map writeOp, false⟩ : MatrixAnimFb)).zip ps) t = some r →
      ∀ m ∈ r.1, ∀ o ∈ m.ops, ∃ angle, o.drive = .empty angle := by
    intro bones
    induction bones with
    | nil =>
      intro ps i t r hr
      simp only [List.map_nil, List.zip_nil_left, readBones] at hr
      obtain rfl := Option.some.inj hr
      simp
    | cons b bones ih =>
      intro ps i t r hr
      cases ps with
      | nil =>
        simp only [List.zip_nil_right, readBones] at hr
        obtain rfl := Option.some.inj hr
        simp
      | cons p ps =>
        rw [List.map_cons, List.zip_cons_cons] at hr
        unfold readBones at hr
        split_ifs at hr with hp
        cases hm : readMatrixAnim ⟨b.map writeOp, false⟩ with
        | none => rw [hm] at hr; simp at hr
        | some x =>
          rw [hm] at hr
          simp only at hr
          cases he : endTime x.ops with
          | none => rw [he] at hr; simp at hr
          | some e =>
            rw [he] at hr
            simp only [Option.map_eq_some_iff] at hr
            obtain ⟨r', hr', rfl⟩ := hr
            intro m hmem
            rcases List.mem_cons.mp hmem with rfl | hmem
            · unfold readMatrixAnim at hm
              obtain ⟨ops, hops, rfl⟩ := Option.map_eq_some_iff.mp hm
              simp only at hops ⊢
              intro o ho
              clear hm hr' he hmem
              induction b generalizing ops with
              | nil =>
                simp only [List.map_nil, List.mapM_nil] at hops
                obtain rfl := Option.some.inj hops
                simp at ho
              | cons c b ihb =>
                rw [List.map_cons, List.mapM_cons] at hops
                obtain ⟨o1, h1, hops⟩ := Option.bind_eq_some_iff.mp hops
                obtain ⟨os, h2, hops⟩ := Option.bind_eq_some_iff.mp hops
                obtain rfl := Option.some.inj hops
                rcases List.mem_cons.mp ho with rfl | ho
                · unfold readOp writeOp at h1
                  simp only [opOfValue_opValue] at h1
                  split_ifs at h1
                  simp only [readValue, Option.map_some] at h1
                  obtain rfl := Option.some.inj h1
                  exact ⟨_, rfl⟩
                · exact ihb os h2 ho
            · exact ih ps (i + 1) _ r' hr' m hmem
  obtain ⟨-, x, hx, he⟩ := readRig_some h
  rw [he]
  exact key _ _ _ _ _ hx

/-- Disagreement: a file with a quaternion operation cannot be read: the tool does not write that the animation is an SQT. -/
theorem C94_quaternions_fail {d : Table.Defining ℝ} {names : List String} {ops : List (DefOp ℝ)} {o : DefOp ℝ} (ho : ops ∈ d.bones) (hoo : o ∈ ops)
    (hq : o.type.isQuat = true) : readRig (writeDefining d names) = none := by
  have hop : ∀ l : List (DefOp ℝ), o ∈ l → (l.map writeOp).mapM (readOp false) = none := by
    intro l hl
    induction l with
    | nil => simp at hl
    | cons c l ih =>
      rw [List.map_cons, List.mapM_cons]
      rcases List.mem_cons.mp hl with rfl | hl
      · have : readOp false (writeOp o) = none := by
          unfold readOp writeOp
          simp only [opOfValue_opValue]
          rw [hq]; simp
        rw [this]; rfl
      · rw [ih hl]
        cases readOp false (writeOp c) <;> rfl
  have key : ∀ (bones : List (List (DefOp ℝ))) (ps : List ℕ) (i : ℕ) (t : ℤ), ps.length = bones.length → ops ∈ bones →
      readBones i ((bones.map fun ops => (⟨ops.map writeOp, false⟩ : MatrixAnimFb)).zip ps) t = none := by
    intro bones
    induction bones with
    | nil => intro ps i t _ h; simp at h
    | cons b bones ih =>
      intro ps i t hl h
      cases ps with
      | nil => simp at hl
      | cons p ps =>
        rw [List.map_cons, List.zip_cons_cons]
        unfold readBones
        split_ifs with hp
        · rcases List.mem_cons.mp h with rfl | h
          · have : readMatrixAnim ⟨ops.map writeOp, false⟩ = none := by
              unfold readMatrixAnim
              rw [hop ops hoo]; rfl
            rw [this]
          · cases hm : readMatrixAnim ⟨b.map writeOp, false⟩ with
            | none => rfl
            | some x =>
              simp only
              cases he : endTime x.ops with
              | none => rfl
              | some e =>
                simp only
                rw [ih ps (i + 1) _ (by simpa using hl) h]; rfl
        · rfl
  rw [Option.eq_none_iff_forall_ne_some]
  intro a ha
  obtain ⟨h1, x, hx, -⟩ := readRig_some ha
  have := key d.bones d.parents 0 0 (by simpa [writeDefining] using h1) ho
  rw [show (writeDefining d names).anims = d.bones.map fun ops => (⟨ops.map writeOp, false⟩ : MatrixAnimFb) from rfl,
    show (writeDefining d names).parents = d.parents from rfl, this] at hx
  simp at hx

/-- Disagreement: if the output cannot be opened nothing is written, but the tool exits with status 0 all the same. -/
theorem C94_unsaved {anims : List (Table.RigAnim ℝ)} {def_ : Table.Defining ℝ} (hdef : createDefiningAnim anims {} = some def_) (hpos : anims ≠ [])
    (names : List String) (output input : String) (inputs : List String) (encode : FileFb → Bytes) (opens : String → Bool) (room : ℕ) (d : Disk)
    (hopen : opens output = false) : main (output :: input :: inputs) true anims names encode opens room d = some ([d], 0) := by
  unfold main
  rw [if_neg hpos, hdef]
  simp [saveFile, hopen]

/-- C94: without an output and an input, or if an input does not load, it exits with status -1 and the disk is as before. -/
theorem C94_refuses {anims : List (Table.RigAnim ℝ)} (argv : List String) (loads : Bool)
    (names : List String) (encode : FileFb → Bytes) (opens : String → Bool) (room : ℕ) (d : Disk) (h : argv.length < 2 ∨ loads = false)
    {ds : List Disk} {status : ℤ} (hm : main argv loads anims names encode opens room d = some (ds, status)) : status = -1 ∧ ds = [d] := by
  unfold main at hm
  split at hm
  · simp only [Option.some.injEq, Prod.mk.injEq] at hm
    exact ⟨hm.2.symm, hm.1.symm⟩
  · simp only [Option.some.injEq, Prod.mk.injEq] at hm
    exact ⟨hm.2.symm, hm.1.symm⟩
  · have hl : loads = false := by
      rcases h with h | h
      · simp at h
      · exact h
    rw [hl] at hm
    split at hm
    · simp at hm
    · simp only [Bool.not_false, if_true, Option.some.injEq, Prod.mk.injEq] at hm
      exact ⟨hm.2.symm, hm.1.symm⟩

/-! ### The hypotheses can be met -/

/-- Two animations of an arm, one with a hand: they share the rotation of the arm, and one of them moves it. -/
def demoAnims : List (Table.RigAnim ℝ) :=
  [⟨[[⟨0, .rotateX, none⟩]], [255]⟩, ⟨[[⟨0, .rotateX, some 1⟩, ⟨200, .translateY, some 0⟩], [⟨3, .scaleX, some 1⟩]], [255, 0]⟩]

theorem demo_uses {j id : ℕ} {t : OpType} (h : Uses demoAnims j id t) :
    (j = 0 ∧ id = 0 ∧ t = .rotateX) ∨ (j = 0 ∧ id = 200 ∧ t = .translateY) ∨ (j = 1 ∧ id = 3 ∧ t = .scaleX) := by
  obtain ⟨a, ha, ops, hops, o, ho, rfl, rfl⟩ := h
  simp only [demoAnims, List.mem_cons, List.not_mem_nil, or_false] at ha
  rcases ha with rfl | rfl
  · rcases j with _ | j
    · obtain rfl := Option.some.inj hops
      simp only [List.mem_cons, List.not_mem_nil, or_false] at ho
      subst ho; simp
    · simp at hops
  · rcases j with _ | _ | j
    · obtain rfl := Option.some.inj hops
      simp only [List.mem_cons, List.not_mem_nil, or_false] at ho
      rcases ho with rfl | rfl <;> simp
    · obtain rfl := Option.some.inj hops
      simp only [List.mem_cons, List.not_mem_nil, or_false] at ho
      subst ho; simp
    · simp at hops

/-- They meet the hypotheses of `C94_round_trip`. -/
example : (∀ a ∈ demoAnims, WellFormed a) ∧ demoAnims ≠ [] ∧ demoAnims.length ≤ 256 ∧ Consistent demoAnims ∧
    (∀ j id t, Uses demoAnims j id t → t.isQuat = false ∧ id ≤ 255) ∧
    (∀ a ∈ demoAnims, (∀ b ∈ demoAnims, b.numBones ≤ a.numBones) → ["arm", "hand"].length = a.numBones) ∧ Uses demoAnims 0 200 .translateY := by
  refine ⟨?_, by simp [demoAnims], by simp [demoAnims], ?_, ?_, ?_, ?_⟩
  · intro a ha
    simp only [demoAnims, List.mem_cons, List.not_mem_nil, or_false] at ha
    rcases ha with rfl | rfl
    · refine ⟨by simp [Table.RigAnim.numBones], rfl, ?_, by simp⟩
      intro i p h
      rcases i with _ | i
      · obtain rfl := Option.some.inj h; right; rfl
      · simp at h
    · refine ⟨by simp [Table.RigAnim.numBones], rfl, ?_, by simp⟩
      intro i p h
      rcases i with _ | _ | i
      · obtain rfl := Option.some.inj h; right; rfl
      · obtain rfl := Option.some.inj h; left; omega
      · simp at h
  · intro j id t t' h h'
    rcases demo_uses h with ⟨a, b, c⟩ | ⟨a, b, c⟩ | ⟨a, b, c⟩ <;> rcases demo_uses h' with ⟨a', b', c'⟩ | ⟨a', b', c'⟩ | ⟨a', b', c'⟩ <;>
      first | exact c.trans c'.symm | omega
  · intro j id t h
    rcases demo_uses h with ⟨a, rfl, rfl⟩ | ⟨a, rfl, rfl⟩ | ⟨a, rfl, rfl⟩ <;> exact ⟨rfl, by norm_num⟩
  · intro a ha hmax
    simp only [demoAnims, List.mem_cons, List.not_mem_nil, or_false] at ha
    rcases ha with rfl | rfl
    · have := hmax ⟨[[⟨0, .rotateX, some 1⟩, ⟨200, .translateY, some 0⟩], [⟨3, .scaleX, some 1⟩]], [255, 0]⟩ (by simp [demoAnims])
      simp [Table.RigAnim.numBones] at this
    · rfl
  · exact ⟨_, List.mem_cons_of_mem _ (List.mem_singleton.mpr rfl), _, rfl, _, List.mem_cons_of_mem _ (List.mem_singleton.mpr rfl), rfl, rfl⟩

end

end Motive.Pipeline.Defining
