import Verif.Pipeline.RoundTrip
/-!
# C93: what a run of the animation pipeline leaves on the disk, and its exit status

Model of `RunAnimPipeline` (src/anim_pipeline/anim_pipeline.cpp:578-616) and `FlatAnim::OutputFlatBuffer` (src/anim_pipeline/flat_anim.cpp:53-94)
in a file system that may refuse to create the directory or the file, may take only some of the bytes, and may be stopped at any moment.

Idealisation: of the scene only the bones that `GatherFlatAnim` finds matter (C74, C75).  The functions of fplutil on file names, which are not in
/repo, are arbitrary functions.  A file is written from front to back.  `none` is a failed assertion or undefined behaviour, as in C71.
-/

namespace Motive.Pipeline.Output
open Motive.Pipeline

noncomputable section
open Classical

abbrev Bytes := List UInt8

/-- The contents of the files by name. -/
abbrev Disk := String → Option Bytes

/-! ### Model -/

/-- The arguments that matter here (anim_pipeline.h:47-62). -/
structure Settings where
  output : String
  tolerances : Tolerances
  pref : RepeatPreference
  staggerEnd : Bool
  preserveStart : Bool
  rootBonesOnly : Bool
  debugTime : ℤ

/-- What the program meets outside. -/
structure World where
  /-- Whether the scene loads (anim_pipeline.cpp:584-586). -/
  loads : Bool
  /-- The bones of the scene (anim_pipeline.cpp:595-596). -/
  bones : Option (List Bone)
  /-- `fplutil::RemoveExtensionFromName`. -/
  removeExtension : String → String
  /-- `fplutil::RemoveDirectoryFromName`. -/
  removeDirectory : String → String
  /-- `fplutil::DirectoryName`. -/
  directory : String → String
  /-- The bytes of the tables (`fbb.GetBufferPointer()`). -/
  encode : FileFb → Bytes
  /-- Whether `fplutil::CreateDirectory` succeeds. -/
  makesDirectory : String → Bool
  /-- Whether `fopen(..., "wb")` succeeds. -/
  opens : String → Bool
  /-- How many bytes the disk takes. -/
  room : ℕ

/-- A run: the disks before and after each of its effects, in order, and the exit status. -/
structure Outcome where
  disks : List Disk
  status : ℕ

/-- The disk with `bytes` as the contents of `name`. -/
def Disk.put (d : Disk) (name : String) (bytes : Bytes) : Disk := fun n => if n = name then some bytes else d n

/-- `fopen(name, "wb")`, `fwrite` and `fclose` (flat_anim.cpp:79, 88-89): the file is empty, then holds more and more of the bytes until no more are taken. -/
def writeBytes (room : ℕ) (d : Disk) (name : String) (bytes : Bytes) : List Disk :=
  (List.range (min room bytes.length + 1)).map fun k => d.put name (bytes.take k)

/-- The extension (flat_anim.cpp:65-68; anim.fbs:98, anim_list.fbs:53): `CreateFlatBuffer` returns 1 if it made one animation. -/
def extension : FileFb → String
  | .rig _ => "motiveanim"
  | .list _ => "motivelist"

/-- `OutputFlatBuffer` (flat_anim.cpp:53-94), with the disks it leaves and what it returns. -/
def outputFlatBuffer (w : World) (s : Settings) (bones : List Bone) (d : Disk) : Option (List Disk × Bool) :=
  match writeFile s.tolerances s.pref s.rootBonesOnly bones (w.removeDirectory (w.removeExtension s.output)) with
  | none => none
  | some .refused => some ([d], false)
  | some (.file f) =>
    let name := w.removeExtension s.output ++ "." ++ extension f
    if !w.makesDirectory (w.directory name) then some ([d], false)
    else if !w.opens name then some ([d], false)
    else some (d :: writeBytes w.room d name (w.encode f), true)

/-- `RunAnimPipeline` (anim_pipeline.cpp:578-616). -/
def runAnimPipeline (w : World) (s : Settings) (d : Disk) : Option Outcome :=
  if !w.loads then some ⟨[d], 1⟩
  else if 0 ≤ s.debugTime then some ⟨[d], 0⟩
  else match w.bones with
    | none => none
    | some bones => match adjustTimes s.preserveStart s.staggerEnd bones with
      | none => none
      | some bones => match outputFlatBuffer w s bones d with
        | none => none
        | some (ds, ok) => some ⟨ds, if ok then 0 else 1⟩

/-! ### Specification -/

/-- `f` is the file that C71 describes for the bones of the scene, their times adjusted (C68), under the name of the output without its directory. -/
def Makes (w : World) (s : Settings) (f : FileFb) : Prop :=
  ∃ bones bones', w.bones = some bones ∧ adjustTimes s.preserveStart s.staggerEnd bones = some bones' ∧
    writeFile s.tolerances s.pref s.rootBonesOnly bones' (w.removeDirectory (w.removeExtension s.output)) = some (.file f)

/-- The file that is written: the extension asked for is replaced. -/
def outputName (w : World) (s : Settings) (f : FileFb) : String := w.removeExtension s.output ++ "." ++ extension f

/-- The disk when the run is over. -/
def Outcome.final (o : Outcome) (d : Disk) : Disk := o.disks.getLastD d

/-! ### Lemmas -/

theorem writeBytes_ne (room : ℕ) (d : Disk) (name : String) (bytes : Bytes) : writeBytes room d name bytes ≠ [] := by
  simp [writeBytes]

theorem writeBytes_last (room : ℕ) (d : Disk) (name : String) (bytes : Bytes) (d' : Disk) :
    (writeBytes room d name bytes).getLastD d' = d.put name (bytes.take room) := by
  unfold writeBytes
  rw [List.range_succ, List.map_append]
  simp only [List.map_cons, List.map_nil, List.getLastD_concat]
  congr 1
  rcases le_total room bytes.length with h | h
  · rw [min_eq_left h]
  · rw [min_eq_right h, List.take_length, List.take_of_length_le h]

theorem writeBytes_mem {room : ℕ} {d : Disk} {name : String} {bytes : Bytes} {e : Disk} (h : e ∈ writeBytes room d name bytes) :
    ∃ k, k ≤ room ∧ k ≤ bytes.length ∧ e = d.put name (bytes.take k) := by
  obtain ⟨k, hk, rfl⟩ := List.mem_map.mp h
  have := List.mem_range.mp hk
  exact ⟨k, by omega, by omega, rfl⟩

theorem writeBytes_has {room : ℕ} {d : Disk} {name : String} {bytes : Bytes} {k : ℕ} (h1 : k ≤ room) (h2 : k ≤ bytes.length) :
    d.put name (bytes.take k) ∈ writeBytes room d name bytes :=
  List.mem_map.mpr ⟨k, List.mem_range.mpr (by omega), rfl⟩

/-- What a run that came to an end did. -/
theorem run_cases {w : World} {s : Settings} {d : Disk} {o : Outcome} (h : runAnimPipeline w s d = some o) :
    (w.loads = false ∧ o = ⟨[d], 1⟩) ∨ (w.loads = true ∧ 0 ≤ s.debugTime ∧ o = ⟨[d], 0⟩) ∨
    (w.loads = true ∧ s.debugTime < 0 ∧ (∀ f, ¬ Makes w s f) ∧ o = ⟨[d], 1⟩) ∨
    ∃ f, w.loads = true ∧ s.debugTime < 0 ∧ Makes w s f ∧
      ((¬ (w.makesDirectory (w.directory (outputName w s f)) = true ∧ w.opens (outputName w s f) = true) ∧ o = ⟨[d], 1⟩) ∨
        (w.makesDirectory (w.directory (outputName w s f)) = true ∧ w.opens (outputName w s f) = true ∧
          o = ⟨d :: writeBytes w.room d (outputName w s f) (w.encode f), 0⟩)) := by
  unfold runAnimPipeline at h
  by_cases hl : w.loads = true
  · rw [hl] at h
    simp only [Bool.not_true, Bool.false_eq_true, if_false] at h
    by_cases hd : 0 ≤ s.debugTime
    · rw [if_pos hd] at h
      exact Or.inr (Or.inl ⟨hl, hd, (Option.some.inj h).symm⟩)
    · rw [if_neg hd] at h
      cases hb : w.bones with
      | none => rw [hb] at h; simp at h
      | some bones =>
        rw [hb] at h
        simp only at h
        cases ha : adjustTimes s.preserveStart s.staggerEnd bones with
        | none => rw [ha] at h; simp at h
        | some bones' =>
          rw [ha] at h
          simp only at h
          unfold outputFlatBuffer at h
          cases hw : writeFile s.tolerances s.pref s.rootBonesOnly bones' (w.removeDirectory (w.removeExtension s.output)) with
          | none => rw [hw] at h; simp at h
          | some x =>
            rw [hw] at h
            cases x with
            | refused =>
              simp only [Bool.false_eq_true, if_false] at h
              refine Or.inr (Or.inr (Or.inl ⟨hl, not_le.mp hd, ?_, (Option.some.inj h).symm⟩))
              rintro f ⟨b1, b2, h1, h2, h3⟩
              rw [hb] at h1
              obtain rfl := Option.some.inj h1
              rw [ha] at h2
              obtain rfl := Option.some.inj h2
              rw [hw] at h3
              simp at h3
            | file f =>
              have hm : Makes w s f := ⟨bones, bones', hb, ha, hw⟩
              refine Or.inr (Or.inr (Or.inr ⟨f, hl, not_le.mp hd, hm, ?_⟩))
              simp only at h
              by_cases c1 : w.makesDirectory (w.directory (outputName w s f)) = true
              · by_cases c2 : w.opens (outputName w s f) = true
                · right
                  refine ⟨c1, c2, ?_⟩
                  unfold outputName at c1 c2
                  rw [c1, c2] at h
                  simpa [outputName] using h.symm
                · left
                  refine ⟨fun hh => c2 hh.2, ?_⟩
                  unfold outputName at c1 c2
                  rw [c1, Bool.eq_false_iff.mpr c2] at h
                  simpa using h.symm
              · left
                refine ⟨fun hh => c1 hh.1, ?_⟩
                unfold outputName at c1
                rw [Bool.eq_false_iff.mpr c1] at h
                simpa using h.symm
  · left
    rw [Bool.eq_false_iff.mpr hl] at h
    exact ⟨Bool.eq_false_iff.mpr hl, by simpa using h.symm⟩

theorem makes_unique {w : World} {s : Settings} {f g : FileFb} (hf : Makes w s f) (hg : Makes w s g) : f = g := by
  obtain ⟨a, a', h1, h2, h3⟩ := hf
  obtain ⟨b, b', k1, k2, k3⟩ := hg
  rw [h1] at k1; obtain rfl := Option.some.inj k1
  rw [h2] at k2; obtain rfl := Option.some.inj k2
  rw [h3] at k3
  have := Option.some.inj k3
  injection this

/-! ### C93 -/

/-- C93: the exit status of a run that is not for debugging is 0 exactly if the scene loads, it makes a file, and the directory and the file
can be created. -/
theorem C93_status {w : World} {s : Settings} {d : Disk} {o : Outcome} (h : runAnimPipeline w s d = some o) (hd : s.debugTime < 0) :
    o.status = 0 ↔ w.loads = true ∧ ∃ f, Makes w s f ∧ w.makesDirectory (w.directory (outputName w s f)) = true ∧ w.opens (outputName w s f) = true := by
  rcases run_cases h with ⟨h1, rfl⟩ | ⟨h1, h2, rfl⟩ | ⟨h1, h2, h3, rfl⟩ | ⟨f, h1, h2, h3, ⟨h4, rfl⟩ | ⟨h4, h5, rfl⟩⟩
  · simp [h1]
  · omega
  · simp only [one_ne_zero, false_iff, not_and, not_exists]
    exact fun _ f hf => absurd hf (h3 f)
  · simp only [one_ne_zero, false_iff, not_and, not_exists]
    intro _ g hg a b
    rw [← makes_unique h3 hg] at a b
    exact h4 ⟨a, b⟩
  · simp only [true_iff]
    exact ⟨h1, f, h3, h4, h5⟩

/-- C93: a run that fails has not touched the disk at any moment; neither has a run for debugging, which succeeds if the scene loads. -/
theorem C93_failure {w : World} {s : Settings} {d : Disk} {o : Outcome} (h : runAnimPipeline w s d = some o) :
    (o.status ≠ 0 → ∀ e ∈ o.disks, e = d) ∧
    (0 ≤ s.debugTime → (o.status = 0 ↔ w.loads = true) ∧ ∀ e ∈ o.disks, e = d) := by
  rcases run_cases h with ⟨h1, rfl⟩ | ⟨h1, h2, rfl⟩ | ⟨h1, h2, h3, rfl⟩ | ⟨f, h1, h2, h3, ⟨h4, rfl⟩ | ⟨h4, h5, rfl⟩⟩
  · simp [h1]
  · simp [h1]
  · refine ⟨by simp, fun hh => by omega⟩
  · refine ⟨by simp, fun hh => by omega⟩
  · refine ⟨by simp, fun hh => by omega⟩

/-- C93: a run that succeeds, is not for debugging and whose bytes the disk takes leaves the whole file under the name asked for, with the
extension of its kind, and no other file has changed. -/
theorem C93_success {w : World} {s : Settings} {d : Disk} {o : Outcome} (h : runAnimPipeline w s d = some o) (hd : s.debugTime < 0)
    (h0 : o.status = 0) (hroom : ∀ f, Makes w s f → (w.encode f).length ≤ w.room) :
    ∃ f, Makes w s f ∧ o.final d (w.removeExtension s.output ++ "." ++ extension f) = some (w.encode f) ∧
      ∀ n ≠ w.removeExtension s.output ++ "." ++ extension f, o.final d n = d n := by
  rcases run_cases h with ⟨h1, rfl⟩ | ⟨h1, h2, rfl⟩ | ⟨h1, h2, h3, rfl⟩ | ⟨f, h1, h2, h3, ⟨h4, rfl⟩ | ⟨h4, h5, rfl⟩⟩
  · simp at h0
  · omega
  · simp at h0
  · simp at h0
  · have hf : Outcome.final ⟨d :: writeBytes w.room d (outputName w s f) (w.encode f), 0⟩ d = d.put (outputName w s f) (w.encode f) := by
      unfold Outcome.final
      rw [List.getLastD_cons, writeBytes_last, List.take_of_length_le (hroom f h3)]
    refine ⟨f, h3, ?_, ?_⟩
    · rw [hf]; simp [Disk.put, outputName]
    · intro n hn
      rw [hf]
      exact if_neg hn

/-- C93: a successful run in which the writing is not cut short leaves a file that reads as the animation of the scene (C71), whichever way the
tables are laid out in bytes, provided they can be read back. -/
theorem C93_reads_back {w : World} {s : Settings} {d : Disk} {bones bones' : List Bone} (hl : w.loads = true) (hd : s.debugTime < 0)
    (hr : s.rootBonesOnly = false) (hb : w.bones = some bones) (ha : adjustTimes s.preserveStart s.staggerEnd bones = some bones')
    (hn : bones'.length ≤ 254) (hp : ∀ (i : ℕ) (b : Bone), bones'[i]? = some b → b.parent < i) (hc : ∀ b ∈ bones', ∀ c ∈ b.channels, c.CanExport)
    (decode : Bytes → Option FileFb) (hdec : ∀ f, Makes w s f → decode (w.encode f) = some f)
    (hdir : ∀ n, w.makesDirectory n = true) (hopen : ∀ n, w.opens n = true) (hroom : ∀ f, Makes w s f → (w.encode f).length ≤ w.room) :
    ∃ o, runAnimPipeline w s d = some o ∧ o.status = 0 ∧
      ∃ bytes f a, o.final d (w.removeExtension s.output ++ ".motiveanim") = some bytes ∧ decode bytes = some (.rig f) ∧ readRig f = some a ∧
        a.name = w.removeDirectory (w.removeExtension s.output) ∧
        List.Forall₂ (fun b s => AfterColon b.name s) bones' a.names ∧
        List.Forall₂ (fun (b : Bone) (p : ℕ) => if b.parent < 0 then p = 255 else (p : ℤ) = b.parent) bones' a.parents ∧
        List.Forall₂ (fun b m => List.Forall₂ IsChannel b.channels m.ops) bones' a.anims := by
  obtain ⟨f, a, rep, h1, h2, h3, h4, h5, h6, h7, h8, -, -⟩ :=
    C71_round_trip s.tolerances s.pref bones' (w.removeDirectory (w.removeExtension s.output)) hn hp hc
  have hm : Makes w s (.rig f) := ⟨bones, bones', hb, ha, by rw [hr]; exact h1⟩
  have hrun : runAnimPipeline w s d = some ⟨d :: writeBytes w.room d (outputName w s (.rig f)) (w.encode (.rig f)), 0⟩ := by
    unfold runAnimPipeline outputFlatBuffer
    rw [hl, if_neg (by simp), if_neg (not_le.mpr hd), hb]
    simp only
    rw [ha]
    simp only
    rw [hr, h1]
    simp [hdir, hopen, outputName]
  refine ⟨_, hrun, rfl, w.encode (.rig f), f, a, ?_, hdec _ hm, h2, h4, h6, h7, h8.imp fun _ _ h => h.2⟩
  obtain ⟨g, hg, hfin, -⟩ := C93_success hrun hd rfl hroom
  rw [makes_unique hg hm, String.append_assoc] at hfin
  exact hfin

/-- C93: at every moment of a run, finished or stopped, no file but the one that is written has changed, and that one is as before or holds the
beginning of what will be written. -/
theorem C93_stopped {w : World} {s : Settings} {d : Disk} {o : Outcome} (h : runAnimPipeline w s d = some o) {e : Disk} (he : e ∈ o.disks) :
    e = d ∨ ∃ f part, Makes w s f ∧ part <+: w.encode f ∧ e (w.removeExtension s.output ++ "." ++ extension f) = some part ∧
      ∀ n ≠ w.removeExtension s.output ++ "." ++ extension f, e n = d n := by
  rcases run_cases h with ⟨h1, rfl⟩ | ⟨h1, h2, rfl⟩ | ⟨h1, h2, h3, rfl⟩ | ⟨f, h1, h2, h3, ⟨h4, rfl⟩ | ⟨h4, h5, rfl⟩⟩
  · exact Or.inl (List.mem_singleton.mp he)
  · exact Or.inl (List.mem_singleton.mp he)
  · exact Or.inl (List.mem_singleton.mp he)
  · exact Or.inl (List.mem_singleton.mp he)
  · rcases List.mem_cons.mp he with rfl | he
    · exact Or.inl rfl
    · obtain ⟨k, -, -, rfl⟩ := writeBytes_mem he
      refine Or.inr ⟨f, (w.encode f).take k, h3, List.take_prefix _ _, by simp [Disk.put, outputName], ?_⟩
      intro n hn
      exact if_neg hn

/-- Disagreement: a run whose bytes the disk does not all take exits with status 0 all the same, and leaves a file that is cut short. -/
theorem C93_write_errors_ignored {w : World} {s : Settings} {d : Disk} {f : FileFb} (hl : w.loads = true) (hd : s.debugTime < 0) (hm : Makes w s f)
    (hdir : ∀ n, w.makesDirectory n = true) (hopen : ∀ n, w.opens n = true) (hroom : w.room < (w.encode f).length) :
    ∃ o part, runAnimPipeline w s d = some o ∧ o.status = 0 ∧ o.final d (w.removeExtension s.output ++ "." ++ extension f) = some part ∧
      part.length = w.room ∧ part ≠ w.encode f := by
  obtain ⟨bones, bones', hb, ha, hw⟩ := hm
  refine ⟨⟨d :: writeBytes w.room d (outputName w s f) (w.encode f), 0⟩, (w.encode f).take w.room, ?_, rfl, ?_, ?_, ?_⟩
  · unfold runAnimPipeline outputFlatBuffer
    rw [hl, if_neg (by simp), if_neg (not_le.mpr hd), hb]
    simp only
    rw [ha]
    simp only
    rw [hw]
    simp [hdir, hopen, outputName]
  · unfold Outcome.final
    rw [List.getLastD_cons, writeBytes_last]
    simp [Disk.put, outputName]
  · rw [List.length_take]; omega
  · intro hh
    have := congrArg List.length hh
    rw [List.length_take] at this
    omega

/-- Disagreement: replacing a file is not atomic: every successful run that writes passes through a moment at which the file of an earlier run is
lost and the new one is still empty. -/
theorem C93_not_atomic {w : World} {s : Settings} {d : Disk} {o : Outcome} (h : runAnimPipeline w s d = some o) (hd : s.debugTime < 0)
    (h0 : o.status = 0) : ∃ f, Makes w s f ∧ ∃ e ∈ o.disks, e (w.removeExtension s.output ++ "." ++ extension f) = some [] := by
  rcases run_cases h with ⟨h1, rfl⟩ | ⟨h1, h2, rfl⟩ | ⟨h1, h2, h3, rfl⟩ | ⟨f, h1, h2, h3, ⟨h4, rfl⟩ | ⟨h4, h5, rfl⟩⟩
  · simp at h0
  · omega
  · simp at h0
  · simp at h0
  · refine ⟨f, h3, _, List.mem_cons_of_mem _ (writeBytes_has (k := 0) (Nat.zero_le _) (Nat.zero_le _)), ?_⟩
    simp [Disk.put, outputName]

/-! ### The hypotheses can be met -/

/-- A scene of a single bone with a constant channel, on a disk that takes `room` bytes; names are cut at the dot and the tables are laid out in
some way, here with their number of bones. -/
def demoWorld (room : ℕ) : World where
  loads := true
  bones := some [⟨"root", -1, [⟨.translateX, 3, [⟨0, 2, 0⟩]⟩]⟩]
  removeExtension := fun n => String.ofList (n.toList.takeWhile (· ≠ '.'))
  removeDirectory := id
  directory := fun _ => "."
  encode := fun f => match f with | .rig r => [1, 2, UInt8.ofNat r.anims.length] | .list _ => [0]
  makesDirectory := fun _ => true
  opens := fun _ => true
  room := room

def demoSettings : Settings where
  output := "walk.bin"
  tolerances := ⟨1, 1, 1, 1, 1⟩
  pref := .never
  staggerEnd := false
  preserveStart := false
  rootBonesOnly := false
  debugTime := -1

def demoBones : List Bone := [⟨"root", -1, [⟨.translateX, 3, [⟨0, 2, 0⟩]⟩]⟩]

theorem demo_adjusted : adjustTimes false false demoBones = some demoBones := by
  have h1 : minAnimatedTime demoBones = 0 := rfl
  have h2 : maxAnimatedTime demoBones = 0 := rfl
  unfold adjustTimes
  simp only [Bool.false_eq_true, if_false, h1]
  rw [show inInt (-0) = some 0 from rfl]
  simp only [shiftTime, if_true, h2]
  rfl

theorem demo_exports : ∀ b ∈ demoBones, ∀ c ∈ b.channels, c.CanExport := by
  intro b hb c hc
  obtain rfl := List.mem_singleton.mp hb
  obtain rfl := List.mem_singleton.mp hc
  exact ⟨by norm_num, rfl, Or.inl rfl⟩

theorem demo_parents : ∀ (i : ℕ) (b : Bone), demoBones[i]? = some b → b.parent < i := by
  intro i b h
  rcases i with _ | i
  · obtain rfl := Option.some.inj h; norm_num
  · simp [demoBones] at h

theorem demo_makes (room : ℕ) : ∃ f, Makes (demoWorld room) demoSettings f ∧ ((demoWorld room).encode f).length = 3 := by
  obtain ⟨f, a, rep, h1, -⟩ := C71_round_trip demoSettings.tolerances .never demoBones "walk" (by decide) demo_parents demo_exports
  exact ⟨.rig f, ⟨demoBones, demoBones, rfl, demo_adjusted, h1⟩, rfl⟩

/-- The run succeeds on a disk with room: the file `walk.motiveanim` reads as the scene (with the decoder that knows this one file). -/
example : ∃ o, runAnimPipeline (demoWorld 100) demoSettings (fun _ => none) = some o ∧ o.status = 0 ∧
    o.final (fun _ => none) "walk.motiveanim" ≠ none ∧ o.final (fun _ => none) "walk.bin" = none := by
  obtain ⟨f, hf, hlen⟩ := demo_makes 100
  have hall : ∀ g, Makes (demoWorld 100) demoSettings g → g = f := fun g hg => makes_unique hg hf
  obtain ⟨o, h1, h2, bytes, g, a, h3, -⟩ := C93_reads_back (w := demoWorld 100) (s := demoSettings) (d := fun _ => none) rfl (by decide) rfl rfl
    demo_adjusted (by decide) demo_parents demo_exports (fun _ => some f) (fun g hg => by rw [hall g hg]) (fun _ => rfl) (fun _ => rfl)
    (fun g hg => by rw [hall g hg, hlen]; exact (by norm_num : 3 ≤ 100))
  have hn : (demoWorld 100).removeExtension demoSettings.output ++ ".motiveanim" = "walk.motiveanim" := by decide
  rw [hn] at h3
  refine ⟨o, h1, h2, by rw [h3]; simp, ?_⟩
  obtain ⟨k, hk, -, hrest⟩ := C93_success h1 (by decide) h2 (fun g hg => by rw [hall g hg, hlen]; exact (by norm_num : 3 ≤ 100))
  rw [hrest]
  have : (demoWorld 100).removeExtension demoSettings.output = "walk" := by decide
  rw [this]
  cases k <;> (simp only [extension]; decide)

/-- On a disk with room for one byte it succeeds as well. -/
example : ∃ o part, runAnimPipeline (demoWorld 1) demoSettings (fun _ => none) = some o ∧ o.status = 0 ∧
    o.final (fun _ => none) "walk.motiveanim" = some part ∧ part.length = 1 := by
  obtain ⟨f, hf, hlen⟩ := demo_makes 1
  obtain ⟨o, part, h1, h2, h3, h4, -⟩ := C93_write_errors_ignored (w := demoWorld 1) (s := demoSettings) (d := fun _ => none) rfl (by decide) hf
    (fun _ => rfl) (fun _ => rfl) (by rw [hlen]; exact (by norm_num : 1 < 3))
  refine ⟨o, part, h1, h2, ?_, h4⟩
  obtain ⟨f', a, rep, k1, -⟩ := C71_round_trip demoSettings.tolerances .never demoBones "walk" (by decide) demo_parents demo_exports
  have hff : f = .rig f' := makes_unique hf ⟨demoBones, demoBones, rfl, demo_adjusted, k1⟩
  rw [hff] at h3
  have hn : (demoWorld 1).removeExtension demoSettings.output ++ "." ++ extension (.rig f') = "walk.motiveanim" := by
    have : (demoWorld 1).removeExtension demoSettings.output = "walk" := by decide
    rw [this]; rfl
  rw [hn] at h3
  exact h3

end

end Motive.Pipeline.Output
