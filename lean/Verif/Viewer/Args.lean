import Mathlib.Data.Rat.Defs
import Mathlib.Algebra.Order.Ring.Rat
import Mathlib.Tactic.NormNum
import Mathlib.Tactic.SplitIfs
import Verif.Math.Angle

/-!
# The command line of the viewer (C120)

`ParseCommandLine` (src/viewer/viewer.cpp).  The functions of the C library and of fplutil that convert strings are
parameters.  Messages are not modelled.
-/

namespace Motive.Viewer.CommandLine

open Motive.Math.Angle (System)

/-! ### Model -/

/-- The conversions of strings: `atof` (`none` is "not a number"; the infinities are numbers that are too great or too
small), `atoi`, `fplutil::FileExtension` and `fplutil::RemoveExtensionFromName`. -/
structure Env where
  atof : String → Option ℚ
  atoi : String → ℤ
  extension : String → String
  base : String → String

/-- `ViewerArgs` (viewer.cpp:52-66). -/
structure Args where
  animFiles : List String := []
  meshFile : String := ""
  outFile : String := ""
  playbackRate : Option ℚ := some 1
  blendTime : Option ℚ := some 0
  boneIdx : ℤ := -1
  system : System := .XY

/-- `s[0] == '-'`; the first character of an empty string is the null character. -/
def dashed (s : String) : Bool := match s.toList with
  | [] => false
  | c :: _ => decide (c = '-')

/-- A comparison with a number is false of "not a number". -/
def holds (v : Option ℚ) (p : ℚ → Bool) : Bool := match v with
  | none => false
  | some x => p x

/-- The options (viewer.cpp:230-293): `none` if the line is refused, and otherwise the rest of the arguments, from the first
that is not an option.  `valid_value` (viewer.cpp:253) asks that the value be followed by another argument. -/
def options (env : Env) : List String → Args → Option (Args × List String)
  | [], a => some (a, [])
  | o :: rest, a =>
    if dashed o = false then some (a, o :: rest)
    else if o = "-x" ∨ o = "--x-up" then options env rest { a with system := .YZ }
    else if o = "-y" ∨ o = "--y-up" then options env rest { a with system := .XZ }
    else if o = "-z" ∨ o = "--z-up" then options env rest { a with system := .XY }
    else
      match rest with
      | v :: w :: rest =>
        if dashed v then none
        else if o = "-r" ∨ o = "--playbackrate" then
          if holds (env.atof v) (fun r => decide (r ≤ 0 ∨ 1000 < r)) then none
          else options env (w :: rest) { a with playbackRate := env.atof v }
        else if o = "-b" ∨ o = "--bone" then
          if env.atoi v < 0 ∨ 10000 < env.atoi v then none
          else options env (w :: rest) { a with boneIdx := env.atoi v }
        else if o = "-t" ∨ o = "--blend_time" then
          if holds (env.atof v) (fun t => decide (t < 0 ∨ 10000 < t)) then none
          else options env (w :: rest) { a with blendTime := env.atof v }
        else if o = "-o" ∨ o = "--out" then options env (w :: rest) { a with outFile := v }
        else options env (w :: rest) a
      | _ => none
termination_by l => l.length

/-- The names of files (viewer.cpp:296-321). -/
def files (env : Env) : List String → Args → Option Args
  | [], a => some a
  | f :: rest, a =>
    if env.extension f = "motiveanim" then
      files env rest { a with
        animFiles := a.animFiles ++ [f],
        meshFile := if a.meshFile = "" then env.base f ++ ".fplmesh" else a.meshFile,
        outFile := if a.outFile = "" then env.base f ++ ".csv" else a.outFile }
    else if env.extension f = "fplmesh" then files env rest { a with meshFile := f }
    else none

/-- `ParseCommandLine` (viewer.cpp:228-330); `params` is `argv` without the name of the program. -/
def parse (env : Env) (params : List String) : Option Args :=
  (options env params {}).bind fun p => (files env p.2 p.1).bind fun a => if a.meshFile = "" then none else some a

/-! ### Specification -/

/-- The options of the usage message (viewer.cpp:189-214). -/
inductive Opt
  | xUp | yUp | zUp
  | rate (v : String) | bone (v : String) | blendTime (v : String)
  | out (file : String)

/-- How options are written. -/
inductive Written : Opt → List String → Prop
  | x : Written .xUp ["-x"] | xUp : Written .xUp ["--x-up"]
  | y : Written .yUp ["-y"] | yUp : Written .yUp ["--y-up"]
  | z : Written .zUp ["-z"] | zUp : Written .zUp ["--z-up"]
  | r (v) : Written (.rate v) ["-r", v] | rate (v) : Written (.rate v) ["--playbackrate", v]
  | b (v) : Written (.bone v) ["-b", v] | bone (v) : Written (.bone v) ["--bone", v]
  | t (v) : Written (.blendTime v) ["-t", v] | blend (v) : Written (.blendTime v) ["--blend_time", v]
  | o (f) : Written (.out f) ["-o", f] | out (f) : Written (.out f) ["--out", f]

/-- A list of options, written one after another. -/
inductive WrittenList : List Opt → List String → Prop
  | nil : WrittenList [] []
  | cons {o w os ws} : Written o w → WrittenList os ws → WrittenList (o :: os) (w ++ ws)

/-- The values that are allowed. -/
def Opt.Ok (env : Env) : Opt → Prop
  | .rate v => dashed v = false ∧ ∃ r, env.atof v = some r ∧ 0 < r ∧ r ≤ 1000
  | .bone v => dashed v = false ∧ 0 ≤ env.atoi v ∧ env.atoi v ≤ 10000
  | .blendTime v => dashed v = false ∧ ∃ t, env.atof v = some t ∧ 0 ≤ t ∧ t ≤ 10000
  | .out f => dashed f = false
  | _ => True

/-- What an option sets. -/
def Opt.set (env : Env) (a : Args) : Opt → Args
  | .xUp => { a with system := .YZ }
  | .yUp => { a with system := .XZ }
  | .zUp => { a with system := .XY }
  | .rate v => { a with playbackRate := env.atof v }
  | .bone v => { a with boneIdx := env.atoi v }
  | .blendTime v => { a with blendTime := env.atof v }
  | .out f => { a with outFile := f }

/-- A file of an animation, and one of a mesh. -/
def IsAnim (env : Env) (f : String) : Prop := env.extension f = "motiveanim"
def IsMesh (env : Env) (f : String) : Prop := env.extension f = "fplmesh"

/-- The names of files that the usage message allows, at least one. -/
def Files (env : Env) (fs : List String) : Prop :=
  fs ≠ [] ∧ (∀ f ∈ fs, dashed f = false ∧ f ≠ "" ∧ (IsAnim env f ∨ IsMesh env f))

instance (env : Env) (f : String) : Decidable (IsAnim env f) := inferInstanceAs (Decidable (_ = _))
instance (env : Env) (f : String) : Decidable (IsMesh env f) := inferInstanceAs (Decidable (_ = _))

/-- The mesh that is shown: the last one given, or else the one named after the first animation. -/
def meshOf (env : Env) (fs : List String) : String :=
  match (fs.filter (fun f => IsMesh env f)).getLast?, (fs.filter (fun f => IsAnim env f)).head? with
  | some m, _ => m
  | none, some a => env.base a ++ ".fplmesh"
  | none, none => ""

/-- The file for the table: the one given, or else the one named after the first animation. -/
def outOf (env : Env) (given : String) (fs : List String) : String :=
  if given ≠ "" then given
  else match (fs.filter (fun f => IsAnim env f)).head? with
    | some a => env.base a ++ ".csv"
    | none => ""

/-! ### Theorems -/

theorem dashed_iff (s : String) : dashed s = true ↔ ∃ cs, s.toList = '-' :: cs := by
  unfold dashed
  cases s.toList with
  | nil => simp
  | cons c cs => simp [eq_comm]

theorem dashed_options : dashed "-x" = true ∧ dashed "--x-up" = true ∧ dashed "-y" = true ∧ dashed "--y-up" = true ∧ dashed "-z" = true ∧ dashed "--z-up" = true ∧
    dashed "-r" = true ∧ dashed "--playbackrate" = true ∧ dashed "-b" = true ∧ dashed "--bone" = true ∧
    dashed "-t" = true ∧ dashed "--blend_time" = true ∧ dashed "-o" = true ∧ dashed "--out" = true := by
  decide

theorem options_ok (env : Env) {os : List Opt} {sw : List String} (h : WrittenList os sw) (f : String) (fs : List String)
    (hf : dashed f = false) : ∀ a : Args, (∀ o ∈ os, o.Ok env) →
      options env (sw ++ f :: fs) a = some (os.foldl (Opt.set env) a, f :: fs) := by
  induction h with
  | nil => intro a _; rw [List.nil_append, options.eq_def]; simp [hf]
  | @cons o w os ws hw hws ih =>
    intro a hok
    have ho : o.Ok env := hok o (by simp)
    have hos : ∀ o ∈ os, o.Ok env := fun x hx => hok x (by simp [hx])
    obtain ⟨g, gs, hg⟩ : ∃ g gs, ws ++ f :: fs = g :: gs := by
      cases ws with
      | nil => exact ⟨f, fs, rfl⟩
      | cons g gs => exact ⟨g, gs ++ f :: fs, rfl⟩
    rw [List.foldl_cons, ← ih (Opt.set env a o) hos]
    obtain ⟨d1, d2, d3, d4, d5, d6, d7, d8, d9, d10, d11, d12, d13, d14⟩ := dashed_options
    cases hw <;> simp only [List.cons_append, List.nil_append, hg] <;> rw [options.eq_def] <;>
      simp only [Opt.Ok] at ho
    case r | rate =>
      obtain ⟨h1, r, h2, h3, h4⟩ := ho
      simp [d7, d8, h1, Opt.set, holds, h2, not_le.mpr h3, not_lt.mpr h4]
    case b | bone =>
      obtain ⟨h1, h3, h4⟩ := ho
      simp [d9, d10, h1, Opt.set, not_lt.mpr h3, not_lt.mpr h4]
    case t | blend =>
      obtain ⟨h1, r, h2, h3, h4⟩ := ho
      simp [d11, d12, h1, Opt.set, holds, h2, not_lt.mpr h3, not_lt.mpr h4]
    case o | out =>
      simp [d13, d14, ho, Opt.set]
    all_goals simp [d1, d2, d3, d4, d5, d6, Opt.set]

theorem ne_empty_append (s t : String) (h : t ≠ "") : s ++ t ≠ "" := by
  intro e
  apply h
  have := congrArg String.toList e
  rw [String.toList_append] at this
  simp at this
  exact this.2

theorem files_ok (env : Env) : ∀ (fs : List String) (a : Args),
    (∀ f ∈ fs, dashed f = false ∧ f ≠ "" ∧ (IsAnim env f ∨ IsMesh env f)) →
    files env fs a = some { a with
      animFiles := a.animFiles ++ fs.filter (fun f => IsAnim env f),
      meshFile := match (fs.filter (fun f => IsMesh env f)).getLast? with
        | some m => m
        | none => if a.meshFile ≠ "" then a.meshFile else meshOf env fs,
      outFile := outOf env a.outFile fs }
  | [], a, _ => by
    obtain ⟨af, mf, of, r, t, b, sy⟩ := a
    by_cases hm : mf = "" <;> by_cases ho : of = "" <;> simp [files, meshOf, outOf, hm, ho]
  | f :: fs, a, h => by
    obtain ⟨-, hne, hk⟩ := h f (by simp)
    have hfs := fun x hx => h x (List.mem_cons_of_mem f hx)
    by_cases ha : env.extension f = "motiveanim"
    · have hA : IsAnim env f := ha
      have hM : ¬ IsMesh env f := by unfold IsMesh; rw [ha]; decide
      rw [files, if_pos ha, files_ok env fs _ hfs]
      have e1 : env.base f ++ ".fplmesh" ≠ "" := ne_empty_append _ _ (by decide)
      have e2 : env.base f ++ ".csv" ≠ "" := ne_empty_append _ _ (by decide)
      by_cases hm : a.meshFile = "" <;> by_cases ho : a.outFile = "" <;>
        cases hl : (fs.filter (fun f => IsMesh env f)).getLast? <;>
        simp [hA, hM, hl, hm, ho, e1, e2, outOf, meshOf]
    · have hM : IsMesh env f := hk.resolve_left ha
      have hM' : env.extension f = "fplmesh" := hM
      rw [files, if_neg ha, if_pos hM', files_ok env fs _ hfs]
      have hA : ¬ IsAnim env f := ha
      cases hl : (fs.filter (fun f => IsMesh env f)).getLast? with
      | some m => simp [hA, hM, hl, outOf, List.getLast?_cons]
      | none => simp [hA, hM, hl, outOf, List.getLast?_cons, hne]

theorem fold_keeps (env : Env) (os : List Opt) : ∀ a : Args,
    (os.foldl (Opt.set env) a).animFiles = a.animFiles ∧ (os.foldl (Opt.set env) a).meshFile = a.meshFile := by
  induction os with
  | nil => intro a; exact ⟨rfl, rfl⟩
  | cons o os ih =>
    intro a
    rw [List.foldl_cons]
    obtain ⟨h1, h2⟩ := ih (Opt.set env a o)
    rw [h1, h2]
    cases o <;> exact ⟨rfl, rfl⟩

/-- **C120**: every correct command line is accepted: options with values that are allowed, then names of files.  The options
set what they say, in order, the animations are those given, in order, the mesh is the last one given or else the one named
after the first animation, and the table goes to the file given or else to the one named after the first animation. -/
theorem C120_accepts (env : Env) {os : List Opt} {sw fs : List String} (h : WrittenList os sw) (ho : ∀ o ∈ os, o.Ok env)
    (hf : Files env fs) :
    parse env (sw ++ fs) = some { os.foldl (Opt.set env) ({} : Args) with
      animFiles := fs.filter (fun f => IsAnim env f),
      meshFile := meshOf env fs,
      outFile := outOf env (os.foldl (Opt.set env) ({} : Args)).outFile fs } := by
  obtain ⟨hne, hall⟩ := hf
  obtain ⟨f, fs', rfl⟩ := List.exists_cons_of_ne_nil hne
  unfold parse
  rw [options_ok env h f fs' (hall f (by simp)).1 _ ho, Option.bind_some]
  dsimp only
  rw [files_ok env (f :: fs') _ hall, Option.bind_some]
  obtain ⟨k1, k2⟩ := fold_keeps env os ({} : Args)
  have k1' : (os.foldl (Opt.set env) ({} : Args)).animFiles = [] := k1
  have k2' : (os.foldl (Opt.set env) ({} : Args)).meshFile = "" := k2
  have hmesh : (match ((f :: fs').filter (fun f => IsMesh env f)).getLast? with
        | some m => m
        | none => if (os.foldl (Opt.set env) ({} : Args)).meshFile ≠ "" then (os.foldl (Opt.set env) ({} : Args)).meshFile
          else meshOf env (f :: fs')) = meshOf env (f :: fs') := by
    rw [k2']
    cases hl : ((f :: fs').filter (fun f => IsMesh env f)).getLast? with
    | some m => simp [meshOf, hl]
    | none => simp
  have hnonempty : meshOf env (f :: fs') ≠ "" := by
    unfold meshOf
    cases hl : ((f :: fs').filter (fun f => IsMesh env f)).getLast? with
    | some m =>
      have : m ∈ (f :: fs').filter (fun f => IsMesh env f) := List.mem_of_getLast? hl
      exact (hall m (List.mem_of_mem_filter this)).2.1
    | none =>
      cases hh : ((f :: fs').filter (fun f => IsAnim env f)).head? with
      | some x => exact ne_empty_append _ _ (by decide)
      | none =>
        exfalso
        have n1 : (f :: fs').filter (fun f => IsMesh env f) = [] := List.getLast?_eq_none_iff.mp hl
        have n2 : (f :: fs').filter (fun f => IsAnim env f) = [] := List.head?_eq_none_iff.mp hh
        rw [List.filter_eq_nil_iff] at n1 n2
        rcases (hall f (by simp)).2.2 with hk | hk
        · exact n2 f (by simp) (by simpa using hk)
        · exact n1 f (by simp) (by simpa using hk)
  rw [hmesh, k1', List.nil_append, if_neg hnonempty]

/-- What an accepted line guarantees of the values. -/
structure Safe (a : Args) : Prop where
  rate : ∀ r, a.playbackRate = some r → 0 < r ∧ r ≤ 1000
  blend : ∀ t, a.blendTime = some t → 0 ≤ t ∧ t ≤ 10000
  bone : -1 ≤ a.boneIdx ∧ a.boneIdx ≤ 10000
  system : a.system = .XY ∨ a.system = .XZ ∨ a.system = .YZ

theorem options_safe (env : Env) : ∀ (n : ℕ) (l : List String), l.length = n → ∀ (a : Args) (p : Args × List String), Safe a →
    options env l a = some p → Safe p.1 := by
  intro n
  induction n using Nat.strong_induction_on with
  | _ n ih =>
    intro l hl a p ha h
    rcases l with _ | ⟨o, rest⟩
    · rw [options.eq_def] at h; cases h; exact ha
    · have h1 : ∀ b : Args, Safe b → options env rest b = some p → Safe p.1 :=
        fun b hb hp => ih rest.length (by simp at hl; omega) rest rfl b p hb hp
      rw [options.eq_def] at h
      dsimp only at h
      by_cases c : dashed o = false
      · rw [if_pos c] at h; cases h; exact ha
      rw [if_neg c] at h; clear c
      by_cases c : o = "-x" ∨ o = "--x-up"
      · rw [if_pos c] at h; refine h1 _ ?_ h; exact ⟨ha.rate, ha.blend, ha.bone, Or.inr (Or.inr rfl)⟩
      rw [if_neg c] at h; clear c
      by_cases c : o = "-y" ∨ o = "--y-up"
      · rw [if_pos c] at h; refine h1 _ ?_ h; exact ⟨ha.rate, ha.blend, ha.bone, Or.inr (Or.inl rfl)⟩
      rw [if_neg c] at h; clear c
      by_cases c : o = "-z" ∨ o = "--z-up"
      · rw [if_pos c] at h; refine h1 _ ?_ h; exact ⟨ha.rate, ha.blend, ha.bone, Or.inl rfl⟩
      rw [if_neg c] at h; clear c
      rcases rest with _ | ⟨v, _ | ⟨w, rest'⟩⟩
      · cases h
      · cases h
      have h2 : ∀ b : Args, Safe b → options env (w :: rest') b = some p → Safe p.1 :=
        fun b hb hp => ih (w :: rest').length (by simp at hl ⊢; omega) _ rfl b p hb hp
      dsimp only at h
      by_cases c : dashed v = true
      · rw [if_pos c] at h; cases h
      rw [if_neg c] at h; clear c
      by_cases c : o = "-r" ∨ o = "--playbackrate"
      · rw [if_pos c] at h
        by_cases g : (holds (env.atof v) fun r => decide (r ≤ 0 ∨ 1000 < r)) = true
        · rw [if_pos g] at h; cases h
        rw [if_neg g] at h
        refine h2 _ ?_ h
        refine ⟨fun r hr => ?_, ha.blend, ha.bone, ha.system⟩
        change env.atof v = some r at hr
        rw [hr] at g
        simp only [holds, decide_eq_true_eq, not_or, not_le, not_lt] at g
        exact g
      rw [if_neg c] at h; clear c
      by_cases c : o = "-b" ∨ o = "--bone"
      · rw [if_pos c] at h
        by_cases g : env.atoi v < 0 ∨ 10000 < env.atoi v
        · rw [if_pos g] at h; cases h
        rw [if_neg g] at h
        refine h2 _ ?_ h
        push Not at g
        exact ⟨ha.rate, ha.blend, ⟨by show -1 ≤ env.atoi v; omega, g.2⟩, ha.system⟩
      rw [if_neg c] at h; clear c
      by_cases c : o = "-t" ∨ o = "--blend_time"
      · rw [if_pos c] at h
        by_cases g : (holds (env.atof v) fun t => decide (t < 0 ∨ 10000 < t)) = true
        · rw [if_pos g] at h; cases h
        rw [if_neg g] at h
        refine h2 _ ?_ h
        refine ⟨ha.rate, fun r hr => ?_, ha.bone, ha.system⟩
        change env.atof v = some r at hr
        rw [hr] at g
        simp only [holds, decide_eq_true_eq, not_or, not_lt] at g
        exact g
      rw [if_neg c] at h; clear c
      by_cases c : o = "-o" ∨ o = "--out"
      · rw [if_pos c] at h; refine h2 _ ?_ h; exact ⟨ha.rate, ha.blend, ha.bone, ha.system⟩
      rw [if_neg c] at h
      exact h2 _ ha h

theorem files_safe (env : Env) : ∀ (fs : List String) (a b : Args), Safe a → files env fs a = some b → Safe b
  | [], a, b, ha, h => by rw [files] at h; cases h; exact ha
  | f :: fs, a, b, ha, h => by
    rw [files] at h
    by_cases c : env.extension f = "motiveanim"
    · rw [if_pos c] at h; refine files_safe env fs _ b ?_ h; exact ⟨ha.rate, ha.blend, ha.bone, ha.system⟩
    rw [if_neg c] at h; clear c
    by_cases c : env.extension f = "fplmesh"
    · rw [if_pos c] at h; refine files_safe env fs _ b ?_ h; exact ⟨ha.rate, ha.blend, ha.bone, ha.system⟩
    rw [if_neg c] at h; cases h

/-- **C120**: whatever the command line, if it is accepted there is a mesh to show, and the values are in their limits, unless
they are not numbers. -/
theorem C120_safe (env : Env) (params : List String) (a : Args) (h : parse env params = some a) :
    a.meshFile ≠ "" ∧ Safe a := by
  unfold parse at h
  obtain ⟨p, h1, h⟩ := Option.bind_eq_some_iff.mp h
  obtain ⟨b, h2, h⟩ := Option.bind_eq_some_iff.mp h
  split_ifs at h with hm
  cases h
  refine ⟨hm, files_safe env _ _ _ (options_safe env _ params rfl _ _ ?_ h1) h2⟩
  refine ⟨fun r hr => ?_, fun t ht => ?_, by decide, by simp⟩
  · cases hr; norm_num
  · cases ht; norm_num

/-- **C120**: a line is refused if it is empty, or if a file after its options is neither an
animation nor a mesh. -/
theorem C120_refuses (env : Env) {os : List Opt} {sw : List String} (h : WrittenList os sw) (ho : ∀ o ∈ os, o.Ok env)
    (f : String) (fs : List String) (hf : dashed f = false) (hbad : ∃ g ∈ f :: fs, ¬ IsAnim env g ∧ ¬ IsMesh env g) :
    parse env [] = none ∧ parse env (sw ++ f :: fs) = none := by
  constructor
  · rw [parse, options.eq_def]; simp [files]
  · have key : ∀ (l : List String) (a : Args), (∃ g ∈ l, ¬ IsAnim env g ∧ ¬ IsMesh env g) → files env l a = none := by
      intro l
      induction l with
      | nil => intro a hg; simp at hg
      | cons x l ih =>
        intro a hg
        rw [files]
        by_cases hx : ¬ IsAnim env x ∧ ¬ IsMesh env x
        · unfold IsAnim IsMesh at hx
          rw [if_neg hx.1, if_neg hx.2]
        · have hg' : ∃ g ∈ l, ¬ IsAnim env g ∧ ¬ IsMesh env g := by
            obtain ⟨g, hg1, hg2⟩ := hg
            rcases List.mem_cons.mp hg1 with rfl | hg1
            · exact absurd hg2 hx
            · exact ⟨g, hg1, hg2⟩
          by_cases c : env.extension x = "motiveanim"
          · rw [if_pos c]; exact ih _ hg'
          rw [if_neg c]; clear c
          by_cases c : env.extension x = "fplmesh"
          · rw [if_pos c]; exact ih _ hg'
          rw [if_neg c]
    unfold parse
    rw [options_ok env h f fs hf _ ho, Option.bind_some]
    dsimp only
    rw [key _ _ hbad, Option.bind_none]

/-! ### What goes wrong -/

/-- An unknown option is not refused: it and the argument after it are ignored, even if that is the name of a file. -/
theorem C120_unknown_option (env : Env) (o v w : String) (rest : List String) (a : Args) (ho : dashed o = true)
    (hk : o ∉ ["-x", "--x-up", "-y", "--y-up", "-z", "--z-up", "-r", "--playbackrate", "-b", "--bone", "-t", "--blend_time",
      "-o", "--out"]) (hv : dashed v = false) :
    options env (o :: v :: w :: rest) a = options env (w :: rest) a := by
  simp only [List.mem_cons, List.not_mem_nil, or_false, not_or] at hk
  obtain ⟨k1, k2, k3, k4, k5, k6, k7, k8, k9, k10, k11, k12, k13, k14⟩ := hk
  rw [options.eq_def]
  simp [ho, hv, k1, k2, k3, k4, k5, k6, k7, k8, k9, k10, k11, k12, k13, k14]

/-- Conversions for the examples: two names of files are known, and "nan" is not a number. -/
def sample : Env :=
  { atof := fun s => if s = "nan" then none else if s = "2" then some 2 else some 0
    atoi := fun s => if s = "3" then 3 else 0
    extension := fun s => if s = "walk.motiveanim" then "motiveanim" else if s = "man.fplmesh" then "fplmesh" else ""
    base := fun s => if s = "walk.motiveanim" then "walk" else s }

/-- The usage message documents `-f FRAMES_PER_SECOND`, which does not exist and is ignored; so is the animation after a
misspelt option. -/
theorem C120_unknown_option_witness :
    (parse sample ["-f", "30", "walk.motiveanim"]).isSome ∧
      (parse sample ["-loop", "walk.motiveanim", "man.fplmesh"]).map (·.animFiles) = some [] := by
  constructor
  · rw [parse, C120_unknown_option _ _ _ _ _ _ (by decide) (by decide) (by decide), options.eq_def]
    simp [dashed, files, sample]
  · rw [parse, C120_unknown_option _ _ _ _ _ _ (by decide) (by decide) (by decide), options.eq_def]
    simp [dashed, files, sample]

/-- A rate that is not a number passes the check of its limits. -/
theorem C120_nan_rate : (parse sample ["-r", "nan", "walk.motiveanim"]).map (·.playbackRate) = some none := by
  rw [parse, options.eq_def]
  simp only [dashed]
  simp [sample, holds]
  rw [options.eq_def]
  simp [dashed, files]

/-- An animation at twice its speed, with a mesh of another name, the y axis up. -/
example : ∃ a, parse sample ["-y", "-r", "2", "-b", "3", "walk.motiveanim", "man.fplmesh"] = some a ∧
    a.animFiles = ["walk.motiveanim"] ∧ a.meshFile = "man.fplmesh" ∧ a.outFile = "walk.csv" ∧ a.playbackRate = some 2 ∧
    a.boneIdx = 3 ∧ a.system = .XZ := by
  have h : WrittenList [.yUp, .rate "2", .bone "3"] ["-y", "-r", "2", "-b", "3"] :=
    .cons .y (.cons (.r _) (.cons (.b _) .nil))
  refine ⟨_, C120_accepts sample h ?_ (fs := ["walk.motiveanim", "man.fplmesh"]) ?_, ?_⟩
  · intro o ho
    simp only [List.mem_cons, List.not_mem_nil, or_false] at ho
    rcases ho with rfl | rfl | rfl
    · trivial
    · exact ⟨by decide, 2, by simp [sample], by norm_num, by norm_num⟩
    · refine ⟨by decide, ?_, ?_⟩ <;> simp [sample]
  · refine ⟨by simp, ?_⟩
    intro f hf
    simp only [List.mem_cons, List.not_mem_nil, or_false] at hf
    rcases hf with rfl | rfl
    · exact ⟨by decide, by decide, Or.inl (by simp [IsAnim, sample])⟩
    · exact ⟨by decide, by decide, Or.inr (by simp [IsMesh, sample])⟩
  · simp [IsAnim, IsMesh, sample, meshOf, outOf, Opt.set]

end Motive.Viewer.CommandLine
