import Mathlib.Data.List.Perm.Basic
import Mathlib.Data.Rat.Defs
import Mathlib.Algebra.Order.Ring.Rat
import Mathlib.Tactic.NormNum
import Verif.Pipeline.Repeat

/-!
# The command line of the animation pipeline (C87)

`ParseAnimPipelineArgs` (src/anim_pipeline/anim_pipeline_main.cpp).  The functions of the C library and of fplutil that
convert strings are parameters.  Messages are not modelled.
-/

namespace Motive.Pipeline.CommandLine

open Motive.Pipeline (RepeatPreference)

/-! ### Model -/

/-- The conversions of strings that the parser calls: `atof`, `atoi`, `AxisSystemFromName` (negative if unknown),
`DistanceUnitFromName` (not positive if unknown), `RemoveExtensionFromName`, and degrees to radians. -/
structure Env where
  atof : String → ℚ
  atoi : String → ℤ
  axes : String → ℤ
  unit : String → ℚ
  base : String → String
  radians : ℚ → ℚ

inductive LogLevel | verbose | info | important | warning
  deriving DecidableEq

/-- `AnimPipelineArgs` (anim_pipeline.h:47-62); of `Tolerances` the members that can be set. -/
structure Args where
  fbxFile : String
  outputFile : String
  logLevel : LogLevel
  scale : ℚ
  rotate : ℚ
  translate : ℚ
  derivativeAngle : ℚ
  repeatPreference : RepeatPreference
  staggerEndTimes : Bool
  preserveStartTime : Bool
  rootBonesOnly : Bool
  noUniformScale : Bool
  axisSystem : ℤ
  unitScale : ℚ
  debugTime : ℤ

/-- The switches (anim_pipeline_main.cpp:151-291), from one to the end of the list, which excludes the program's name and the
last parameter.  The flag is `valid_args`.  `i++` is a second element taken from the list. -/
def switches (env : Env) : List String → Args × Bool → Args × Bool
  | [], s => s
  | arg :: rest, (args, valid) =>
    if arg = "-v" ∨ arg = "--verbose" then switches env rest ({ args with logLevel := .verbose }, valid)
    else if arg = "-d" ∨ arg = "--details" then switches env rest ({ args with logLevel := .important }, valid)
    else if arg = "-i" ∨ arg = "--info" then switches env rest ({ args with logLevel := .info }, valid)
    else if arg = "-o" ∨ arg = "--out" then
      match rest with
      | v :: rest => switches env rest ({ args with outputFile := v }, valid)
      | [] => (args, false)
    else if arg = "-st" ∨ arg = "--scale" then
      match rest with
      | v :: rest => switches env rest ({ args with scale := env.atof v }, if env.atof v ≤ 0 then false else valid)
      | [] => (args, false)
    else if arg = "-rt" ∨ arg = "--rotate" then
      match rest with
      | v :: rest =>
        if env.atof v ≤ 0 ∨ 180 < env.atof v then switches env (v :: rest) (args, false)
        else switches env rest ({ args with rotate := env.radians (env.atof v) }, valid)
      | [] => (args, false)
    else if arg = "-tt" ∨ arg = "--translate" then
      match rest with
      | v :: rest => switches env rest ({ args with translate := env.atof v }, if env.atof v ≤ 0 then false else valid)
      | [] => (args, false)
    else if arg = "-at" ∨ arg = "--angle" then
      match rest with
      | v :: rest =>
        if env.atof v ≤ 0 ∨ 90 < env.atof v then switches env rest (args, false)
        else switches env rest ({ args with derivativeAngle := env.radians (env.atof v) }, valid)
      | [] => (args, false)
    else if arg = "--repeat" ∨ arg = "--norepeat" then
      let pref := if arg = "--repeat" then RepeatPreference.always else RepeatPreference.never
      if args.repeatPreference ≠ .ifRepeatable ∧ args.repeatPreference ≠ pref then switches env rest (args, false)
      else switches env rest ({ args with repeatPreference := pref }, valid)
    else if arg = "--nouniformscale" then switches env rest ({ args with noUniformScale := true }, valid)
    else if arg = "--stagger" ∨ arg = "--stagger_end_times" then
      switches env rest ({ args with staggerEndTimes := true }, valid)
    else if arg = "--start" ∨ arg = "--preserve_start_time" then
      switches env rest ({ args with preserveStartTime := true }, valid)
    else if arg = "-a" ∨ arg = "--axes" then
      match rest with
      | v :: rest => switches env rest ({ args with axisSystem := env.axes v }, decide (0 ≤ env.axes v))
      | [] => (args, false)
    else if arg = "-u" ∨ arg = "--unit" then
      match rest with
      | v :: rest => switches env rest ({ args with unitScale := env.unit v }, decide (0 < env.unit v))
      | [] => (args, false)
    else if arg = "--roots" ∨ arg = "--root_bones_only" then
      switches env rest ({ args with rootBonesOnly := true }, valid)
    else if arg = "--debug_time" then
      match rest with
      | v :: rest =>
        switches env rest ({ args with debugTime := env.atoi v, logLevel := .info }, if env.atoi v < 0 then false else valid)
      | [] => (args, false)
    else switches env rest (args, false)
termination_by l => l.length

/-- Is the name of the input file acceptable (anim_pipeline_main.cpp:144-148)? -/
def validFile (file : String) : Bool := match file.toList with
  | [] => false
  | c :: _ => decide (c ≠ '-')

/-- `ParseAnimPipelineArgs` (anim_pipeline_main.cpp:127-292): `params` is `argv` without the name of the program, and `d` the
arguments as constructed (anim_pipeline.cpp:565-576). -/
def parse (env : Env) (d : Args) (params : List String) : Args × Bool :=
  match params.getLast? with
  | none => switches env [] (d, false)
  | some file =>
    switches env params.dropLast
      ({ d with fbxFile := file, outputFile := env.base file ++ "." ++ "motiveanim" }, validFile file)

/-! ### Specification -/

/-- The options of the usage message. -/
inductive Opt
  | verbose | details | info
  | out (file : String)
  | scale (v : String) | rotate (v : String) | translate (v : String) | angle (v : String)
  | repeats | norepeats
  | nouniformscale | stagger | start
  | axes (v : String) | unit (v : String)
  | roots
  | debugTime (v : String)
  deriving DecidableEq

/-- How options are written. -/
inductive Written : Opt → List String → Prop
  | v : Written .verbose ["-v"] | verbose : Written .verbose ["--verbose"]
  | d : Written .details ["-d"] | details : Written .details ["--details"]
  | i : Written .info ["-i"] | info : Written .info ["--info"]
  | o (f) : Written (.out f) ["-o", f] | out (f) : Written (.out f) ["--out", f]
  | st (x) : Written (.scale x) ["-st", x] | scale (x) : Written (.scale x) ["--scale", x]
  | rt (x) : Written (.rotate x) ["-rt", x] | rotate (x) : Written (.rotate x) ["--rotate", x]
  | tt (x) : Written (.translate x) ["-tt", x] | translate (x) : Written (.translate x) ["--translate", x]
  | at (x) : Written (.angle x) ["-at", x] | angle (x) : Written (.angle x) ["--angle", x]
  | repeats : Written .repeats ["--repeat"]
  | norepeats : Written .norepeats ["--norepeat"]
  | nouniformscale : Written .nouniformscale ["--nouniformscale"]
  | stagger : Written .stagger ["--stagger"] | staggerEndTimes : Written .stagger ["--stagger_end_times"]
  | start : Written .start ["--start"] | preserve : Written .start ["--preserve_start_time"]
  | a (x) : Written (.axes x) ["-a", x] | axes (x) : Written (.axes x) ["--axes", x]
  | u (x) : Written (.unit x) ["-u", x] | unit (x) : Written (.unit x) ["--unit", x]
  | roots : Written .roots ["--roots"] | rootBones : Written .roots ["--root_bones_only"]
  | debugTime (x) : Written (.debugTime x) ["--debug_time", x]

/-- A list of options, written one after another. -/
inductive WrittenList : List Opt → List String → Prop
  | nil : WrittenList [] []
  | cons {o w os ws} : Written o w → WrittenList os ws → WrittenList (o :: os) (w ++ ws)

/-- The values that the usage message allows. -/
def Opt.Ok (env : Env) : Opt → Prop
  | .scale v | .translate v => 0 < env.atof v
  | .rotate v => 0 < env.atof v ∧ env.atof v ≤ 180
  | .angle v => 0 < env.atof v ∧ env.atof v ≤ 90
  | .axes v => 0 ≤ env.axes v
  | .unit v => 0 < env.unit v
  | .debugTime v => 0 ≤ env.atoi v
  | _ => True

/-- What an option sets. -/
def Opt.set (env : Env) (a : Args) : Opt → Args
  | .verbose => { a with logLevel := .verbose }
  | .details => { a with logLevel := .important }
  | .info => { a with logLevel := .info }
  | .out f => { a with outputFile := f }
  | .scale v => { a with scale := env.atof v }
  | .rotate v => { a with rotate := env.radians (env.atof v) }
  | .translate v => { a with translate := env.atof v }
  | .angle v => { a with derivativeAngle := env.radians (env.atof v) }
  | .repeats => { a with repeatPreference := .always }
  | .norepeats => { a with repeatPreference := .never }
  | .nouniformscale => { a with noUniformScale := true }
  | .stagger => { a with staggerEndTimes := true }
  | .start => { a with preserveStartTime := true }
  | .axes v => { a with axisSystem := env.axes v }
  | .unit v => { a with unitScale := env.unit v }
  | .roots => { a with rootBonesOnly := true }
  | .debugTime v => { a with debugTime := env.atoi v, logLevel := .info }

/-- `sw` is a correct list of switches with the meaning `os`: values are allowed, and repeating is not both asked for and
forbidden. -/
def Correct (env : Env) (os : List Opt) (sw : List String) : Prop :=
  WrittenList os sw ∧ (∀ o ∈ os, o.Ok env) ∧ ¬ (.repeats ∈ os ∧ .norepeats ∈ os)

/-- A name of a file is a string that does not begin with a dash. -/
def FileName (file : String) : Prop := ∃ c cs, file.toList = c :: cs ∧ c ≠ '-'

/-! ### Theorems -/

theorem validFile_iff (file : String) : validFile file = true ↔ FileName file := by
  unfold validFile FileName
  cases h : file.toList with
  | nil => simp
  | cons c cs => simp

/-- The options that are left do not contradict what has been set. -/
def Compatible (a : Args) (os : List Opt) : Prop :=
  (a.repeatPreference = .always → .norepeats ∉ os) ∧ (a.repeatPreference = .never → .repeats ∉ os) ∧
    ¬ (.repeats ∈ os ∧ .norepeats ∈ os)

theorem switches_ok (env : Env) {os : List Opt} {sw : List String} (h : WrittenList os sw) :
    ∀ a : Args, (∀ o ∈ os, o.Ok env) → Compatible a os →
      switches env sw (a, true) = (os.foldl (Opt.set env) a, true) := by
  induction h with
  | nil => intro a _ _; rw [switches]; rfl
  | @cons o w os ws hw _ ih =>
    intro a hok hc
    have ho : o.Ok env := hok o (by simp)
    have hos : ∀ o ∈ os, o.Ok env := fun x hx => hok x (by simp [hx])
    obtain ⟨c1, c2, c3⟩ := hc
    have hcs : ∀ b : Args, b.repeatPreference = a.repeatPreference → Compatible b os := by
      intro b hb
      refine ⟨fun h => ?_, fun h => ?_, fun h => c3 ⟨by simp [h.1], by simp [h.2]⟩⟩
      · have := c1 (hb ▸ h); simp at this; exact this.2
      · have := c2 (hb ▸ h); simp at this; exact this.2
    cases hw <;> simp only [List.cons_append, List.nil_append, List.foldl_cons] <;> rw [switches.eq_def]
    case repeats =>
      have hr : a.repeatPreference ≠ .never := fun h => c2 h (by simp)
      have hn : Opt.norepeats ∉ os := fun h => c3 ⟨by simp, by simp [h]⟩
      rw [ih (Opt.set env a .repeats) hos ⟨fun _ => hn, fun h => by simp [Opt.set] at h, fun h => hn h.2⟩ |>.symm]
      cases hp : a.repeatPreference <;> simp [Opt.set, hp] at hr ⊢
    case norepeats =>
      have hr : a.repeatPreference ≠ .always := fun h => c1 h (by simp)
      have hn : Opt.repeats ∉ os := fun h => c3 ⟨by simp [h], by simp⟩
      rw [ih (Opt.set env a .norepeats) hos ⟨fun h => by simp [Opt.set] at h, fun _ => hn, fun h => hn h.1⟩ |>.symm]
      cases hp : a.repeatPreference <;> simp [Opt.set, hp] at hr ⊢
    all_goals
      rw [← ih (Opt.set env a _) hos (hcs _ rfl)]
      simp only [Opt.Ok] at ho
      simp [Opt.set, ho, not_le.mpr, not_lt.mpr]

/-- **C87**: every correct command line is accepted, and sets what its options say, in order, on top of the defaults and of
the names of the files. -/
theorem C87_accepts (env : Env) (d : Args) (hd : d.repeatPreference = .ifRepeatable) {os : List Opt} {sw : List String}
    {file : String} (h : Correct env os sw) (hf : FileName file) :
    parse env d (sw ++ [file]) = (os.foldl (Opt.set env)
      { d with fbxFile := file, outputFile := env.base file ++ "." ++ "motiveanim" }, true) := by
  unfold parse
  rw [List.getLast?_concat, List.dropLast_concat]
  dsimp only
  rw [(validFile_iff file).mpr hf]
  exact switches_ok env h.1 _ h.2.1 ⟨fun h => by simp [hd] at h, fun h => by simp [hd] at h, h.2.2⟩

/-- The switches that set `valid_args` without regard to its former value. -/
def Forgives (s : String) : Prop := s = "-a" ∨ s = "--axes" ∨ s = "-u" ∨ s = "--unit"

theorem switches_false (env : Env) : ∀ (n : ℕ) (sw : List String), sw.length = n → (∀ s ∈ sw, ¬ Forgives s) → ∀ a : Args,
    (switches env sw (a, false)).2 = false := by
  intro n
  induction n using Nat.strong_induction_on with
  | _ n ih =>
    intro sw hl hn a
    rcases sw with _ | ⟨arg, rest⟩
    · rw [switches]
    · have hr : ∀ s ∈ rest, ¬ Forgives s := fun s hs => hn s (by simp [hs])
      have ha := hn arg (by simp)
      have h1 : ∀ b : Args, (switches env rest (b, false)).2 = false := by
        intro b
        exact ih rest.length (by simp at hl; omega) rest rfl hr b
      have h2 : ∀ v rest', rest = v :: rest' → ∀ b : Args, (switches env rest' (b, false)).2 = false := by
        rintro v rest' rfl b
        exact ih rest'.length (by simp at hl; omega) rest' rfl (fun s hs => hr s (by simp [hs])) b
      unfold Forgives at ha
      push Not at ha
      rw [switches.eq_def]
      dsimp only
      by_cases c : arg = "-v" ∨ arg = "--verbose"
      · rw [if_pos c]; exact h1 _
      rw [if_neg c]; clear c
      by_cases c : arg = "-d" ∨ arg = "--details"
      · rw [if_pos c]; exact h1 _
      rw [if_neg c]; clear c
      by_cases c : arg = "-i" ∨ arg = "--info"
      · rw [if_pos c]; exact h1 _
      rw [if_neg c]; clear c
      by_cases c : arg = "-o" ∨ arg = "--out"
      · rw [if_pos c]
        rcases rest with _ | ⟨v, rest'⟩
        · rfl
        · exact h2 _ _ rfl _
      rw [if_neg c]; clear c
      by_cases c : arg = "-st" ∨ arg = "--scale"
      · rw [if_pos c]
        rcases rest with _ | ⟨v, rest'⟩
        · rfl
        · dsimp only; rw [ite_self]; exact h2 _ _ rfl _
      rw [if_neg c]; clear c
      by_cases c : arg = "-rt" ∨ arg = "--rotate"
      · rw [if_pos c]
        rcases rest with _ | ⟨v, rest'⟩
        · rfl
        · dsimp only; split_ifs
          · exact h1 _
          · exact h2 _ _ rfl _
      rw [if_neg c]; clear c
      by_cases c : arg = "-tt" ∨ arg = "--translate"
      · rw [if_pos c]
        rcases rest with _ | ⟨v, rest'⟩
        · rfl
        · dsimp only; rw [ite_self]; exact h2 _ _ rfl _
      rw [if_neg c]; clear c
      by_cases c : arg = "-at" ∨ arg = "--angle"
      · rw [if_pos c]
        rcases rest with _ | ⟨v, rest'⟩
        · rfl
        · dsimp only; split_ifs <;> exact h2 _ _ rfl _
      rw [if_neg c]; clear c
      by_cases c : arg = "--repeat" ∨ arg = "--norepeat"
      · rw [if_pos c]; split_ifs <;> exact h1 _
      rw [if_neg c]; clear c
      by_cases c : arg = "--nouniformscale"
      · rw [if_pos c]; exact h1 _
      rw [if_neg c]; clear c
      by_cases c : arg = "--stagger" ∨ arg = "--stagger_end_times"
      · rw [if_pos c]; exact h1 _
      rw [if_neg c]; clear c
      by_cases c : arg = "--start" ∨ arg = "--preserve_start_time"
      · rw [if_pos c]; exact h1 _
      rw [if_neg c]; clear c
      by_cases c : arg = "-a" ∨ arg = "--axes"
      · exact absurd c (by simp [ha])
      rw [if_neg c]; clear c
      by_cases c : arg = "-u" ∨ arg = "--unit"
      · exact absurd c (by simp [ha])
      rw [if_neg c]; clear c
      by_cases c : arg = "--roots" ∨ arg = "--root_bones_only"
      · rw [if_pos c]; exact h1 _
      rw [if_neg c]; clear c
      by_cases c : arg = "--debug_time"
      · rw [if_pos c]
        rcases rest with _ | ⟨v, rest'⟩
        · rfl
        · dsimp only; rw [ite_self]; exact h2 _ _ rfl _
      rw [if_neg c]; clear c
      exact h1 _

theorem switches_true (env : Env) : ∀ (n : ℕ) (sw : List String), sw.length = n → (∀ s ∈ sw, ¬ Forgives s) → ∀ a : Args,
    (switches env sw (a, true)).2 = true → ∃ os, WrittenList os sw ∧ (∀ o ∈ os, o.Ok env) ∧ Compatible a os := by
  intro n
  induction n using Nat.strong_induction_on with
  | _ n ih =>
    intro sw hl hn a
    rcases sw with _ | ⟨arg, rest⟩
    · intro _
      exact ⟨[], .nil, by simp, by simp [Compatible]⟩
    have hr : ∀ s ∈ rest, ¬ Forgives s := fun s hs => hn s (by simp [hs])
    have ha := hn arg (by simp)
    have hfalse : ∀ b : Args, (switches env rest (b, false)).2 = false := switches_false env _ rest rfl hr
    -- one option with the meaning `o` written as `w`, followed by `ws`
    have key : ∀ (o : Opt) (w ws : List String), Written o w → arg :: rest = w ++ ws → o.Ok env → w ≠ [] →
        (o = .repeats → a.repeatPreference ≠ .never) → (o = .norepeats → a.repeatPreference ≠ .always) →
        (switches env ws (Opt.set env a o, true)).2 = true →
        ∃ os, WrittenList os (arg :: rest) ∧ (∀ o ∈ os, o.Ok env) ∧ Compatible a os := by
      intro o w ws hw he hok hne h3 h4 hs
      have hlen : ws.length < n := by
        rw [← hl, he, List.length_append]
        have := List.length_pos_of_ne_nil hne
        omega
      obtain ⟨os, i1, i2, i3, i4, i5⟩ := ih ws.length hlen ws rfl
        (fun s hs => hn s (by rw [he]; simp [hs])) _ hs
      refine ⟨o :: os, by rw [he]; exact .cons hw i1, ?_, ?_, ?_, ?_⟩
      · intro x hx
        rcases List.mem_cons.mp hx with rfl | hx
        · exact hok
        · exact i2 x hx
      · intro hp hx
        rcases List.mem_cons.mp hx with e | hx
        · exact h4 e.symm hp
        · refine i3 ?_ hx
          cases o <;> simp_all [Opt.set]
      · intro hp hx
        rcases List.mem_cons.mp hx with e | hx
        · exact h3 e.symm hp
        · refine i4 ?_ hx
          cases o <;> simp_all [Opt.set]
      · rintro ⟨hx, hy⟩
        rcases List.mem_cons.mp hx with e | hx' <;> rcases List.mem_cons.mp hy with e' | hy'
        · rw [← e] at e'; exact absurd e' (by simp)
        · subst e; exact i3 (by simp [Opt.set]) hy'
        · subst e'; exact i4 (by simp [Opt.set]) hx'
        · exact i5 ⟨hx', hy'⟩
    unfold Forgives at ha
    push Not at ha
    rw [switches.eq_def]
    dsimp only
    by_cases c : arg = "-v" ∨ arg = "--verbose"
    · rw [if_pos c]
      intro hs
      rcases c with rfl | rfl
      · exact key .verbose _ rest .v rfl trivial (by simp) (by simp) (by simp) hs
      · exact key .verbose _ rest .verbose rfl trivial (by simp) (by simp) (by simp) hs
    rw [if_neg c]; clear c
    by_cases c : arg = "-d" ∨ arg = "--details"
    · rw [if_pos c]
      intro hs
      rcases c with rfl | rfl
      · exact key .details _ rest .d rfl trivial (by simp) (by simp) (by simp) hs
      · exact key .details _ rest .details rfl trivial (by simp) (by simp) (by simp) hs
    rw [if_neg c]; clear c
    by_cases c : arg = "-i" ∨ arg = "--info"
    · rw [if_pos c]
      intro hs
      rcases c with rfl | rfl
      · exact key .info _ rest .i rfl trivial (by simp) (by simp) (by simp) hs
      · exact key .info _ rest .info rfl trivial (by simp) (by simp) (by simp) hs
    rw [if_neg c]; clear c
    by_cases c : arg = "-o" ∨ arg = "--out"
    · rw [if_pos c]
      rcases rest with _ | ⟨v, rest'⟩
      · intro hs; exact absurd hs (by simp)
      have hfalse' : ∀ b : Args, (switches env rest' (b, false)).2 = false :=
        switches_false env _ rest' rfl (fun s hs => hr s (by simp [hs]))
      dsimp only
      intro hs
      rcases c with rfl | rfl
      · exact key (.out v) _ rest' (.o v) rfl trivial (by simp) (by simp) (by simp) hs
      · exact key (.out v) _ rest' (.out v) rfl trivial (by simp) (by simp) (by simp) hs
    rw [if_neg c]; clear c
    by_cases c : arg = "-st" ∨ arg = "--scale"
    · rw [if_pos c]
      rcases rest with _ | ⟨v, rest'⟩
      · intro hs; exact absurd hs (by simp)
      have hfalse' : ∀ b : Args, (switches env rest' (b, false)).2 = false :=
        switches_false env _ rest' rfl (fun s hs => hr s (by simp [hs]))
      dsimp only
      intro hs
      by_cases c2 : env.atof v ≤ 0
      · rw [if_pos c2, hfalse'] at hs; exact absurd hs (by simp)
      rw [if_neg c2] at hs
      rcases c with rfl | rfl
      · exact key (.scale v) _ rest' (.st v) rfl (not_le.mp c2) (by simp) (by simp) (by simp) hs
      · exact key (.scale v) _ rest' (.scale v) rfl (not_le.mp c2) (by simp) (by simp) (by simp) hs
    rw [if_neg c]; clear c
    by_cases c : arg = "-rt" ∨ arg = "--rotate"
    · rw [if_pos c]
      rcases rest with _ | ⟨v, rest'⟩
      · intro hs; exact absurd hs (by simp)
      have hfalse' : ∀ b : Args, (switches env rest' (b, false)).2 = false :=
        switches_false env _ rest' rfl (fun s hs => hr s (by simp [hs]))
      dsimp only
      intro hs
      split_ifs at hs with c2
      · rw [hfalse] at hs; exact absurd hs (by simp)
      push Not at c2
      rcases c with rfl | rfl
      · exact key (.rotate v) _ rest' (.rt v) rfl c2 (by simp) (by simp) (by simp) hs
      · exact key (.rotate v) _ rest' (.rotate v) rfl c2 (by simp) (by simp) (by simp) hs
    rw [if_neg c]; clear c
    by_cases c : arg = "-tt" ∨ arg = "--translate"
    · rw [if_pos c]
      rcases rest with _ | ⟨v, rest'⟩
      · intro hs; exact absurd hs (by simp)
      have hfalse' : ∀ b : Args, (switches env rest' (b, false)).2 = false :=
        switches_false env _ rest' rfl (fun s hs => hr s (by simp [hs]))
      dsimp only
      intro hs
      by_cases c2 : env.atof v ≤ 0
      · rw [if_pos c2, hfalse'] at hs; exact absurd hs (by simp)
      rw [if_neg c2] at hs
      rcases c with rfl | rfl
      · exact key (.translate v) _ rest' (.tt v) rfl (not_le.mp c2) (by simp) (by simp) (by simp) hs
      · exact key (.translate v) _ rest' (.translate v) rfl (not_le.mp c2) (by simp) (by simp) (by simp) hs
    rw [if_neg c]; clear c
    by_cases c : arg = "-at" ∨ arg = "--angle"
    · rw [if_pos c]
      rcases rest with _ | ⟨v, rest'⟩
      · intro hs; exact absurd hs (by simp)
      have hfalse' : ∀ b : Args, (switches env rest' (b, false)).2 = false :=
        switches_false env _ rest' rfl (fun s hs => hr s (by simp [hs]))
      dsimp only
      intro hs
      split_ifs at hs with c2
      · rw [hfalse'] at hs; exact absurd hs (by simp)
      push Not at c2
      rcases c with rfl | rfl
      · exact key (.angle v) _ rest' (.at v) rfl c2 (by simp) (by simp) (by simp) hs
      · exact key (.angle v) _ rest' (.angle v) rfl c2 (by simp) (by simp) (by simp) hs
    rw [if_neg c]; clear c
    by_cases c : arg = "--repeat" ∨ arg = "--norepeat"
    · rw [if_pos c]
      intro hs
      rcases c with rfl | rfl
      · rw [if_pos rfl] at hs
        split_ifs at hs with c2
        · rw [hfalse] at hs; exact absurd hs (by simp)
        · exact key .repeats _ rest .repeats rfl trivial (by simp) (fun _ hp => c2 (by simp [hp])) (by simp) hs
      · rw [if_neg (show ¬ ("--norepeat" = "--repeat") by decide)] at hs
        split_ifs at hs with c2
        · rw [hfalse] at hs; exact absurd hs (by simp)
        · exact key .norepeats _ rest .norepeats rfl trivial (by simp) (by simp) (fun _ hp => c2 (by simp [hp])) hs
    rw [if_neg c]; clear c
    by_cases c : arg = "--nouniformscale"
    · rw [if_pos c]
      intro hs
      subst c
      exact key .nouniformscale _ rest .nouniformscale rfl trivial (by simp) (by simp) (by simp) hs
    rw [if_neg c]; clear c
    by_cases c : arg = "--stagger" ∨ arg = "--stagger_end_times"
    · rw [if_pos c]
      intro hs
      rcases c with rfl | rfl
      · exact key .stagger _ rest .stagger rfl trivial (by simp) (by simp) (by simp) hs
      · exact key .stagger _ rest .staggerEndTimes rfl trivial (by simp) (by simp) (by simp) hs
    rw [if_neg c]; clear c
    by_cases c : arg = "--start" ∨ arg = "--preserve_start_time"
    · rw [if_pos c]
      intro hs
      rcases c with rfl | rfl
      · exact key .start _ rest .start rfl trivial (by simp) (by simp) (by simp) hs
      · exact key .start _ rest .preserve rfl trivial (by simp) (by simp) (by simp) hs
    rw [if_neg c]; clear c
    by_cases c : arg = "-a" ∨ arg = "--axes"
    · exact absurd c (by simp [ha])
    rw [if_neg c]; clear c
    by_cases c : arg = "-u" ∨ arg = "--unit"
    · exact absurd c (by simp [ha])
    rw [if_neg c]; clear c
    by_cases c : arg = "--roots" ∨ arg = "--root_bones_only"
    · rw [if_pos c]
      intro hs
      rcases c with rfl | rfl
      · exact key .roots _ rest .roots rfl trivial (by simp) (by simp) (by simp) hs
      · exact key .roots _ rest .rootBones rfl trivial (by simp) (by simp) (by simp) hs
    rw [if_neg c]; clear c
    by_cases c : arg = "--debug_time"
    · rw [if_pos c]
      rcases rest with _ | ⟨v, rest'⟩
      · intro hs; exact absurd hs (by simp)
      have hfalse' : ∀ b : Args, (switches env rest' (b, false)).2 = false :=
        switches_false env _ rest' rfl (fun s hs => hr s (by simp [hs]))
      dsimp only
      intro hs
      by_cases c2 : env.atoi v < 0
      · rw [if_pos c2, hfalse'] at hs; exact absurd hs (by simp)
      rw [if_neg c2] at hs
      subst c
      exact key (.debugTime v) _ rest' (.debugTime v) rfl (not_lt.mp c2) (by simp) (by simp) (by simp) hs
    rw [if_neg c]; clear c
    intro hs
    rw [hfalse] at hs; exact absurd hs (by simp)

/-- **C87**, in part: a command line without `-a`, `--axes`, `-u` and `--unit` is accepted only if it is correct: its last
parameter is the name of a file, and the others are options with allowed values.  With one of the four the claim is false:
`C87_errors_forgiven`. -/
theorem C87_rejects_partial (env : Env) (d : Args) {params : List String}
    (hn : ∀ s ∈ params.dropLast, s ≠ "-a" ∧ s ≠ "--axes" ∧ s ≠ "-u" ∧ s ≠ "--unit") (h : (parse env d params).2 = true) :
    ∃ os sw file, params = sw ++ [file] ∧ FileName file ∧ Correct env os sw := by
  have hn' : ∀ s ∈ params.dropLast, ¬ Forgives s := by
    intro s hs hf
    obtain ⟨h1, h2, h3, h4⟩ := hn s hs
    rcases hf with e | e | e | e
    · exact h1 e
    · exact h2 e
    · exact h3 e
    · exact h4 e
  unfold parse at h
  cases hg : params.getLast? with
  | none => rw [hg] at h; dsimp only at h; rw [switches] at h; exact absurd h (by simp)
  | some file =>
    rw [hg] at h
    dsimp only at h
    cases hv : validFile file with
    | false => rw [hv, switches_false env _ _ rfl hn'] at h; exact absurd h (by simp)
    | true =>
      rw [hv] at h
      obtain ⟨os, w, ok, hc⟩ := switches_true env _ _ rfl hn' _ h
      refine ⟨os, params.dropLast, file, ?_, (validFile_iff file).mp hv, w, ok, hc.2.2⟩
      have := List.dropLast_append_getLast? file hg
      exact this.symm

/-- **C87**, what is missing: the axes and the unit replace the verdict on everything before them.  Whatever the file is
called, and although there is no option `--bogus`, the line is accepted. -/
theorem C87_errors_forgiven (env : Env) (d : Args) (v file : String) (hv : 0 < env.unit v) :
    (parse env d ["--bogus", "-u", v, file]).2 = true ∧ ¬ ∃ os, Correct env os ["--bogus", "-u", v] := by
  constructor
  · show (switches env ["--bogus", "-u", v] (_, _)).2 = true
    rw [switches.eq_def]
    simp only [String.reduceEq, or_self, if_false]
    rw [switches.eq_def]
    simp only [String.reduceEq, or_self, or_false, if_false, if_true]
    rw [switches.eq_def]
    simp [hv]
  · rintro ⟨os, hw, -⟩
    cases hw' : os with
    | nil => subst hw'; cases hw
    | cons o os =>
      subst hw'
      generalize hx : ["--bogus", "-u", v] = x at hw
      cases hw with
      | cons h1 h2 => cases h1 <;> simp at hx

/-- The settings of the pipeline that options change. -/
inductive Setting
  | log | out | scale | rotate | translate | angle | repeats | uniform | stagger | start | axes | unit | roots | debug
  deriving DecidableEq

/-- The settings that an option changes. -/
def Opt.settings : Opt → List Setting
  | .verbose | .details | .info => [.log]
  | .out _ => [.out]
  | .scale _ => [.scale]
  | .rotate _ => [.rotate]
  | .translate _ => [.translate]
  | .angle _ => [.angle]
  | .repeats | .norepeats => [.repeats]
  | .nouniformscale => [.uniform]
  | .stagger => [.stagger]
  | .start => [.start]
  | .axes _ => [.axes]
  | .unit _ => [.unit]
  | .roots => [.roots]
  | .debugTime _ => [.debug, .log]

/-- Two options that change no setting in common. -/
def Independent (o p : Opt) : Prop := ∀ s ∈ o.settings, s ∉ p.settings

theorem set_comm (env : Env) {o p : Opt} (h : Independent o p) (a : Args) :
    Opt.set env (Opt.set env a o) p = Opt.set env (Opt.set env a p) o := by
  cases o <;> cases p <;> first | rfl | (exfalso; revert h; simp [Independent, Opt.settings])

theorem independent_symm {o p : Opt} (h : Independent o p) : Independent p o :=
  fun s hs hp => h s hp hs

theorem foldl_perm (env : Env) {os os' : List Opt} (hp : os.Perm os') :
    os.Pairwise Independent → ∀ a : Args, os.foldl (Opt.set env) a = os'.foldl (Opt.set env) a := by
  induction hp with
  | nil => intro _ a; rfl
  | cons x _ ih => intro h a; exact ih (List.pairwise_cons.mp h).2 _
  | swap x y l =>
    intro h a
    have : Independent y x := (List.pairwise_cons.mp h).1 x (by simp)
    simp only [List.foldl_cons]
    rw [set_comm env this]
  | trans h1 _ ih1 ih2 =>
    intro h a
    rw [ih1 h a, ih2 ((h1.pairwise_iff (fun h => independent_symm h)).mp h) a]

/-- **C87**: the order of options that change different settings does not matter, nor which of its two names an option is
given by. -/
theorem C87_any_order (env : Env) (d : Args) (hd : d.repeatPreference = .ifRepeatable) {os os' : List Opt}
    {sw sw' : List String} {file : String} (h : Correct env os sw) (h' : WrittenList os' sw') (hp : os.Perm os')
    (hi : os.Pairwise Independent) (hf : FileName file) :
    parse env d (sw' ++ [file]) = parse env d (sw ++ [file]) := by
  have hc : Correct env os' sw' :=
    ⟨h', fun o ho => h.2.1 o (hp.mem_iff.mpr ho), fun hr => h.2.2 ⟨hp.mem_iff.mpr hr.1, hp.mem_iff.mpr hr.2⟩⟩
  rw [C87_accepts env d hd h hf, C87_accepts env d hd hc hf, foldl_perm env hp hi]

/-- The time for debugging is not independent of the level of messages: after `--debug_time` messages are shown at the level
of `--info`, whatever level was asked for before. -/
example (env : Env) (a : Args) (v : String) :
    ((Opt.set env (Opt.set env a .verbose) (.debugTime v)).logLevel = .info) ∧
    ((Opt.set env (Opt.set env a (.debugTime v)) .verbose).logLevel = .verbose) := ⟨rfl, rfl⟩

/-- A correct command line, with options of every sort. -/
example (env : Env) (h1 : env.atof "0.1" = 1 / 10) (h2 : env.atof "30" = 30) (h3 : env.axes "+x+y+z" = 3) :
    Correct env [.verbose, .scale "0.1", .rotate "30", .repeats, .axes "+x+y+z"]
      ["-v", "--scale", "0.1", "-rt", "30", "--repeat", "-a", "+x+y+z"] := by
  refine ⟨.cons .v (.cons (.scale _) (.cons (.rt _) (.cons .repeats (.cons (.a _) .nil)))), ?_, by simp⟩
  intro o ho
  simp only [List.mem_cons, List.not_mem_nil, or_false] at ho
  rcases ho with rfl | rfl | rfl | rfl | rfl <;> simp [Opt.Ok, h1, h2, h3]
  norm_num

example : FileName "dance.fbx" := ⟨'d', "ance.fbx".toList, by decide, by decide⟩

end Motive.Pipeline.CommandLine
