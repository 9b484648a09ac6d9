import Mathlib.Data.Int.ModEq
import Mathlib.Algebra.Order.Group.Int
import Mathlib.Tactic.Linarith

/-!
# C121: clocks that wrap around

`MotiveTime` has 32 bits, and the clocks of the processors of rigs, matrices and SQTs count for as long as the program runs.
The source says: "It shouldn't matter if this wraps around, since we only calculate times relative to it"
(rig_processor.cpp:48-50).  In the C++ standard, signed overflow is undefined; here is what holds in the arithmetic that the
comment assumes, where numbers wrap around, and what holds by the standard.

Modelled: everything that reads the clock or `end_time_`.  The clocks of matrices and SQTs are never read.
-/

namespace Motive.Rig.Wrap

/-! ### Model -/

/-- The largest `MotiveTime`, `kMotiveTimeEndless` (common.h:57-59). -/
def endless : ℤ := 2 ^ 31 - 1

/-- Values of type `MotiveTime`. -/
def Fits (x : ℤ) : Prop := -2 ^ 31 ≤ x ∧ x ≤ endless

instance (x : ℤ) : Decidable (Fits x) := by unfold Fits; infer_instance

/-- How overflow is treated: `none` is undefined behaviour. -/
structure Overflow where
  result : ℤ → Option ℤ

/-- Overflow is undefined (the standard). -/
def undefinedOverflow : Overflow := ⟨fun x => if Fits x then some x else none⟩

/-- Numbers wrap around: the number that fits and is the same modulo 2^32. -/
def wrap (x : ℤ) : ℤ := (x + 2 ^ 31) % 2 ^ 32 - 2 ^ 31

/-- Numbers wrap around (what the comment assumes). -/
def wrapAround : Overflow := ⟨fun x => some (wrap x)⟩

/-- The clock of `MotiveRigProcessor` (rig_processor.cpp:180) and the members of one `RigData` that concern time:
`end_time_` (rig_data.h:528), and the end time of `current_anim_`, if any. -/
structure State where
  time : ℤ
  endTime : ℤ
  animEnd : Option ℤ
  deriving DecidableEq

/-- What a program does: a frame (rig_processor.cpp:38-51), and `BlendToAnims` with animations that have the given end
times (rig_data.h:89-163); with one animation this is also what `BlendToAnim` does to times (rig_data.h:57-87). -/
inductive Event
  | frame (dt : ℤ)
  | blend (first : ℤ) (more : List ℤ)

/-- `max_time` (rig_data.h:95-105). -/
def maxTime (ends : List ℤ) : ℤ := ends.foldl max 0

/-- One event. -/
def step (o : Overflow) (s : State) : Event → Option State
  | .frame dt => (o.result (s.time + dt)).map fun t => { s with time := t }
  | .blend first more =>
    (o.result (s.time + maxTime (first :: more))).map fun e => { s with endTime := e, animEnd := some first }

/-- A program. -/
def run (o : Overflow) : State → List Event → Option State
  | s, [] => some s
  | s, e :: es => (step o s e).bind fun s => run o s es

/-- `RigData::RigData` (rig_data.h:38-43) in a processor whose clock is at `t`. -/
def State.new (t : ℤ) : State := ⟨t, t, none⟩

/-- The time in `CsvValuesForDebugging` (rig_data.h:284-285), and that in `LocalTransformsForDebugging` (313-315). -/
def csvTime (o : Overflow) (s : State) : Option ℤ :=
  s.animEnd.bind fun e => (o.result (s.time - s.endTime)).bind fun d => o.result (d + e)

@[inherit_doc csvTime]
def localTime (o : Overflow) (s : State) : Option ℤ :=
  s.animEnd.bind fun e => (o.result (s.endTime - s.time)).bind fun d => o.result (e - d)

/-- `TimeRemaining` (rig_data.h:209-218), where `longest` is the longest time that remains of a motivator. -/
def timeRemaining (s : State) (longest : ℤ) : ℤ := if s.endTime = endless then endless else longest

/-! ### Specification -/

/-- The time that passes in the given events. -/
def elapsed : List Event → ℤ
  | [] => 0
  | .frame dt :: es => dt + elapsed es
  | .blend _ _ :: es => elapsed es

/-- Only frames. -/
def Frames (es : List Event) : Prop := ∀ e ∈ es, ∃ dt, e = .frame dt

/-! ### Proofs -/

theorem wrap_fits (x : ℤ) : Fits (wrap x) := by unfold Fits wrap endless; omega

theorem wrap_of_fits {x : ℤ} (h : Fits x) : wrap x = x := by unfold Fits endless at h; unfold wrap; omega

theorem wrap_mod (x : ℤ) : ∃ k : ℤ, wrap x = x + 2 ^ 32 * k := by
  refine ⟨-((x + 2 ^ 31) / 2 ^ 32), ?_⟩
  unfold wrap
  have := Int.emod_add_mul_ediv (x + 2 ^ 31) (2 ^ 32)
  linarith

theorem run_append (o : Overflow) : ∀ (as bs : List Event) (s : State), run o s (as ++ bs) = (run o s as).bind fun s => run o s bs
  | [], _, _ => rfl
  | e :: as, bs, s => by
    simp only [List.cons_append, run]
    cases step o s e with
    | none => rfl
    | some t => simpa using run_append o as bs t

theorem elapsed_append : ∀ as bs : List Event, elapsed (as ++ bs) = elapsed as + elapsed bs
  | [], _ => by simp [elapsed]
  | .frame dt :: as, bs => by simp [elapsed, elapsed_append as bs, add_assoc]
  | .blend _ _ :: as, bs => by simp [elapsed, elapsed_append as bs]

/-- The clock is right modulo 2^32. -/
theorem run_time : ∀ (es : List Event) (s : State), ∃ s', run wrapAround s es = some s' ∧
    ∃ k : ℤ, s'.time = s.time + elapsed es + 2 ^ 32 * k
  | [], s => ⟨s, rfl, 0, by simp [elapsed]⟩
  | .frame dt :: es, s => by
    obtain ⟨k1, h1⟩ := wrap_mod (s.time + dt)
    obtain ⟨s', h2, k2, h3⟩ := run_time es { s with time := wrap (s.time + dt) }
    exact ⟨s', by simpa [run, step, wrapAround] using h2, k1 + k2, by rw [h3]; simp only [elapsed, h1]; omega⟩
  | .blend f m :: es, s => by
    obtain ⟨s', h2, k2, h3⟩ := run_time es { s with endTime := wrap (s.time + maxTime (f :: m)), animEnd := some f }
    exact ⟨s', by simpa [run, step, wrapAround] using h2, k2, by rw [h3]; simp only [elapsed]⟩

theorem run_frames : ∀ (es : List Event) (s : State), Frames es → ∃ s', run wrapAround s es = some s' ∧
    s'.endTime = s.endTime ∧ s'.animEnd = s.animEnd ∧ ∃ k : ℤ, s'.time = s.time + elapsed es + 2 ^ 32 * k
  | [], s, _ => ⟨s, rfl, rfl, rfl, 0, by simp [elapsed]⟩
  | e :: es, s, h => by
    obtain ⟨dt, rfl⟩ := h e (by simp)
    obtain ⟨k1, h1⟩ := wrap_mod (s.time + dt)
    obtain ⟨s', h2, q1, q2, k2, h3⟩ := run_frames es { s with time := wrap (s.time + dt) } (fun x hx => h x (by simp [hx]))
    exact ⟨s', by simpa [run, step, wrapAround] using h2, q1, q2, k1 + k2, by rw [h3]; simp only [elapsed, h1]; omega⟩

/-- **C121**, the times in debugging output: if numbers wrap around, then however long the program ran before the animation
was started, and across the wrap, the times written for an animation are the time since it was started, as long as that is
itself a `MotiveTime`. -/
theorem C121_debug_times (t : ℤ) (before after : List Event) (e : ℤ) (h0 : 0 ≤ e) (hf : Frames after)
    (ht : Fits (elapsed after)) :
    ∃ s, run wrapAround (State.new t) (before ++ .blend e [] :: after) = some s ∧
      csvTime wrapAround s = some (elapsed after) ∧ localTime wrapAround s = some (elapsed after) := by
  obtain ⟨s1, r1, k1, -⟩ := run_time before (State.new t)
  obtain ⟨s2, r2, q1, q2, k2, q3⟩ := run_frames after
    { s1 with endTime := wrap (s1.time + maxTime [e]), animEnd := some e } hf
  have hm : maxTime [e] = e := by simp [maxTime, h0]
  refine ⟨s2, ?_, ?_, ?_⟩
  · rw [run_append, r1]
    simpa [run, step, wrapAround] using r2
  all_goals
    simp only [hm] at q1 q2 q3
    simp only [csvTime, localTime, q2, wrapAround, Option.bind_some, Option.some.injEq]
    unfold Fits endless at ht
    unfold wrap at *
    omega

/-- Started after 2^31 - 10 ms, read 25 ms later, after the wrap. -/
example : ∃ s, run wrapAround (State.new 0) ([.frame (2 ^ 31 - 10)] ++ .blend 40 [] :: [.frame 16, .frame 9]) = some s ∧
    s.time < 0 ∧ csvTime wrapAround s = some 25 ∧ localTime wrapAround s = some 25 := by
  refine ⟨⟨-2 ^ 31 + 15, -2 ^ 31 + 30, some 40⟩, ?_, ?_, ?_, ?_⟩ <;> decide

/-- **C121**, `TimeRemaining`: it is the longest time that remains of a motivator, unless the clock at the start of the last
animations, plus the longest of their end times, is `kMotiveTimeEndless`, up to wraps. -/
theorem C121_time_remaining (t : ℤ) (before after : List Event) (e : ℤ) (es : List ℤ) (hf : Frames after) :
    ∃ s, run wrapAround (State.new t) (before ++ .blend e es :: after) = some s ∧ ∀ longest,
      timeRemaining s longest =
        if (t + elapsed before + maxTime (e :: es)) % 2 ^ 32 = endless then endless else longest := by
  obtain ⟨s1, r1, k1, h1⟩ := run_time before (State.new t)
  obtain ⟨s2, r2, q1, q2, k2, q3⟩ := run_frames after
    { s1 with endTime := wrap (s1.time + maxTime (e :: es)), animEnd := some e } hf
  refine ⟨s2, ?_, fun longest => ?_⟩
  · rw [run_append, r1]
    simpa [run, step, wrapAround] using r2
  · simp only at q1
    simp only [State.new] at h1
    unfold timeRemaining
    have : s2.endTime = endless ↔ (t + elapsed before + maxTime (e :: es)) % 2 ^ 32 = endless := by
      rw [q1, h1]
      unfold wrap endless
      omega
    by_cases hc : s2.endTime = endless
    · rw [if_pos hc, if_pos (this.mp hc)]
    · rw [if_neg hc, if_neg (fun h => hc (this.mpr h))]

example : Frames [.frame 16, .frame 9] := by intro e he; simp at he; rcases he with rfl | rfl <;> exact ⟨_, rfl⟩

/-- So the comment is wrong: each animation that ends can be started at a time at which `TimeRemaining` says that it does
not, until the next one is started, and that without any overflow. -/
theorem C121_said_to_be_endless (e : ℤ) (h0 : 0 ≤ e) (h1 : e ≤ endless) :
    ∃ dt, 0 ≤ dt ∧ ∃ s, run undefinedOverflow (State.new 0) [.frame dt, .blend e []] = some s ∧
      ∀ longest, timeRemaining s longest = endless := by
  refine ⟨endless - e, by omega, ⟨endless - e, endless, some e⟩, ?_, fun longest => by simp [timeRemaining]⟩
  have hm : maxTime [e] = e := by simp [maxTime, h0]
  have f1 : Fits (endless - e) := by unfold Fits; unfold endless at *; omega
  have f2 : Fits endless := by unfold Fits endless; omega
  simp [run, step, undefinedOverflow, State.new, hm, f1, f2]

/-- And an animation that repeats, whose end time is `kMotiveTimeEndless` (io/flatbuffers.cpp:239-240), is endless only if
it is started at time 0, up to wraps. -/
theorem C121_repeating (t : ℤ) (before after : List Event) (hf : Frames after) :
    ∃ s, run wrapAround (State.new t) (before ++ .blend endless [] :: after) = some s ∧ ∀ longest,
      longest ≠ endless → (timeRemaining s longest = endless ↔ (t + elapsed before) % 2 ^ 32 = 0) := by
  obtain ⟨s, h1, h2⟩ := C121_time_remaining t before after endless [] hf
  refine ⟨s, h1, fun longest hl => ?_⟩
  have hm : maxTime [endless] = endless := by simp [maxTime, endless]
  rw [h2 longest, hm]
  split
  · rename_i h; unfold endless at h; simp; omega
  · rename_i h; unfold endless at h; simp [hl]; omega

/-! ### By the standard -/

/-- All frames go forward, and all animations have end times that fit. -/
def Forward (bound : ℤ) (es : List Event) : Prop := ∀ e ∈ es, match e with
  | .frame dt => 0 ≤ dt
  | .blend f m => maxTime (f :: m) ≤ bound

theorem maxTime_nonneg (l : List ℤ) : 0 ≤ maxTime l := by
  unfold maxTime
  have : ∀ (l : List ℤ) (a : ℤ), a ≤ l.foldl max a := by
    intro l
    induction l with
    | nil => intro a; exact le_refl a
    | cons x l ih => intro a; exact le_trans (le_max_left a x) (ih (max a x))
  exact this l 0

theorem elapsed_nonneg {b : ℤ} : ∀ {es : List Event}, Forward b es → 0 ≤ elapsed es
  | [], _ => le_refl 0
  | .frame dt :: es, h => by
    have h1 : 0 ≤ dt := h (.frame dt) (by simp)
    have h2 := elapsed_nonneg (es := es) (fun e he => h e (by simp [he]))
    simp only [elapsed]; omega
  | .blend _ _ :: es, h => elapsed_nonneg (es := es) (fun e he => h e (by simp [he]))

/-- **C121** by the standard: a program that ends before the clock plus the longest end time of its animations passes
2^31 - 1 never overflows, and its clock is the time that has passed. -/
theorem C121_short_programs (t bound : ℤ) (es : List Event) (h0 : 0 ≤ t) (hb : 0 ≤ bound) (hf : Forward bound es)
    (ht : t + elapsed es + bound ≤ endless) :
    ∃ s, run undefinedOverflow (State.new t) es = some s ∧ s.time = t + elapsed es := by
  suffices ∀ (es : List Event) (s : State), 0 ≤ s.time → Forward bound es → s.time + elapsed es + bound ≤ endless →
      ∃ s', run undefinedOverflow s es = some s' ∧ s'.time = s.time + elapsed es from
    this es (State.new t) h0 hf ht
  intro es
  induction es with
  | nil => intro s _ _ _; exact ⟨s, rfl, by simp [elapsed]⟩
  | cons e es ih =>
    intro s h1 h2 h3
    have h4 : Forward bound es := fun e he => h2 e (by simp [he])
    have h5 := elapsed_nonneg h4
    cases e with
    | frame dt =>
      have hd : 0 ≤ dt := h2 (.frame dt) (by simp)
      simp only [elapsed] at h3
      have f : Fits (s.time + dt) := by unfold Fits; omega
      obtain ⟨s', q1, q2⟩ := ih { s with time := s.time + dt } (by simp only; omega) h4 (by simp only; omega)
      refine ⟨s', by simpa [run, step, undefinedOverflow, f] using q1, ?_⟩
      rw [q2]; simp only [elapsed]; omega
    | blend a m =>
      have hm : maxTime (a :: m) ≤ bound := h2 (.blend a m) (by simp)
      have hm0 := maxTime_nonneg (a :: m)
      simp only [elapsed] at h3
      have f : Fits (s.time + maxTime (a :: m)) := by unfold Fits; omega
      obtain ⟨s', q1, q2⟩ := ih { s with endTime := s.time + maxTime (a :: m), animEnd := some a } h1 h4 h3
      exact ⟨s', by simpa [run, step, undefinedOverflow, f] using q1, q2⟩

example : Forward 1000 [.frame 16, .blend 1000 [800], .frame 16] ∧
    0 + elapsed [.frame 16, .blend 1000 [800], .frame 16] + 1000 ≤ endless := by
  refine ⟨?_, by decide⟩
  intro e he
  simp at he
  rcases he with rfl | rfl | rfl <;> simp [maxTime]

/-- By the standard, every program that goes on for long enough has undefined behaviour, whatever the length of its
frames; for frames of 16 ms, after 25 days. -/
theorem C121_long_programs_overflow (dt : ℤ) (hd : 0 < dt) :
    ∃ n, run undefinedOverflow (State.new 0) (List.replicate n (.frame dt)) = none := by
  suffices ∀ (n : ℕ) (s : State), endless < s.time + n * dt →
      run undefinedOverflow s (List.replicate n (.frame dt)) = none ∨ endless < s.time from by
    refine ⟨(endless + 1).toNat, ?_⟩
    have hn : ((endless + 1).toNat : ℤ) = endless + 1 := by simp [endless]
    have h1 : endless + 1 ≤ (endless + 1) * dt := by unfold endless; omega
    rcases this (endless + 1).toNat (State.new 0) (by rw [hn]; simp only [State.new]; omega) with h | h
    · exact h
    · simp [State.new, endless] at h
  intro n
  induction n with
  | zero => intro s h; right; simpa using h
  | succ n ih =>
    intro s h
    left
    rw [List.replicate_succ, run]
    by_cases f : Fits (s.time + dt)
    · rcases ih { s with time := s.time + dt } (by simp only; push_cast at h; linarith) with h' | h'
      · simpa [step, undefinedOverflow, f] using h'
      · exact absurd f.2 (not_le.mpr h')
    · simp [step, undefinedOverflow, f]

end Motive.Rig.Wrap
