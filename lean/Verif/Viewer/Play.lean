import Mathlib.Data.Real.Basic
import Mathlib.Tactic.Linarith
import Mathlib.Tactic.Ring
import Mathlib.Tactic.NormNum
import Mathlib.Tactic.SplitIfs
import Mathlib.Data.List.Basic

/-!
# The keyboard of the viewer (C118)

The main loop of `fplviewer` (src/viewer/viewer.cpp) as far as it concerns the animation: which calls it makes on the rig
and on the engine, for every sequence of keys.  The rig is any machine.  The camera is in `Viewer/Camera.lean`.  Rates are
real numbers.  Rendering and the files are not modelled.
-/

namespace Motive.Viewer

noncomputable section

/-! ### Model -/

/-- `AnimationState` (viewer.cpp:44-49). -/
inductive Anim | noAnimation | paused | step | animating
  deriving DecidableEq

/-- What one iteration of the loop reads of the clock and of the keyboard: `motive_delta_time` (viewer.cpp:609-610),
`is_down` of the left and right cursor keys, `went_down` of the right cursor key and of the space bar. -/
structure Keys where
  dt : ℤ
  leftDown : Bool
  rightDown : Bool
  rightWent : Bool
  spaceWent : Bool

/-- `UpdateAnimationState` (viewer.cpp:433-456). -/
def updateAnim (a : Anim) (k : Keys) : Anim :=
  if a = .noAnimation then .noAnimation
  else
    let a := if a = .step then .paused else a
    if a = .paused ∧ k.rightWent then .step
    else if k.spaceWent then (if a = .paused then .animating else .paused)
    else a

/-- `mathfu::Clamp` with `kMinPlaybackRate` and `kMaxPlaybackRate` (viewer.cpp:91-92, 468-469). -/
def clampRate (r : ℝ) : ℝ := max (1 / 100) (min r 10)

/-- `UpdatePlaybackRate` (viewer.cpp:458-471): the new rate, and whether it changed.  `kPlaybackRateSensitivity` is 0.01
(viewer.cpp:90). -/
def updateRate (a : Anim) (k : Keys) (rate : ℝ) : ℝ × Bool :=
  if a ≠ .animating then (rate, false)
  else if k.leftDown = false ∧ k.rightDown = false then (rate, false)
  else
    let sign : ℝ := if k.leftDown then -1 else 1
    let new := clampRate (rate + sign * (1 / 100))
    (new, decide (rate ≠ new))

/-- The calls on the rig and on the engine: `BlendToAnim` of the animation with the given index, with `playback` at the given
rate (the other members of `playback` never change), `SetPlaybackRate`, and `MotiveEngine::AdvanceFrame`, after which a row
of the debugging table is written (viewer.cpp:632-644). -/
inductive Call
  | blend (idx : ℕ) (rate : ℝ)
  | setRate (rate : ℝ)
  | advance (dt : ℤ)

/-- What the viewer relies on: a rig with `TimeRemaining`, on which calls have effects. -/
structure Machine where
  Rig : Type
  remaining : Rig → ℤ
  apply : Rig → Call → Rig

/-- The variables of the loop that concern the animation. -/
structure State (M : Machine) where
  anim : Anim
  rate : ℝ
  idx : ℕ
  rig : M.Rig

variable {M : Machine}

/-- `animation_state == kAnimationStateAnimating || animation_state == kAnimationStateStepOneFrame`
(viewer.cpp:613-614, 630-631). -/
def Anim.running (a : Anim) : Bool := decide (a = .animating ∨ a = .step)

/-- One iteration of the loop (viewer.cpp:607-645) with `n = anim_table.NumAnims(0)`, and its calls. -/
def frame (n : ℕ) (s : State M) (k : Keys) : State M × List Call :=
  let next := s.anim.running && decide (M.remaining s.rig < k.dt)
  let idx := if next then (s.idx + 1) % n else s.idx
  let anim := updateAnim s.anim k
  let rate := updateRate anim k s.rate
  let calls := (if next then [Call.blend idx s.rate] else []) ++ (if rate.2 then [Call.setRate rate.1] else []) ++
    (if anim.running then [Call.advance k.dt] else [])
  (⟨anim, rate.1, idx, calls.foldl M.apply s.rig⟩, calls)

/-- The loop: the state after it, and the calls of each iteration. -/
def run (n : ℕ) : State M → List Keys → State M × List (List Call)
  | s, [] => (s, [])
  | s, k :: ks =>
    let r := run n (frame n s k).1 ks
    (r.1, (frame n s k).2 :: r.2)

/-- The state before the loop (viewer.cpp:531-533, 570-579), and the calls made until then. -/
def start (n : ℕ) (rate : ℝ) (rig : M.Rig) : State M × List Call :=
  let calls := if 0 < n then [Call.blend 0 rate] else []
  (⟨if 0 < n then .animating else .noAnimation, rate, 0, calls.foldl M.apply rig⟩, calls)

/-- A run of the viewer: the state after the given iterations, the calls before the loop, and those of each iteration. -/
def session (n : ℕ) (rate : ℝ) (rig : M.Rig) (ks : List Keys) : State M × List Call × List (List Call) :=
  let s := start n rate rig
  let r := run n s.1 ks
  (r.1, s.2, r.2)

/-! ### Specification -/

/-- The time by which a call advances the animation. -/
def Call.time : Call → Option ℤ
  | .advance dt => some dt
  | _ => none

/-- The animation that a call starts. -/
def Call.started : Call → Option ℕ
  | .blend i _ => some i
  | _ => none

/-- The playback rate that a call sets. -/
def Call.sets : Call → Option ℝ
  | .blend _ r => some r
  | .setRate r => some r
  | .advance _ => none

/-- The controls as documented (viewer.cpp:216-226): the space bar pauses and resumes, and while the animation is paused the
right cursor key makes a single step and leaves it paused. -/
def pausedAfter (paused : Bool) (k : Keys) : Bool :=
  if paused && k.rightWent then true else xor paused k.spaceWent

/-- For each iteration the times by which the animation advances: none while it is paused, unless in a single step. -/
def timeline : Bool → List Keys → List (List ℤ)
  | _, [] => []
  | paused, k :: ks =>
    (if !pausedAfter paused k || (paused && k.rightWent) then [k.dt] else []) :: timeline (pausedAfter paused k) ks

/-! ### Theorems -/

/-- The state of the animation stands for the documented one. -/
def Anim.means (a : Anim) (p : Bool) : Prop :=
  (a = .animating ∧ p = false) ∨ ((a = .paused ∨ a = .step) ∧ p = true)

theorem updateAnim_means {a : Anim} {p : Bool} (h : a.means p) (k : Keys) :
    (updateAnim a k).means (pausedAfter p k) ∧
      (updateAnim a k).running = (!pausedAfter p k || (p && k.rightWent)) := by
  obtain ⟨dt, l, r, rw', sw⟩ := k
  rcases h with ⟨rfl, rfl⟩ | ⟨rfl | rfl, rfl⟩ <;> cases rw' <;> cases sw <;>
    simp [updateAnim, pausedAfter, Anim.means, Anim.running]

theorem frame_calls_time (n : ℕ) (s : State M) (k : Keys) :
    (frame n s k).2.filterMap Call.time = if (updateAnim s.anim k).running then [k.dt] else [] := by
  unfold frame
  dsimp only
  rw [List.filterMap_append, List.filterMap_append]
  split_ifs <;> simp [Call.time, List.filterMap_cons]

theorem run_timeline (n : ℕ) : ∀ (ks : List Keys) (s : State M) (p : Bool), s.anim.means p →
    (run n s ks).2.map (List.filterMap Call.time) = timeline p ks
  | [], _, _, _ => rfl
  | k :: ks, s, p, h => by
    obtain ⟨h1, h2⟩ := updateAnim_means h k
    simp only [run, timeline, List.map_cons]
    rw [frame_calls_time, h2, run_timeline n ks _ (pausedAfter p k) h1]

/-- **C118**: whatever the keys, in each iteration the animation advances by the time of that iteration if it is not paused
or makes a single step, once, and otherwise not at all. -/
theorem C118_pausing (n : ℕ) (hn : 0 < n) (rate : ℝ) (rig : M.Rig) (ks : List Keys) :
    (session n rate rig ks).2.2.map (List.filterMap Call.time) = timeline false ks := by
  unfold session
  refine run_timeline n ks _ false ?_
  left
  simp [start, hn]

/-- Nothing is pressed that concerns pausing. -/
def Idle (k : Keys) : Prop := k.rightWent = false ∧ k.spaceWent = false

theorem timeline_idle {p : Bool} : ∀ {ks : List Keys}, (∀ k ∈ ks, Idle k) → ∀ rest,
    timeline p (ks ++ rest) = (ks.map fun k => if p then [] else [k.dt]) ++ timeline p rest
  | [], _, _ => rfl
  | k :: ks, h, rest => by
    obtain ⟨h1, h2⟩ := h k (by simp)
    have ih := timeline_idle (p := p) (ks := ks) (fun x hx => h x (by simp [hx])) rest
    have hp : pausedAfter p k = p := by simp [pausedAfter, h1, h2]
    simp only [List.cons_append, timeline, List.map_cons, hp, ih, h1]
    cases p <;> simp

/-- **C118**: after the space bar nothing advances, until the right cursor key makes a single step of one iteration, after
which nothing advances either, until the space bar resumes. -/
theorem C118_single_step (n : ℕ) (hn : 0 < n) (rate : ℝ) (rig : M.Rig) (before waiting resting after : List Keys)
    (space step again : Keys) (hb : ∀ k ∈ before, Idle k) (hw : ∀ k ∈ waiting, Idle k) (hr : ∀ k ∈ resting, Idle k)
    (ha : ∀ k ∈ after, Idle k) (hsp : space.spaceWent = true) (hst : step.rightWent = true)
    (hag : again.spaceWent = true ∧ again.rightWent = false) :
    (session n rate rig (before ++ space :: (waiting ++ step :: (resting ++ again :: after)))).2.2.map
        (List.filterMap Call.time) =
      before.map (fun k => [k.dt]) ++ [] :: (waiting.map (fun _ => []) ++ [step.dt] :: (resting.map (fun _ => []) ++
        [again.dt] :: after.map (fun k => [k.dt]))) := by
  rw [C118_pausing n hn, timeline_idle hb]
  have e := timeline_idle (p := false) ha []
  simp only [List.append_nil, timeline] at e
  simp [timeline, pausedAfter, hsp, timeline_idle hw, timeline_idle hr, hst, hag.1, hag.2, e]

theorem frame_rig (n : ℕ) (s : State M) (k : Keys) : (frame n s k).1.rig = (frame n s k).2.foldl M.apply s.rig := rfl

theorem run_rig (n : ℕ) : ∀ (ks : List Keys) (s : State M), (run n s ks).1.rig = (run n s ks).2.flatten.foldl M.apply s.rig
  | [], _ => rfl
  | k :: ks, s => by
    simp only [run, List.flatten_cons, List.foldl_append]
    rw [run_rig n ks, frame_rig]

theorem run_append (n : ℕ) : ∀ (as bs : List Keys) (s : State M),
    run n s (as ++ bs) = ((run n (run n s as).1 bs).1, (run n s as).2 ++ (run n (run n s as).1 bs).2)
  | [], _, _ => rfl
  | a :: as, bs, s => by
    simp only [List.cons_append, run, run_append n as bs]

theorem run_length (n : ℕ) : ∀ (ks : List Keys) (s : State M), (run n s ks).2.length = ks.length
  | [], _ => rfl
  | k :: ks, s => by simp only [run, List.length_cons, run_length n ks]

theorem frame_started (n : ℕ) (s : State M) (k : Keys) :
    (frame n s k).2.filterMap Call.started =
        (if s.anim.running && decide (M.remaining s.rig < k.dt) then [(s.idx + 1) % n] else []) ∧
      (frame n s k).1.idx = if s.anim.running && decide (M.remaining s.rig < k.dt) then (s.idx + 1) % n else s.idx := by
  unfold frame
  dsimp only
  rw [List.filterMap_append, List.filterMap_append]
  constructor
  · split_ifs <;> simp [Call.started]
  · rfl

theorem run_started (n : ℕ) : ∀ (ks : List Keys) (s : State M) (m : ℕ), s.idx = m % n →
    ∃ j, (run n s ks).2.flatten.filterMap Call.started = (List.range j).map (fun i => (m + 1 + i) % n) ∧
      (run n s ks).1.idx = (m + j) % n
  | [], s, m, h => ⟨0, by simp [run], by simpa [run] using h⟩
  | k :: ks, s, m, h => by
    obtain ⟨h1, h2⟩ := frame_started n s k
    simp only [run, List.flatten_cons, List.filterMap_append]
    rw [h1]
    by_cases hc : (s.anim.running && decide (M.remaining s.rig < k.dt)) = true
    · rw [if_pos hc] at h2 ⊢
      have hi : (frame n s k).1.idx = (m + 1) % n := by rw [h2, h, Nat.mod_add_mod]
      obtain ⟨j, e1, e2⟩ := run_started n ks (frame n s k).1 (m + 1) hi
      refine ⟨j + 1, ?_, ?_⟩
      · rw [e1, h, Nat.mod_add_mod, List.range_succ_eq_map, List.map_cons, List.map_map]
        simp only [Nat.add_zero, List.singleton_append, List.cons.injEq, true_and]
        refine List.map_congr_left fun i _ => ?_
        simp only [Function.comp]
        congr 1
        omega
      · rw [e2]; congr 1; omega
    · rw [if_neg hc] at h2 ⊢
      obtain ⟨j, e1, e2⟩ := run_started n ks (frame n s k).1 m (by rw [h2, h])
      exact ⟨j, by rw [e1]; simp, e2⟩

/-- **C118**: whatever the keys and however long the animations are, the animations of the table are started in turn, from
the first one on, and from the last one the first one follows. -/
theorem C118_in_turn (n : ℕ) (hn : 0 < n) (rate : ℝ) (rig : M.Rig) (ks : List Keys) :
    ∃ j, ((session n rate rig ks).2.1 ++ (session n rate rig ks).2.2.flatten).filterMap Call.started =
      (List.range (j + 1)).map (· % n) := by
  obtain ⟨j, e, -⟩ := run_started n ks (start n rate rig : State M × List Call).1 0 (by simp [start])
  refine ⟨j, ?_⟩
  simp only [session]
  rw [List.filterMap_append, e, List.range_succ_eq_map, List.map_cons, List.map_map]
  simp only [start, hn, if_true, List.filterMap_cons, Call.started, List.filterMap_nil, Nat.zero_mod,
    List.singleton_append, List.cons.injEq, true_and]
  refine List.map_congr_left fun i _ => ?_
  simp only [Function.comp]
  congr 1
  omega

/-- Did the calls of an iteration advance the animation? -/
def advanced (calls : List Call) : Prop := calls.filterMap Call.time ≠ []

/-- **C118**: the next animation is started in an iteration exactly if less than the time of this iteration remains of the
current one, on the rig that all the calls so far have made, and the iteration before advanced the animation. -/
theorem C118_next (n : ℕ) (rate : ℝ) (rig : M.Rig) (ks : List Keys) (last k : Keys) :
    ∃ before lastCalls calls : List Call,
      (session n rate rig (ks ++ [last])).2.1 ++ (session n rate rig (ks ++ [last])).2.2.flatten = before ++ lastCalls ∧
      (session n rate rig (ks ++ [last])).2.2.getLast? = some lastCalls ∧
      (session n rate rig (ks ++ [last, k])).2.2 = (session n rate rig (ks ++ [last])).2.2 ++ [calls] ∧
      ((∃ i, i ∈ calls.filterMap Call.started) ↔
        advanced lastCalls ∧ M.remaining ((before ++ lastCalls).foldl M.apply rig) < k.dt) := by
  set s0 : State M := (start n rate rig : State M × List Call).1 with hs0
  set s1 := (run n s0 ks).1 with hs1
  set s2 := (frame n s1 last).1 with hs2
  refine ⟨(start n rate rig : State M × List Call).2 ++ (run n s0 ks).2.flatten, (frame n s1 last).2, (frame n s2 k).2,
    ?_, ?_, ?_, ?_⟩
  · simp only [session, run_append, run, ← hs0, ← hs1]
    simp
  · simp only [session, run_append, run, ← hs0, ← hs1]
    simp
  · simp only [session, run_append, run, ← hs0, ← hs1, ← hs2]
    simp
  · have hrig : ((start n rate rig : State M × List Call).2 ++ (run n s0 ks).2.flatten ++ (frame n s1 last).2).foldl M.apply rig
        = s2.rig := by
      rw [List.foldl_append, List.foldl_append]
      have : (start n rate rig : State M × List Call).2.foldl M.apply rig = s0.rig := rfl
      rw [this, ← run_rig, ← hs1, ← frame_rig]
    have hran : s2.anim.running = true ↔ advanced (frame n s1 last).2 := by
      unfold advanced
      rw [frame_calls_time]
      have : s2.anim = updateAnim s1.anim last := rfl
      rw [this]
      split_ifs with h <;> simp [h]
    rw [hrig, (frame_started n s2 k).1, ← hran]
    split_ifs with h
    · simp only [Bool.and_eq_true, decide_eq_true_eq] at h
      simp [h.1, h.2]
    · simp only [Bool.and_eq_true, decide_eq_true_eq] at h
      simp only [List.not_mem_nil, exists_false, false_iff]
      exact h

/-! #### Playing without keys -/

/-- What `TimeRemaining` of a rig is at a playback rate of 1 (C66, C108), if the given times are the lengths of the animations. -/
structure Counts (M : Machine) (len : ℕ → ℤ) : Prop where
  blend : ∀ r i x, M.remaining (M.apply r (.blend i x)) = len i
  advance : ∀ r dt, M.remaining (M.apply r (.advance dt)) = max 0 (M.remaining r - dt)

/-- An iteration without keys. -/
def noKeys (dt : ℤ) : Keys := ⟨dt, false, false, false, false⟩

theorem frame_noKeys (n : ℕ) (dt : ℤ) (s : State M) (h : s.anim = .animating) :
    frame n s (noKeys dt) = if M.remaining s.rig < dt then
      (⟨.animating, s.rate, (s.idx + 1) % n, M.apply (M.apply s.rig (.blend ((s.idx + 1) % n) s.rate)) (.advance dt)⟩,
        [.blend ((s.idx + 1) % n) s.rate, .advance dt])
      else (⟨.animating, s.rate, s.idx, M.apply s.rig (.advance dt)⟩, [.advance dt]) := by
  have hu : updateAnim s.anim (noKeys dt) = .animating := by rw [h]; rfl
  have hr : updateRate .animating (noKeys dt) s.rate = (s.rate, false) := by simp [updateRate, noKeys]
  have hb : s.anim.running = true := by rw [h]; rfl
  have hb' : Anim.running .animating = true := rfl
  have hdt : (noKeys dt).dt = dt := rfl
  by_cases hc : M.remaining s.rig < dt <;> simp [frame, hu, hr, hb, hb', hc, hdt]

theorem run_advances {len : ℕ → ℤ} (hM : Counts M len) (n : ℕ) (dt : ℤ) (hd : 0 < dt) : ∀ (k : ℕ) (s : State M),
    s.anim = .animating → (k : ℤ) * dt ≤ M.remaining s.rig →
    ∃ rig, run n s (List.replicate k (noKeys dt)) = (⟨.animating, s.rate, s.idx, rig⟩, List.replicate k [.advance dt]) ∧
      M.remaining rig = M.remaining s.rig - k * dt
  | 0, s, h, _ => ⟨s.rig, by simp [run, ← h], by simp⟩
  | k + 1, s, h, hk => by
    push_cast at hk
    have hk0 : 0 ≤ (k : ℤ) * dt := by positivity
    have hf := frame_noKeys n dt s h
    rw [if_neg (by linarith)] at hf
    have hr : M.remaining (M.apply s.rig (.advance dt)) = M.remaining s.rig - dt := by
      rw [hM.advance, max_eq_right (by linarith)]
    obtain ⟨rig, e1, e2⟩ := run_advances hM n dt hd k ⟨.animating, s.rate, s.idx, M.apply s.rig (.advance dt)⟩ rfl
      (by rw [hr]; linarith)
    refine ⟨rig, ?_, ?_⟩
    · rw [List.replicate_succ, run, hf]
      simp only
      rw [e1]
      simp [List.replicate_succ]
    · rw [e2, hr]; push_cast; ring

/-- The calls of an animation: it is started, and advances as long as it lasts. -/
def played (len : ℕ → ℤ) (dt : ℤ) (rate : ℝ) (i : ℕ) : List Call :=
  .blend i rate :: List.replicate (len i / dt).toNat (.advance dt)

theorem run_block {len : ℕ → ℤ} (hM : Counts M len) (n : ℕ) (dt : ℤ) (hd : 0 < dt) (s : State M)
    (h : s.anim = .animating) (hs : M.remaining s.rig < dt) (hl : dt ≤ len ((s.idx + 1) % n)) :
    ∃ rig, (run n s (List.replicate (len ((s.idx + 1) % n) / dt).toNat (noKeys dt))).1 =
        ⟨.animating, s.rate, (s.idx + 1) % n, rig⟩ ∧ M.remaining rig < dt ∧
      (run n s (List.replicate (len ((s.idx + 1) % n) / dt).toNat (noKeys dt))).2.flatten =
        played len dt s.rate ((s.idx + 1) % n) := by
  set i := (s.idx + 1) % n with hi
  have hq : 1 ≤ len i / dt := by rw [Int.le_ediv_iff_mul_le hd]; linarith
  obtain ⟨q, hqq⟩ : ∃ q : ℕ, (len i / dt).toNat = q + 1 := ⟨(len i / dt).toNat - 1, by omega⟩
  have hqz : len i / dt = (q : ℤ) + 1 := by omega
  have hdiv := Int.emod_add_mul_ediv (len i) dt
  have hm0 := Int.emod_nonneg (len i) (ne_of_gt hd)
  have hm1 := Int.emod_lt_of_pos (len i) hd
  rw [hqz] at hdiv
  have hf := frame_noKeys n dt s h
  rw [if_pos hs] at hf
  set rig1 := M.apply (M.apply s.rig (.blend ((s.idx + 1) % n) s.rate)) (.advance dt) with hrig1
  have hr : M.remaining rig1 = len i - dt := by
    rw [hrig1, hM.advance, hM.blend, max_eq_right (by linarith)]
  obtain ⟨rig, e1, e2⟩ := run_advances hM n dt hd q ⟨.animating, s.rate, i, rig1⟩ rfl
    (by rw [hr]; nlinarith)
  refine ⟨rig, ?_, ?_, ?_⟩
  · rw [hqq, List.replicate_succ, run, hf]; simp only; rw [e1]
  · rw [e2, hr]; nlinarith
  · rw [hqq, List.replicate_succ, run, hf]; simp only; rw [e1]
    simp only [played, hqq, List.replicate_succ, List.flatten_cons]
    have : ∀ q : ℕ, (List.replicate q [Call.advance dt]).flatten = List.replicate q (Call.advance dt) := by
      intro q; induction q with
      | zero => rfl
      | succ q ih => rw [List.replicate_succ, List.flatten_cons, ih]; rfl
    rw [this]
    rfl

/-- The number of iterations in which the first `j` animations are played. -/
def iterations (len : ℕ → ℤ) (dt : ℤ) (n : ℕ) : ℕ → ℕ
  | 0 => 0
  | j + 1 => iterations len dt n j + (len (j % n) / dt).toNat

/-- **C118** without keys: if all iterations take the same time, and no animation is shorter than that, then each animation
in turn is started and advances for as many iterations as fit into its length, and then the next one is started, for ever.  So
less than one iteration of each animation is not shown. -/
theorem C118_plays_through {len : ℕ → ℤ} (hM : Counts M len) (n : ℕ) (hn : 0 < n) (dt : ℤ) (hd : 0 < dt)
    (hl : ∀ i < n, dt ≤ len i) (rate : ℝ) (rig : M.Rig) (j : ℕ) :
    let s := session n rate rig (List.replicate (iterations len dt n (j + 1)) (noKeys dt))
    s.2.1 ++ s.2.2.flatten = (List.range (j + 1)).flatMap fun i => played len dt rate (i % n) := by
  suffices ∃ r, (session n rate rig (List.replicate (iterations len dt n (j + 1)) (noKeys dt))).1 =
      (⟨.animating, rate, j % n, r⟩ : State M) ∧ M.remaining r < dt ∧
      (session n rate rig (List.replicate (iterations len dt n (j + 1)) (noKeys dt))).2.1 ++
        (session n rate rig (List.replicate (iterations len dt n (j + 1)) (noKeys dt))).2.2.flatten =
        (List.range (j + 1)).flatMap fun i => played len dt rate (i % n) by
    obtain ⟨-, -, -, h⟩ := this; exact h
  induction j with
  | zero =>
    have h0 := hl 0 hn
    have hq : 0 ≤ len 0 / dt := Int.ediv_nonneg (by linarith) (le_of_lt hd)
    have hdiv := Int.emod_add_mul_ediv (len 0) dt
    have hm0 := Int.emod_nonneg (len 0) (ne_of_gt hd)
    have hm1 := Int.emod_lt_of_pos (len 0) hd
    have hz : ((len 0 / dt).toNat : ℤ) = len 0 / dt := Int.toNat_of_nonneg hq
    have hst : (start n rate rig : State M × List Call) =
        (⟨.animating, rate, 0, M.apply rig (.blend 0 rate)⟩, [.blend 0 rate]) := by simp [start, hn]
    obtain ⟨r, e1, e2⟩ := run_advances hM n dt hd (len 0 / dt).toNat ⟨.animating, rate, 0, M.apply rig (.blend 0 rate)⟩ rfl
      (by rw [hM.blend, hz]; nlinarith)
    refine ⟨r, ?_, ?_, ?_⟩
    · simp only [session, hst, iterations, Nat.zero_mod, Nat.zero_add, e1]
    · rw [e2, hM.blend, hz]; nlinarith
    · simp only [session, hst, iterations, Nat.zero_mod, Nat.zero_add, e1]
      have : ∀ q : ℕ, (List.replicate q [Call.advance dt]).flatten = List.replicate q (Call.advance dt) := by
        intro q; induction q with
        | zero => rfl
        | succ q ih => rw [List.replicate_succ, List.flatten_cons, ih]; rfl
      rw [this]
      simp [played]
  | succ j ih =>
    obtain ⟨r, e1, e2, e3⟩ := ih
    have hidx : (j % n + 1) % n = (j + 1) % n := by rw [Nat.mod_add_mod]
    have hlt : (j + 1) % n < n := Nat.mod_lt _ hn
    obtain ⟨r', f1, f2, f3⟩ := run_block hM n dt hd (⟨.animating, rate, j % n, r⟩ : State M) rfl e2
      (by simp only [hidx]; exact hl _ hlt)
    simp only [hidx] at f1 f2 f3
    have hrep : List.replicate (iterations len dt n (j + 1 + 1)) (noKeys dt) =
        List.replicate (iterations len dt n (j + 1)) (noKeys dt) ++
          List.replicate (len ((j + 1) % n) / dt).toNat (noKeys dt) := by
      rw [List.replicate_append_replicate]; rfl
    simp only [session] at e1 e3
    refine ⟨r', ?_, f2, ?_⟩
    · rw [hrep]; simp only [session, run_append, e1]; exact f1
    · rw [hrep]
      simp only [session, run_append, e1, List.flatten_append]
      rw [← List.append_assoc, e3, f3, List.range_succ (n := j + 1), List.flatMap_append]
      simp

/-- A rig that counts down. -/
def countdown (len : ℕ → ℤ) : Machine where
  Rig := ℤ
  remaining r := r
  apply r
    | .blend i _ => len i
    | .setRate _ => r
    | .advance dt => max 0 (r - dt)

example : Counts (countdown fun i => 100 + 50 * i) (fun i => 100 + 50 * i) ∧ ∀ i < 3, (16 : ℤ) ≤ (fun i : ℕ => 100 + 50 * (i : ℤ)) i :=
  ⟨⟨fun _ _ _ => rfl, fun _ _ => rfl⟩, fun i _ => by simp only; omega⟩

/-- The last rate that a list of calls sets. -/
def lastRate (calls : List Call) : Option ℝ := (calls.filterMap Call.sets).getLast?

theorem updateRate_changed (a : Anim) (k : Keys) (rate : ℝ) :
    (updateRate a k rate).2 = false → (updateRate a k rate).1 = rate := by
  unfold updateRate
  dsimp only
  split_ifs <;> simp <;> intro h <;> exact h.symm

theorem updateRate_range (a : Anim) (k : Keys) (rate : ℝ) :
    (updateRate a k rate).1 = rate ∨ (1 / 100 ≤ (updateRate a k rate).1 ∧ (updateRate a k rate).1 ≤ 10) := by
  unfold updateRate clampRate
  dsimp only
  split_ifs
  · left; rfl
  · left; rfl
  all_goals
    right
    exact ⟨le_max_left _ _, max_le (by norm_num) (min_le_right _ _)⟩

theorem frame_rate (n : ℕ) (s : State M) (k : Keys) (calls : List Call) (h : lastRate calls = some s.rate) :
    lastRate (calls ++ (frame n s k).2) = some (frame n s k).1.rate := by
  have hr : (frame n s k).1.rate = (updateRate (updateAnim s.anim k) k s.rate).1 := rfl
  rw [hr]
  unfold lastRate at h ⊢
  unfold frame
  dsimp only
  rw [List.filterMap_append, List.filterMap_append, List.filterMap_append]
  have e3 : (if (updateAnim s.anim k).running then [Call.advance k.dt] else []).filterMap Call.sets = [] := by
    split_ifs <;> simp [Call.sets]
  rw [e3, List.append_nil]
  cases hb : (updateRate (updateAnim s.anim k) k s.rate).2
  · rw [updateRate_changed _ _ _ hb]
    split_ifs <;> simp [Call.sets, h]
  · simp [Call.sets, List.getLast?_append]

theorem run_rate (n : ℕ) : ∀ (ks : List Keys) (s : State M) (calls : List Call), lastRate calls = some s.rate →
    lastRate (calls ++ (run n s ks).2.flatten) = some (run n s ks).1.rate
  | [], _, calls, h => by simpa [run] using h
  | k :: ks, s, calls, h => by
    have := run_rate n ks (frame n s k).1 (calls ++ (frame n s k).2) (frame_rate n s k calls h)
    simpa [run, List.append_assoc] using this

/-- **C118**: the rig always plays at the rate that the viewer shows: the last rate set by the calls is the current one. -/
theorem C118_rate_reaches_rig (n : ℕ) (hn : 0 < n) (rate : ℝ) (rig : M.Rig) (ks : List Keys) :
    lastRate ((session n rate rig ks).2.1 ++ (session n rate rig ks).2.2.flatten) = some (session n rate rig ks).1.rate := by
  refine run_rate n ks _ _ ?_
  simp [session, start, hn, lastRate, Call.sets]

theorem run_rate_range (n : ℕ) : ∀ (ks : List Keys) (s : State M),
    (run n s ks).1.rate = s.rate ∨ (1 / 100 ≤ (run n s ks).1.rate ∧ (run n s ks).1.rate ≤ 10)
  | [], _ => Or.inl rfl
  | k :: ks, s => by
    have hr : (frame n s k).1.rate = (updateRate (updateAnim s.anim k) k s.rate).1 := rfl
    have h := updateRate_range (updateAnim s.anim k) k s.rate
    rw [← hr] at h
    rcases run_rate_range n ks (frame n s k).1 with e | e
    · simp only [run]
      rw [e]
      exact h
    · right
      simpa [run] using e

/-- **C118**: whatever the keys, the rate is the one given at the start or lies between 0.01 and 10. -/
theorem C118_rate_range (n : ℕ) (rate : ℝ) (rig : M.Rig) (ks : List Keys) :
    (session n rate rig ks).1.rate = rate ∨
      (1 / 100 ≤ (session n rate rig ks).1.rate ∧ (session n rate rig ks).1.rate ≤ 10) :=
  run_rate_range n ks _

/-- **C118**: while the animation plays at a rate between 0.01 and 10, the right cursor key raises the rate by 0.01, up to 10, the
left cursor key lowers it by 0.01, down to 0.01, and other keys leave it.  While it is paused, and in single steps, the rate
does not change. -/
theorem C118_rate_keys (n : ℕ) (s : State M) (k : Keys) (h1 : 1 / 100 ≤ s.rate) (h2 : s.rate ≤ 10) :
    (frame n s k).1.rate =
      if (frame n s k).1.anim ≠ .animating then s.rate
      else if k.leftDown then max (s.rate - 1 / 100) (1 / 100)
      else if k.rightDown then min (s.rate + 1 / 100) 10
      else s.rate := by
  have hr : (frame n s k).1.rate = (updateRate (updateAnim s.anim k) k s.rate).1 := rfl
  have ha : (frame n s k).1.anim = updateAnim s.anim k := rfl
  rw [hr, ha]
  unfold updateRate clampRate
  dsimp only
  by_cases hc : updateAnim s.anim k ≠ .animating
  · rw [if_pos hc, if_pos hc]
  rw [if_neg hc, if_neg hc]
  have l : max (1 / 100) (min (s.rate + -1 * (1 / 100)) 10) = max (s.rate - 1 / 100) (1 / 100) := by
    rw [min_eq_left (by linarith), max_comm]; congr 1; ring
  have r : max (1 / 100) (min (s.rate + 1 * (1 / 100)) 10) = min (s.rate + 1 / 100) 10 := by
    rw [one_mul, max_eq_right (le_min (by linarith) (by norm_num))]
  cases hl : k.leftDown <;> cases hrd : k.rightDown
  · simp
  · simpa using r
  · simpa using l
  · simpa using l

/-- With no animation to play, no call is made, whatever the keys. -/
theorem C118_no_animation (rate : ℝ) (rig : M.Rig) (ks : List Keys) :
    (session 0 rate rig ks).2.1 = [] ∧ ∀ calls ∈ (session 0 rate rig ks).2.2, calls = [] := by
  have key : ∀ (ks : List Keys) (s : State M), s.anim = .noAnimation → ∀ calls ∈ (run 0 s ks).2, calls = [] := by
    intro ks
    induction ks with
    | nil => intro s _ c hc; simp [run] at hc
    | cons k ks ih =>
      intro s hs c hc
      have hu : updateAnim s.anim k = .noAnimation := by simp [updateAnim, hs]
      simp only [run, List.mem_cons] at hc
      rcases hc with rfl | hc
      · unfold frame; dsimp only; rw [hu]; simp [hs, updateRate, Anim.running]
      · exact ih _ hu c hc
  exact ⟨by simp [session, start], key ks _ (by simp [start])⟩

/-! ### What the documentation says otherwise -/

/-- A rig that only counts: what remains of an animation of 10 ms. -/
def counter : Machine := ⟨ℤ, id, fun r c => match c with
  | .blend _ _ => 10
  | .setRate _ => r
  | .advance dt => r - dt⟩

/-- Keys that are not pressed, in an iteration of 6 ms. -/
def idle : Keys := ⟨6, false, false, false, false⟩

/-- The message on the controls says "left and right cursor -- speed-up and slow-down anim playback rate"
(viewer.cpp:223): the left cursor key slows down, and the right one speeds up. -/
theorem C118_cursor_keys_reversed (n : ℕ) (s : State M) (k : Keys) (h1 : 1 / 100 < s.rate) (h2 : s.rate < 10)
    (ha : (frame n s k).1.anim = .animating) :
    (k.leftDown = true → (frame n s k).1.rate < s.rate) ∧
      (k.leftDown = false → k.rightDown = true → s.rate < (frame n s k).1.rate) := by
  rw [C118_rate_keys n s k h1.le h2.le, if_neg (by simp [ha])]
  constructor
  · intro hl
    rw [if_pos hl]
    exact max_lt (by linarith) h1
  · intro hl hr
    rw [if_neg (by simp [hl]), if_pos hr]
    exact lt_min (by linarith) h2

/-- The option `-r` allows rates up to 1000 (viewer.cpp:263): at the rate 500 the key that speeds up slows down to 10. -/
theorem C118_fast_rate_drops :
    (session (M := counter) 1 500 (0 : ℤ) [{ idle with rightDown := true }]).1.rate = 10 := by
  simp [session, start, run, frame, updateRate, clampRate, updateAnim, idle]
  try norm_num

/-- The option also allows rates below 0.01: at the rate 0.001 the key that slows down speeds up to 0.01. -/
theorem C118_slow_rate_rises :
    (session (M := counter) 1 (1 / 1000) (0 : ℤ) [{ idle with leftDown := true }]).1.rate = 1 / 100 := by
  simp [session, start, run, frame, updateRate, clampRate, updateAnim, idle]
  try norm_num

/-- A single step that passes the end of an animation does not start the next one; the next one is started in the iteration
after the step, while the animation is paused. -/
theorem C118_starts_while_paused :
    (session (M := counter) 2 1 (0 : ℤ) [{ idle with dt := 5, spaceWent := true }, { idle with dt := 12, rightWent := true },
      idle]).2.2 = [[], [.advance 12], [.blend 1 1]] := by
  simp [session, start, run, frame, updateRate, updateAnim, idle, Anim.running, counter]

/-- Two animations: the second is started when the first has nearly ended, then the user pauses and makes a step. -/
example : (session (M := counter) 2 1 (0 : ℤ) [idle, idle, { idle with spaceWent := true }, idle,
    { idle with rightWent := true }, idle]).2.2.map (List.filterMap Call.time) = [[6], [6], [], [], [6], []] := by
  refine (C118_pausing (M := counter) 2 (by norm_num) 1 (0 : ℤ) _).trans ?_
  simp [timeline, pausedAfter, idle]

end

end Motive.Viewer
