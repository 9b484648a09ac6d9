import Verif.Slot.Overshoot
import Verif.Math.RangeProps
import Mathlib.Tactic.Linarith
import Mathlib.Tactic.NormNum
/-!
# Properties of one overshoot slot

* **C33** limits on value, velocity and step, **C34** frames terminate and are divided into steps that add up, **C35** the
  motivator settles, **C60** the reported difference.
-/

set_option linter.unusedSectionVars false

namespace Motive.Slot

open Motive.Math

variable {K : Type} [Field K] [LinearOrder K] [IsStrictOrderedRing K]

/-! ### Specification -/

/-- The values a motivator with this configuration may take. -/
def OvershootInit.Inside (i : OvershootInit K) (x : K) : Prop :=
  (if i.modular then i.range.start < x else i.range.start ≤ x) ∧ x ≤ i.range.stop

/-- A configuration that makes sense: limits are not negative, the time step is positive, the range is not empty. A
modular range has room for 0, because differences are normalised into the same range, and is no shorter than the greatest
step. -/
structure OvershootInit.Legal (i : OvershootInit K) : Prop where
  maxDt : 0 < i.maxDt
  maxVelocity : 0 ≤ i.maxVelocity
  maxDelta : 0 ≤ i.maxDelta
  range : i.range.start ≤ i.range.stop
  modular : i.modular = true → i.range.start < i.range.stop ∧ i.range.start ≤ 0 ∧ 0 ≤ i.range.stop ∧
    i.maxDelta ≤ i.range.stop - i.range.start

namespace OvershootSlot

/-- A call that respects the limits: values inside the range, a velocity below the greatest one, at least one node. -/
def Op.Respects (i : OvershootInit K) : Op K → Prop
  | .frame dt => dt ≤ 2147483647
  | .setTarget nodes => nodes ≠ [] ∧ ∀ n ∈ nodes, i.Inside n.value ∧ |n.velocity| ≤ i.maxVelocity

/-- The internal steps a frame of `t` ticks is divided into. -/
def stepsOf (t m : ℤ) : List ℤ := List.replicate (t / m).toNat m ++ if t % m = 0 then [] else [t % m]

/-! ### One step -/

theorem clampTo_bounds {x lo hi : K} (h : lo ≤ hi) : lo ≤ clampTo x lo hi ∧ clampTo x lo hi ≤ hi :=
  ⟨le_max_left _ _, max_le h (min_le_right _ _)⟩

theorem clampVelocity_abs {i : OvershootInit K} (h : 0 ≤ i.maxVelocity) (v : K) :
    |i.clampVelocity v| ≤ i.maxVelocity := by
  have := clampTo_bounds (x := v) (lo := -i.maxVelocity) (hi := i.maxVelocity) (by linarith)
  exact abs_le.mpr this

theorem clampDelta_abs {i : OvershootInit K} (h : 0 ≤ i.maxDelta) (v : K) : |i.clampDelta v| ≤ i.maxDelta := by
  have := clampTo_bounds (x := v) (lo := -i.maxDelta) (hi := i.maxDelta) (by linarith)
  exact abs_le.mpr this

theorem velocityFor_abs {s : OvershootSlot K} (h : 0 ≤ s.init.maxVelocity) (dt : ℤ) (diff : K) :
    |s.velocityFor dt diff| ≤ s.init.maxVelocity := by
  unfold velocityFor
  simp only
  split_ifs
  · simpa using h
  · exact clampVelocity_abs h _

theorem substep_some {s s' : OvershootSlot K} {dt : ℤ} (h : s.substep dt = some s') :
    ∃ diff x, s.init.normalize (s.target - s.value) = some diff ∧
      ({ s with velocity := s.velocityFor dt diff } : OvershootSlot K).newValue dt = some x ∧
      s' = { s with velocity := s.velocityFor dt diff, value := x } := by
  unfold substep newVelocity at h
  cases hd : s.init.normalize (s.target - s.value) with
  | none => rw [hd] at h; simp at h
  | some diff =>
    rw [hd] at h
    simp only [Option.map_some, Option.bind_some] at h
    cases hx : ({ s with velocity := s.velocityFor dt diff } : OvershootSlot K).newValue dt with
    | none => rw [hx] at h; simp at h
    | some x =>
      rw [hx] at h
      simp only [Option.map_some, Option.some.injEq] at h
      exact ⟨diff, x, rfl, hx, h.symm⟩

theorem substep_of {s : OvershootSlot K} {dt : ℤ} {diff x : K}
    (h1 : s.init.normalize (s.target - s.value) = some diff)
    (h2 : ({ s with velocity := s.velocityFor dt diff } : OvershootSlot K).newValue dt = some x) :
    s.substep dt = some { s with velocity := s.velocityFor dt diff, value := x } := by
  unfold substep newVelocity
  rw [h1]
  simp only [Option.map_some, Option.bind_some]
  rw [h2]
  rfl

theorem substep_keeps {s s' : OvershootSlot K} {dt : ℤ} (h : s.substep dt = some s') :
    s'.init = s.init ∧ s'.target = s.target := by
  obtain ⟨diff, x, -, -, rfl⟩ := substep_some h
  exact ⟨rfl, rfl⟩

theorem range_clamp_inside {r : Range K} (h : r.start ≤ r.stop) (x : K) :
    r.start ≤ r.clamp x ∧ r.clamp x ≤ r.stop := ⟨le_max_left _ _, max_le h (min_le_right _ _)⟩

theorem range_clamp_eq {r : Range K} {x : K} (h1 : r.start ≤ x) (h2 : x ≤ r.stop) : r.clamp x = x := by
  unfold Range.clamp; rw [min_eq_left h2, max_eq_right h1]

/-- With a legal configuration a step from inside the range succeeds and stays inside. -/
theorem substep_inside {s : OvershootSlot K} (hl : s.init.Legal) (hv : s.init.Inside s.value)
    (ht : s.init.Inside s.target) (dt : ℤ) :
    ∃ s', s.substep dt = some s' ∧ s'.init.Inside s'.value ∧ |s'.velocity| ≤ s.init.maxVelocity := by
  have hdiff : ∃ d, s.init.normalize (s.target - s.value) = some d := by
    unfold OvershootInit.normalize
    by_cases hm : s.init.modular = true
    · rw [if_pos hm]
      obtain ⟨h1, h2, h3, -⟩ := hl.modular hm
      unfold OvershootInit.Inside at hv ht
      rw [if_pos hm] at hv ht
      obtain ⟨y, hy, -⟩ := Range.normalize_rep h1 (x := s.target - s.value) (by linarith) (by linarith)
      exact ⟨y, hy⟩
    · rw [if_neg hm]; exact ⟨_, rfl⟩
  obtain ⟨d, hd⟩ := hdiff
  have hx : ∃ x, ({ s with velocity := s.velocityFor dt d } : OvershootSlot K).newValue dt = some x ∧
      s.init.Inside x := by
    unfold newValue
    by_cases h0 : s.velocityFor dt d = 0
    · rw [if_pos h0]; exact ⟨_, rfl, ht⟩
    · rw [if_neg h0]
      simp only
      have hc := abs_le.mp (clampDelta_abs hl.maxDelta (i := s.init) (dt * s.velocityFor dt d))
      unfold OvershootInit.normalize
      by_cases hm : s.init.modular = true
      · rw [if_pos hm]
        obtain ⟨h1, h2, h3, h4⟩ := hl.modular hm
        have hv' := hv
        unfold OvershootInit.Inside at hv'
        rw [if_pos hm] at hv'
        obtain ⟨y, hy, ha, hb, -⟩ := Range.normalize_rep h1
          (x := s.value + s.init.clampDelta (dt * s.velocityFor dt d)) (by linarith) (by linarith)
        rw [hy]
        refine ⟨_, rfl, ?_⟩
        rw [range_clamp_eq ha.le hb]
        unfold OvershootInit.Inside
        rw [if_pos hm]; exact ⟨ha, hb⟩
      · rw [if_neg hm]
        refine ⟨_, rfl, ?_⟩
        unfold OvershootInit.Inside
        rw [if_neg hm]
        exact range_clamp_inside hl.range _
  obtain ⟨x, hx, hin⟩ := hx
  exact ⟨_, substep_of hd hx, hin, velocityFor_abs hl.maxVelocity dt d⟩

/-! ### The loop -/

theorem foldlM_append_some {α β : Type} (f : β → α → Option β) (l₁ l₂ : List α) (b : β) :
    (l₁ ++ l₂).foldlM f b = (l₁.foldlM f b).bind fun b' => l₂.foldlM f b' := by
  rw [List.foldlM_append]; rfl

theorem stepsOf_small {t m : ℤ} (h0 : 0 < t) (h : t ≤ m) : stepsOf t m = [t] := by
  unfold stepsOf
  rcases eq_or_lt_of_le h with rfl | hlt
  · rw [Int.ediv_self (by omega), Int.emod_self]; simp
  · rw [Int.ediv_eq_zero_of_lt h0.le hlt, Int.emod_eq_of_lt h0.le hlt, if_neg (by omega)]; simp

theorem stepsOf_large {t m : ℤ} (hm : 0 < m) (h : m < t) : stepsOf t m = m :: stepsOf (t - m) m := by
  unfold stepsOf
  have h1 : t / m = (t - m) / m + 1 := by
    have : t = (t - m) + m * 1 := by ring
    conv_lhs => rw [this]
    rw [Int.add_mul_ediv_left _ _ (by omega)]
  have h2 : t % m = (t - m) % m := (Int.sub_emod_right t m).symm
  have h3 : 0 ≤ (t - m) / m := Int.ediv_nonneg (by omega) hm.le
  rw [h1, h2]
  have : ((t - m) / m + 1).toNat = ((t - m) / m).toNat + 1 := by omega
  rw [this, List.replicate_succ, List.cons_append]

/-- The steps of a frame are positive, no longer than the limit, and add up to the frame. -/
theorem stepsOf_sum {t m : ℤ} (hm : 0 < m) (ht : 0 ≤ t) :
    (stepsOf t m).sum = t ∧ ∀ d ∈ stepsOf t m, 0 < d ∧ d ≤ m := by
  have h1 : 0 ≤ t / m := Int.ediv_nonneg ht hm.le
  have h2 := Int.emod_nonneg t (by omega : m ≠ 0)
  have h3 := Int.emod_lt_of_pos t hm
  have h4 := Int.mul_ediv_add_emod t m
  have hsum : (List.replicate (t / m).toNat m).sum = m * (t / m) := by
    rw [List.sum_replicate, nsmul_eq_mul]
    rw [show ((t / m).toNat : ℤ) = t / m from by omega, mul_comm]
  unfold stepsOf
  refine ⟨?_, ?_⟩
  · rw [List.sum_append, hsum]
    split_ifs with h
    · simp; omega
    · simp; omega
  · intro d hd
    rw [List.mem_append] at hd
    rcases hd with hd | hd
    · rw [List.mem_replicate] at hd; omega
    · split_ifs at hd with h
      · simp at hd
      · simp at hd; omega

theorem loop_done {t : ℤ} (h : t ≤ 0) (s : OvershootSlot K) : loop t s = some s := by
  rw [loop, if_neg (by omega)]

/-- **C34**. With a positive `max_delta_time`, `AdvanceFrame(t)` performs exactly the steps `stepsOf t`: full steps and
one shorter one, which add up to `t` (`stepsOf_sum`). -/
theorem C34_steps {s : OvershootSlot K} (hm : 0 < s.init.maxDt) {t : ℤ} (ht : 0 ≤ t) (hi : t ≤ 2147483647) :
    s.advance t = (stepsOf t s.init.maxDt).foldlM substep s := by
  unfold advance
  obtain ⟨n, hn⟩ : ∃ n : ℕ, t ≤ n := ⟨t.toNat, by omega⟩
  induction n generalizing t s with
  | zero =>
    have : t = 0 := by push_cast at hn; omega
    subst this
    rw [loop_done le_rfl]
    simp [stepsOf]
  | succ n ih =>
    by_cases h0 : t = 0
    · subst h0
      rw [loop_done le_rfl]
      simp [stepsOf]
    rw [loop, if_pos (by omega)]
    by_cases hle : t ≤ s.init.maxDt
    · rw [min_eq_left hle, stepsOf_small (by omega) hle, List.foldlM_cons]
      cases hs : s.substep t with
      | none => rfl
      | some s' =>
        simp only [sub_self]
        rw [if_neg (by omega), loop_done le_rfl]
        rfl
    · push Not at hle
      rw [min_eq_right hle.le, stepsOf_large hm hle, List.foldlM_cons]
      cases hs : s.substep s.init.maxDt with
      | none => rfl
      | some s' =>
        simp only
        rw [if_neg (by omega)]
        have hk := (substep_keeps hs).1
        rw [ih (s := s') (by rw [hk]; exact hm) (by omega) (by omega) (by push_cast at hn; omega), hk]
        rfl

/-- A frame without time does nothing. -/
theorem C34_no_time (s : OvershootSlot K) {t : ℤ} (ht : t ≤ 0) : s.advance t = some s := loop_done ht s

example : stepsOf 50 16 = [16, 16, 16, 2] := by decide

/-- Without wrap-around no step can fail. -/
theorem substep_linear {s : OvershootSlot K} (hm : s.init.modular = false) (dt : ℤ) :
    ∃ s', s.substep dt = some s' := by
  have hd : s.init.normalize (s.target - s.value) = some (s.target - s.value) := by
    simp [OvershootInit.normalize, hm]
  have hx : ∃ x, ({ s with velocity := s.velocityFor dt (s.target - s.value) } : OvershootSlot K).newValue dt = some x := by
    unfold newValue
    split_ifs
    · exact ⟨_, rfl⟩
    · simp [OvershootInit.normalize, hm]
  obtain ⟨x, hx⟩ := hx
  exact ⟨_, substep_of hd hx⟩

/-- **C34**, the suspected hang: with `max_delta_time = 0`, its default, or below, a frame of positive length never ends.
After any number of iterations every one of them has succeeded and the time remaining is still positive — for
`max_delta_time = 0` it has not changed — so the call does not return. -/
theorem C34_hangs_without_max_delta_time {s : OvershootSlot K} (hm : s.init.maxDt ≤ 0) {t : ℤ} (ht : 0 < t) :
    s.advance t = none ∧
    (s.init.modular = false → s.init.maxDt = 0 → ∀ n : ℕ, ∃ s', (List.replicate n (min t 0)).foldlM substep s = some s' ∧
      t - n * min t 0 = t) := by
  constructor
  · unfold advance
    cases hr : loop t s with
    | none => rfl
    | some r =>
      exfalso
      refine loop.partial_correctness (K := K) (motive := fun t s _ => 0 < t → s.init.maxDt ≤ 0 → False)
        (fun f ih t s r h ht hm => ?_) t s r hr ht hm
      rw [if_pos ht] at h
      cases hs : s.substep (min t s.init.maxDt) with
      | none => rw [hs] at h; simp at h
      | some s' =>
        rw [hs] at h
        simp only at h
        split_ifs at h
        refine ih _ _ _ h ?_ (by rw [(substep_keeps hs).1]; exact hm)
        have := min_le_right t s.init.maxDt
        omega
  · intro hl h0 n
    rw [min_eq_right ht.le]
    induction n generalizing s with
    | zero => exact ⟨s, rfl, by simp⟩
    | succ n ih =>
      obtain ⟨s1, h1⟩ := substep_linear hl 0
      have hk := (substep_keeps h1).1
      obtain ⟨s2, h2, -⟩ := ih (s := s1) (by rw [hk]; exact hm) (by rw [hk]; exact hl) (by rw [hk]; exact h0)
      refine ⟨s2, ?_, by simp⟩
      rw [List.replicate_succ, List.foldlM_cons, h1]
      exact h2

/-- **C34**. Without wrap-around every frame terminates, whatever the state, when `max_delta_time` is positive. -/
theorem C34_terminates {s : OvershootSlot K} (hm : 0 < s.init.maxDt) (hl : s.init.modular = false) {t : ℤ}
    (hi : t ≤ 2147483647) : ∃ s', s.advance t = some s' := by
  rcases le_or_gt t 0 with h | h
  · exact ⟨s, C34_no_time s h⟩
  rw [C34_steps hm h.le hi]
  generalize stepsOf t s.init.maxDt = l
  induction l generalizing s with
  | nil => exact ⟨s, rfl⟩
  | cons d l ih =>
    obtain ⟨s1, h1⟩ := substep_linear hl d
    have hk := (substep_keeps h1).1
    rw [List.foldlM_cons, h1]
    exact ih (s := s1) (by rw [hk]; exact hm) (by rw [hk]; exact hl)

/-! ### C33 -/

theorem steps_inside {s : OvershootSlot K} (hl : s.init.Legal) (hv : s.init.Inside s.value)
    (ht : s.init.Inside s.target) (hw : |s.velocity| ≤ s.init.maxVelocity) (l : List ℤ) :
    ∃ s', l.foldlM substep s = some s' ∧ s'.init = s.init ∧ s'.target = s.target ∧ s.init.Inside s'.value ∧
      |s'.velocity| ≤ s.init.maxVelocity := by
  induction l generalizing s with
  | nil => exact ⟨s, rfl, rfl, rfl, hv, hw⟩
  | cons d l ih =>
    obtain ⟨s1, h1, h2, h3⟩ := substep_inside hl hv ht d
    obtain ⟨k1, k2⟩ := substep_keeps h1
    obtain ⟨s2, e1, e2, e3, e4, e5⟩ := ih (s := s1) (by rw [k1]; exact hl) h2 (by rw [k1, k2]; exact ht)
      (by rw [k1]; exact h3)
    rw [k1] at e2 e4 e5
    rw [k2] at e3
    refine ⟨s2, ?_, e2, e3, e4, e5⟩
    rw [List.foldlM_cons, h1]; exact e1

/-- **C33** (and C34 with wrap-around). Take a sensible configuration and a motivator inside its range. Whatever frames
pass and whatever values inside the limits are set, every call succeeds, the value stays inside the range and the speed
stays below the greatest velocity. -/
theorem C33_respects_limits {s : OvershootSlot K} (hl : s.init.Legal) (hv : s.init.Inside s.value)
    (ht : s.init.Inside s.target) (hw : |s.velocity| ≤ s.init.maxVelocity) (ops : List (Op K))
    (hops : ∀ o ∈ ops, o.Respects s.init) :
    ∃ s', s.run ops = some s' ∧ s'.init = s.init ∧ s.init.Inside s'.value ∧ s.init.Inside s'.target ∧
      |s'.velocity| ≤ s.init.maxVelocity := by
  unfold run
  induction ops generalizing s with
  | nil => exact ⟨s, rfl, rfl, hv, ht, hw⟩
  | cons o ops ih =>
    have hone : ∃ s1, s.apply o = some s1 ∧ s1.init = s.init ∧ s.init.Inside s1.value ∧ s.init.Inside s1.target ∧
        |s1.velocity| ≤ s.init.maxVelocity := by
      have ho := hops o (by simp)
      match o, ho with
      | .frame dt, ho =>
        simp only [apply]
        rcases le_or_gt dt 0 with h | h
        · exact ⟨s, C34_no_time s h, rfl, hv, ht, hw⟩
        · rw [C34_steps hl.maxDt h.le ho]
          obtain ⟨s1, e1, e2, e3, e4, e5⟩ := steps_inside hl hv ht hw (stepsOf dt s.init.maxDt)
          exact ⟨s1, e1, e2, e4, by rw [e3]; exact ht, e5⟩
      | .setTarget [], ho => exact absurd rfl ho.1
      | .setTarget (n0 :: rest), ho =>
        simp only [apply, setTarget]
        have h0 := ho.2 n0 (by simp)
        by_cases hz : n0.time = 0
        · rw [if_pos hz]
          match rest, ho with
          | [], _ => exact ⟨_, rfl, rfl, h0.1, ht, h0.2⟩
          | n1 :: _, ho => exact ⟨_, rfl, rfl, h0.1, (ho.2 n1 (by simp)).1, h0.2⟩
        · rw [if_neg hz]; exact ⟨_, rfl, rfl, hv, h0.1, hw⟩
    obtain ⟨s1, h1, h2, h3, h4, h5⟩ := hone
    obtain ⟨s2, e1, e2, e3, e4, e5⟩ := ih (s := s1) (by rw [h2]; exact hl) (by rw [h2]; exact h3)
      (by rw [h2]; exact h4) (by rw [h2]; exact h5) (fun o ho => by rw [h2]; exact hops o (by simp [ho]))
    rw [h2] at e2 e3 e4 e5
    refine ⟨s2, ?_, e2, e3, e4, e5⟩
    rw [List.foldlM_cons, h1]
    exact e1

/-- A legal configuration and a history for it. -/
def demoInit : OvershootInit ℚ := ⟨⟨-3, 3⟩, true, 2, 1, 1 / 100, 1 / 100, 1 / 10, 4, 10⟩

example : demoInit.Legal ∧ demoInit.Inside 2 ∧
    ∀ o ∈ ([.setTarget [⟨-2, 0, 5⟩], .frame 33, .setTarget [⟨1, 1, 0⟩, ⟨3, 0, 7⟩], .frame 5] : List (Op ℚ)),
      o.Respects demoInit := by
  refine ⟨⟨by decide, by decide +kernel, by decide +kernel, by decide +kernel, fun _ => by decide +kernel⟩,
    by simp [demoInit, OvershootInit.Inside]; norm_num, ?_⟩
  intro o ho
  simp at ho
  rcases ho with rfl | rfl | rfl | rfl <;> simp [Op.Respects, demoInit, OvershootInit.Inside] <;> norm_num

example : (⟨demoInit, 0, -2, 2⟩ : OvershootSlot ℚ).substep 1 = some ⟨demoInit, 1 / 5, -2, 11 / 5⟩ := by decide +kernel

/-- **C33** for any start. Without wrap-around, whatever was set before: after a frame with time in it the speed is within
the limit and the value is inside the range, unless it is exactly the target. -/
theorem C33_any_start {s : OvershootSlot K} (hm : 0 < s.init.maxDt) (hl : s.init.modular = false)
    (hr : s.init.range.start ≤ s.init.range.stop) (h0 : 0 ≤ s.init.maxVelocity) {t : ℤ} (ht : 0 < t)
    (hi : t ≤ 2147483647) :
    ∃ s', s.advance t = some s' ∧ |s'.velocity| ≤ s.init.maxVelocity ∧
      ((s.init.range.start ≤ s'.value ∧ s'.value ≤ s.init.range.stop) ∨ s'.value = s.target ∧ s'.velocity = 0) := by
  rw [C34_steps hm ht.le hi]
  have hne : stepsOf t s.init.maxDt ≠ [] := by
    intro h
    have := (stepsOf_sum hm ht.le).1
    rw [h] at this; simp at this; omega
  generalize stepsOf t s.init.maxDt = l at hne
  clear ht hi
  induction l generalizing s with
  | nil => exact absurd rfl hne
  | cons d l ih =>
    obtain ⟨s1, h1⟩ := substep_linear hl d
    obtain ⟨k1, k2⟩ := substep_keeps h1
    rw [List.foldlM_cons, h1]
    by_cases hl' : l = []
    · subst hl'
      refine ⟨s1, rfl, ?_⟩
      obtain ⟨diff, x, -, hx, rfl⟩ := substep_some h1
      refine ⟨velocityFor_abs h0 d diff, ?_⟩
      unfold newValue at hx
      split_ifs at hx with hz
      · simp only [Option.some.injEq] at hx
        exact Or.inr ⟨hx.symm, hz⟩
      · simp only [OvershootInit.normalize, hl] at hx
        simp at hx
        exact Or.inl (by rw [← hx]; exact range_clamp_inside hr _)
    · obtain ⟨s2, e1, e2, e3⟩ := ih (s := s1) (by rw [k1]; exact hm) (by rw [k1]; exact hl) (by rw [k1]; exact hr)
        (by rw [k1]; exact h0) hl'
      rw [k1] at e2 e3
      rw [k2] at e3
      exact ⟨s2, e1, e2, e3⟩

/-- **C33**, the step limit, as far as it holds: an internal step that leaves the motivator moving changes the value by at
most `max_delta` (modulo the length of the range if the motivator wraps around, and only towards the range if the value
was outside). What is missing: a step that ends with velocity zero, see `C33_max_delta_fails`. -/
theorem C33_max_delta_partial {s s' : OvershootSlot K} (hd : 0 ≤ s.init.maxDelta) (hv : s.init.Inside s.value)
    {dt : ℤ} (h : s.substep dt = some s') (hne : s'.velocity ≠ 0) :
    (s.init.modular = false → |s'.value - s.value| ≤ s.init.maxDelta) ∧
    (s.init.modular = true → s.init.range.start < s.init.range.stop → ∃ y, |y - s.value| ≤ s.init.maxDelta ∧
      s.init.range.IsRep y s'.value) := by
  obtain ⟨diff, x, -, hx, rfl⟩ := substep_some h
  simp only at hne
  unfold newValue at hx
  simp only at hx
  rw [if_neg hne] at hx
  have hc := clampDelta_abs hd (i := s.init) (dt * s.velocityFor dt diff)
  constructor
  · intro hm
    simp only [OvershootInit.normalize, hm] at hx
    simp at hx
    unfold OvershootInit.Inside at hv
    rw [hm] at hv
    simp at hv
    obtain ⟨c1, c2⟩ := abs_le.mp hc
    rw [← hx]
    unfold Range.clamp
    rw [abs_le]
    constructor
    · have : min (s.value + s.init.clampDelta (↑dt * s.velocityFor dt diff)) s.init.range.stop ≥ s.value - s.init.maxDelta :=
        le_min (by linarith) (by linarith)
      have := le_max_right s.init.range.start
        (min (s.value + s.init.clampDelta (↑dt * s.velocityFor dt diff)) s.init.range.stop)
      linarith
    · have h1 := min_le_left (s.value + s.init.clampDelta (↑dt * s.velocityFor dt diff)) s.init.range.stop
      have : max s.init.range.start (min (s.value + s.init.clampDelta (↑dt * s.velocityFor dt diff)) s.init.range.stop)
          ≤ s.value + s.init.maxDelta := max_le (by linarith) (by linarith)
      linarith
  · intro hm hr
    simp only [OvershootInit.normalize, hm, if_true] at hx
    refine ⟨s.value + s.init.clampDelta (dt * s.velocityFor dt diff), by rw [add_sub_cancel_left]; exact hc, ?_⟩
    cases hn : s.init.range.normalize (s.value + s.init.clampDelta (dt * s.velocityFor dt diff)) with
    | none => rw [hn] at hx; simp at hx
    | some y =>
      rw [hn] at hx
      simp only [Option.map_some, Option.some.injEq] at hx
      have hy : s.init.range.start < y ∧ y ≤ s.init.range.stop := by
        unfold Range.normalize at hn
        simp only at hn
        split_ifs at hn with hc
        · simp only [Option.some.injEq] at hn
          rw [← hn]; exact hc
      have hcong : Cong (s.init.range.stop - s.init.range.start)
          (s.value + s.init.clampDelta (dt * s.velocityFor dt diff)) y := by
        unfold Range.normalize at hn
        simp only at hn
        split_ifs at hn with hc
        simp only [Option.some.injEq] at hn
        rw [← hn]
        unfold Range.modularAdjustment Range.length
        split_ifs
        · exact ⟨1, by push_cast; ring⟩
        · exact ⟨-1, by push_cast; ring⟩
        · exact ⟨0, by push_cast; ring⟩
      rw [range_clamp_eq hy.1.le hy.2] at hx
      rw [← hx]
      exact ⟨hy.1, hy.2, hcong⟩

/-- **C33** fails of the step limit: with a sensible configuration, a motivator that is turning round — its velocity
becomes exactly 0 — jumps to the target in one step, here by 1 although `max_delta` is 1/10. -/
theorem C33_max_delta_fails :
    ∃ s s' : OvershootSlot ℚ, s.init.Legal ∧ s.init.Inside s.value ∧ s.init.Inside s.target ∧
      |s.velocity| ≤ s.init.maxVelocity ∧ ¬ s.init.atTarget (s.target - s.value) s.velocity ∧
      s.advance 1 = some s' ∧ s.init.maxDelta < |s'.value - s.value| := by
  refine ⟨⟨⟨⟨-3, 3⟩, false, 2, 1 / 10, 1 / 100, 1 / 100, 1, 1, 10⟩, -1, 1, 0⟩,
    ⟨⟨⟨-3, 3⟩, false, 2, 1 / 10, 1 / 100, 1 / 100, 1, 1, 10⟩, 0, 1, 1⟩,
    ⟨by decide, by decide +kernel, by decide +kernel, by decide +kernel, fun h => by simp at h⟩, ?_, ?_, ?_, ?_, ?_, ?_⟩
  · simp [OvershootInit.Inside]
  · simp [OvershootInit.Inside]; norm_num
  · norm_num
  · decide +kernel
  · rw [C34_steps (by decide) (by decide) (by decide)]
    decide +kernel
  · norm_num

/-- **C33** fails of what the header says of `max_delta` ("maximum that Value() can be altered on a single call to
AdvanceFrame"): it limits each internal step, so a longer frame moves further. -/
theorem C33_max_delta_per_frame_fails :
    ∃ s s' : OvershootSlot ℚ, s.init.Legal ∧ s.init.Inside s.value ∧ s.init.Inside s.target ∧
      |s.velocity| ≤ s.init.maxVelocity ∧ s.advance 20 = some s' ∧ s'.velocity ≠ 0 ∧
      s.init.maxDelta < |s'.value - s.value| := by
  refine ⟨⟨⟨⟨-30, 30⟩, false, 2, 1, 1 / 100, 1 / 100, 1, 1, 10⟩, 1, 20, 0⟩,
    ⟨⟨⟨-30, 30⟩, false, 2, 1, 1 / 100, 1 / 100, 1, 1, 10⟩, 2, 20, 2⟩,
    ⟨by decide, by decide +kernel, by decide +kernel, by decide +kernel, fun h => by simp at h⟩, ?_, ?_, ?_, ?_, ?_, ?_⟩
  · simp [OvershootInit.Inside]
  · simp [OvershootInit.Inside]; norm_num
  · norm_num
  · rw [C34_steps (by decide) (by decide) (by decide)]
    decide +kernel
  · norm_num
  · norm_num

/-- **C33** fails of a motivator that has just been initialised: its value is 0 even if the range does not contain 0. -/
theorem C33_fresh_outside :
    ∃ i : OvershootInit ℚ, i.Legal ∧ ¬ i.Inside (fresh i).value := by
  refine ⟨⟨⟨1, 3⟩, false, 2, 1, 1 / 100, 1 / 100, 1, 1, 10⟩,
    ⟨by decide, by decide +kernel, by decide +kernel, by decide +kernel, fun h => by simp at h⟩, ?_⟩
  simp [OvershootInit.Inside, fresh]

/-- **C33** needs a modular range around 0: between two legal angles of the range `(10, 370]` the difference cannot be
normalised into the range, and the frame fails its assertion. -/
theorem C33_modular_range_without_zero_fails :
    ∃ s : OvershootSlot ℚ, s.init.modular = true ∧ s.init.range.start < s.init.range.stop ∧ s.init.Inside s.value ∧
      s.init.Inside s.target ∧ 0 < s.init.maxDt ∧ s.init.maxDelta ≤ s.init.range.stop - s.init.range.start ∧
      s.advance 1 = none := by
  refine ⟨⟨⟨⟨10, 370⟩, true, 2, 1, 1 / 100, 1 / 100, 1, 1, 10⟩, 0, 11, 369⟩, rfl, ?_, ?_, ?_, ?_, ?_, ?_⟩
  · norm_num
  · simp [OvershootInit.Inside]; norm_num
  · simp [OvershootInit.Inside]; norm_num
  · norm_num
  · norm_num
  · rw [C34_steps (by decide) (by decide) (by decide)]
    decide +kernel

/-! ### C35 -/

/-- Settled: on the target, not moving. -/
def Settled (s : OvershootSlot K) : Prop := s.value = s.target ∧ s.velocity = 0

/-- What settling needs of the configuration: limits that are not negative, and a range that contains 0 as a normalised
difference if it wraps around. -/
structure SettleLegal (i : OvershootInit K) : Prop where
  maxDt : 0 < i.maxDt
  maxVelocity : 0 ≤ i.maxVelocity
  modular : i.modular = true → i.range.start < 0 ∧ 0 ≤ i.range.stop

theorem normalize_zero {i : OvershootInit K} (h : SettleLegal i) : i.normalize 0 = some 0 := by
  unfold OvershootInit.normalize
  by_cases hm : i.modular = true
  · rw [if_pos hm]
    obtain ⟨h1, h2⟩ := h.modular hm
    unfold Range.normalize Range.modularAdjustment Range.containsExclStart
    simp only [if_neg (not_le.mpr h1), if_neg (not_lt.mpr h2), add_zero]
    rw [if_pos ⟨h1, h2⟩]
  · rw [if_neg hm]

theorem settled_substep {s : OvershootSlot K} (hl : SettleLegal s.init) (hs : s.Settled) (dt : ℤ) :
    s.substep dt = some s := by
  obtain ⟨h1, h2⟩ := hs
  have hd : s.init.normalize (s.target - s.value) = some 0 := by rw [h1, sub_self]; exact normalize_zero hl
  have hv : s.velocityFor dt 0 = 0 := by
    unfold velocityFor acceleration
    rw [h2]
    simp only [zero_mul, mul_zero, add_zero]
    have : s.init.clampVelocity 0 = 0 := by
      unfold OvershootInit.clampVelocity clampTo
      rw [min_eq_left hl.maxVelocity, max_eq_right (by linarith [hl.maxVelocity])]
    rw [this]; simp
  have := substep_of (dt := dt) (x := s.target) hd (by unfold newValue; rw [if_pos hv])
  rw [this, hv]
  congr 1
  cases s
  simp only at h1 h2
  simp [h1, h2]

/-- **C35**. A motivator that is on its target and not moving stays exactly there through any frames. -/
theorem C35_stays {s : OvershootSlot K} (hl : SettleLegal s.init) (hs : s.Settled) (ts : List ℤ)
    (hts : ∀ t ∈ ts, t ≤ 2147483647) : s.run (ts.map Op.frame) = some s := by
  unfold run
  induction ts with
  | nil => rfl
  | cons t ts ih =>
    have hone : s.advance t = some s := by
      rcases le_or_gt t 0 with h | h
      · exact C34_no_time s h
      · rw [C34_steps hl.maxDt h.le (hts t (by simp))]
        generalize stepsOf t s.init.maxDt = l
        induction l with
        | nil => rfl
        | cons d l ih => rw [List.foldlM_cons, settled_substep hl hs d]; exact ih
    rw [List.map_cons, List.foldlM_cons, apply, hone]
    exact ih fun t ht => hts t (by simp [ht])

/-- The greatest change of velocity in a step from a difference within the threshold. -/
def kick (i : OvershootInit K) : K := i.maxDt * (i.atDifference * (|i.accel| * max 1 |i.wrongMultiplier|))

/-- **C35**. A motivator whose distance to the target (the short way round if it wraps) is within the threshold, and whose
speed is within the threshold even after the acceleration of one step, is exactly on its target with velocity 0 after
the next frame with time in it, and stays there through all later frames. -/
theorem C35_settles {s : OvershootSlot K} (hl : SettleLegal s.init) {diff : K}
    (hd : s.init.normalize (s.target - s.value) = some diff) (h1 : |diff| ≤ s.init.atDifference)
    (h2 : |s.velocity| + kick s.init ≤ s.init.atVelocity) {t : ℤ} (ht : 0 < t) (ts : List ℤ)
    (hts : ∀ x ∈ t :: ts, x ≤ 2147483647) :
    s.run ((t :: ts).map Op.frame) = some { s with value := s.target, velocity := 0 } := by
  have hstep : ∀ d : ℤ, 0 < d → d ≤ s.init.maxDt →
      s.substep d = some { s with value := s.target, velocity := 0 } := by
    intro d hd0 hdm
    have hacc : |(d : K) * s.acceleration diff| ≤ kick s.init := by
      unfold acceleration kick
      have hmul : |(if s.velocity * diff < 0 then s.init.wrongMultiplier else 1 : K)| ≤ max 1 |s.init.wrongMultiplier| := by
        split_ifs
        · exact le_max_right _ _
        · rw [abs_one]; exact le_max_left _ _
      have hdp : (0 : K) < d := by exact_mod_cast hd0
      have hdle : (d : K) ≤ s.init.maxDt := by exact_mod_cast hdm
      rw [abs_mul, abs_mul, abs_mul, abs_of_pos hdp, mul_assoc]
      have hA : |s.init.accel| * |(if s.velocity * diff < 0 then s.init.wrongMultiplier else 1 : K)| ≤
          |s.init.accel| * max 1 |s.init.wrongMultiplier| := mul_le_mul_of_nonneg_left hmul (abs_nonneg _)
      have hB : |diff| * (|s.init.accel| * |(if s.velocity * diff < 0 then s.init.wrongMultiplier else 1 : K)|) ≤
          s.init.atDifference * (|s.init.accel| * max 1 |s.init.wrongMultiplier|) :=
        mul_le_mul h1 hA (mul_nonneg (abs_nonneg _) (abs_nonneg _)) ((abs_nonneg _).trans h1)
      exact mul_le_mul hdle hB
        (mul_nonneg (abs_nonneg _) (mul_nonneg (abs_nonneg _) (abs_nonneg _))) (hdp.le.trans hdle)
    have hu : |s.velocity + (d : K) * s.acceleration diff| ≤ s.init.atVelocity :=
      (abs_add_le _ _).trans (by linarith)
    have hc : |s.init.clampVelocity (s.velocity + (d : K) * s.acceleration diff)| ≤ s.init.atVelocity := by
      unfold OvershootInit.clampVelocity clampTo
      obtain ⟨u1, u2⟩ := abs_le.mp hu
      have hm := hl.maxVelocity
      rw [abs_le]
      constructor
      · have h0 : 0 ≤ s.init.atVelocity := (abs_nonneg _).trans hu
        exact le_trans (le_min u1 (by linarith)) (le_max_right _ _)
      · refine max_le ?_ ((min_le_left _ _).trans u2)
        have h0 : 0 ≤ s.init.atVelocity := (abs_nonneg _).trans hu
        linarith
    have hv : s.velocityFor d diff = 0 := by
      unfold velocityFor
      simp only
      exact if_pos ⟨h1, hc⟩
    have := substep_of (dt := d) (x := s.target) hd (by unfold newValue; rw [if_pos hv])
    rw [this, hv]
  have hset : ({ s with value := s.target, velocity := 0 } : OvershootSlot K).Settled := ⟨rfl, rfl⟩
  have hfirst : s.advance t = some { s with value := s.target, velocity := 0 } := by
    have hti := hts t (by simp)
    obtain ⟨hsum, hmem⟩ := stepsOf_sum hl.maxDt ht.le
    rw [C34_steps hl.maxDt ht.le hti]
    cases hsteps : stepsOf t s.init.maxDt with
    | nil => rw [hsteps] at hsum; simp at hsum; omega
    | cons d l =>
      obtain ⟨m1, m2⟩ := hmem d (by rw [hsteps]; simp)
      rw [List.foldlM_cons, hstep d m1 m2]
      clear hsteps
      induction l with
      | nil => rfl
      | cons e l ih =>
        simp only [Option.bind_eq_bind, Option.bind_some, List.foldlM_cons] at ih ⊢
        rw [settled_substep (s := { s with value := s.target, velocity := 0 }) hl hset e]
        exact ih
  unfold run
  rw [List.map_cons, List.foldlM_cons, apply, hfirst]
  exact C35_stays (s := { s with value := s.target, velocity := 0 }) hl hset ts fun x hx => hts x (by simp [hx])

example : ∃ s : OvershootSlot ℚ, SettleLegal s.init ∧ s.init.normalize (s.target - s.value) = some (1 / 100) ∧
    |(1 / 100 : ℚ)| ≤ s.init.atDifference ∧ |s.velocity| + kick s.init ≤ s.init.atVelocity ∧ ¬ s.Settled := by
  refine ⟨⟨⟨⟨-3, 3⟩, true, 2, 1, 1 / 100, 1 / 2, 1 / 10, 4, 10⟩, 1 / 50, -299 / 100, 3⟩,
    ⟨by decide, by norm_num, fun _ => by norm_num⟩, by decide +kernel, by decide +kernel, by decide +kernel, ?_⟩
  intro h
  have := h.2
  simp at this

/-- **C35**: being within both thresholds is not enough. The velocity that is compared is the one after the step's
acceleration. -/
theorem C35_within_thresholds_fails :
    ∃ s s' : OvershootSlot ℚ, s.init.Legal ∧ SettleLegal s.init ∧ s.init.atTarget (s.target - s.value) s.velocity ∧
      s.advance 10 = some s' ∧ ¬ s'.Settled := by
  refine ⟨⟨⟨⟨-3, 3⟩, false, 2, 1, 1 / 10, 1 / 10, 1, 1, 10⟩, 0, 1 / 10, 0⟩,
    ⟨⟨⟨-3, 3⟩, false, 2, 1, 1 / 10, 1 / 10, 1, 1, 10⟩, 1, 1 / 10, 1⟩,
    ⟨by decide, by decide +kernel, by decide +kernel, by decide +kernel, fun h => by simp at h⟩,
    ⟨by decide, by norm_num, fun h => by simp at h⟩, by decide +kernel, ?_, ?_⟩
  · rw [C34_steps (by decide) (by decide) (by decide)]
    decide +kernel
  · intro h
    have := h.2
    simp at this

/-- **C35** fails for a modular range that starts at 0, such as `(0, 360]`: the difference 0 is normalised to 360, so a
motivator at rest on its target drives away from it. -/
theorem C35_modular_range_from_zero_fails :
    ∃ s s' : OvershootSlot ℚ, s.init.Legal ∧ s.init.Inside s.value ∧ s.Settled ∧
      s.advance 1 = some s' ∧ ¬ s'.Settled := by
  refine ⟨⟨⟨⟨0, 360⟩, true, 2, 1, 1 / 100, 1 / 100, 1, 1, 10⟩, 0, 180, 180⟩,
    ⟨⟨⟨0, 360⟩, true, 2, 1, 1 / 100, 1 / 100, 1, 1, 10⟩, 2, 180, 181⟩,
    ⟨by decide, by decide +kernel, by decide +kernel, by decide +kernel, fun _ => by decide +kernel⟩, ?_, ⟨rfl, rfl⟩, ?_, ?_⟩
  · simp [OvershootInit.Inside]; norm_num
  · rw [C34_steps (by decide) (by decide) (by decide)]
    decide +kernel
  · intro h
    have := h.2
    simp at this

end OvershootSlot

/-! ### C60 -/

/-- **C60** for the motivator whose slots begin at 0: `Differences` is the normalised difference of its own target and its
own value. -/
theorem C60_difference_first_partial (data : List (OvershootSlot K)) (i : ℕ) :
    overshootDifference data 0 i = (data[i]?).bind fun d => d.init.normalize (d.target - d.value) := by
  unfold overshootDifference
  rw [Nat.zero_add]
  cases data[i]? <;> rfl

/-- **C60** fails for every other motivator: `Differences` subtracts the value of a motivator at the start of the
processor's array. With two motivators in one processor, the second being on its target, the difference reported for
the second is not 0, and it changes when the value of the first changes. -/
theorem C60_difference_fails :
    ∃ (a a' b : OvershootSlot ℚ), b.value = b.target ∧ overshootDifference [a, b] 1 0 = some 2 ∧
      overshootDifference [a', b] 1 0 = some 1 := by
  refine ⟨⟨OvershootSlot.demoInit, 0, 0, 0⟩, ⟨OvershootSlot.demoInit, 0, 0, 1⟩, ⟨OvershootSlot.demoInit, 0, 2, 2⟩, rfl, ?_, ?_⟩ <;>
  decide +kernel

end Motive.Slot
