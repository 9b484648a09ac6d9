import Verif.Float.Range
import Verif.Float.Angle
import Verif.Slot.OvershootProps

/-!
# Overshoot motivators in single precision (C92)

`Verif/Slot/Overshoot.lean` models the overshoot processor in exact arithmetic. Here every operation is rounded to `float` as the code
rounds it (src/motive/processor/overshoot_processor.cpp, include/motive/overshoot_init.h). `MotiveTime` is converted to `float` before it is
multiplied. Comparisons, clamping and changes of sign are exact.

Not modelled: overflow, NaN, the sign of zero, fused multiply-add, and x87 excess precision.
-/

namespace Motive.Float.Overshoot

open Motive.Math (Range)
open Motive.Slot Motive.Slot.OvershootSlot
open Motive.Float.Range (sym)
open Motive.Float.Angle (kPi mem_kPi)

section Model
variable (rnd : ℚ → ℚ)

/-- `Normalize` (overshoot_processor.cpp:188-190). -/
def normalize (i : OvershootInit ℚ) (x : ℚ) : Option ℚ := if i.modular then Range.normalize rnd i.range x else some x

/-- Acceleration in `CalculateVelocity` (overshoot_processor.cpp:160-164). -/
def acceleration (s : OvershootSlot ℚ) (diff : ℚ) : ℚ :=
  rnd (rnd (diff * s.init.accel) * (if rnd (s.velocity * diff) < 0 then s.init.wrongMultiplier else 1))

/-- The end of `CalculateVelocity` (overshoot_processor.cpp:165-174), for a given difference to the target. -/
def velocityFor (s : OvershootSlot ℚ) (dt : ℤ) (diff : ℚ) : ℚ :=
  let v := s.init.clampVelocity (rnd (s.velocity + rnd (rnd dt * acceleration rnd s diff)))
  if s.init.atTarget diff v then 0 else v

/-- `CalculateVelocity` (overshoot_processor.cpp:151-175). -/
def newVelocity (s : OvershootSlot ℚ) (dt : ℤ) : Option ℚ :=
  (normalize rnd s.init (rnd (s.target - s.value))).map (velocityFor rnd s dt)

/-- `CalculateValue` (overshoot_processor.cpp:177-186), after `velocity` has been updated. -/
def newValue (s : OvershootSlot ℚ) (dt : ℤ) : Option ℚ :=
  if s.velocity = 0 then some s.target
  else (normalize rnd s.init (rnd (s.value + s.init.clampDelta (rnd (rnd dt * s.velocity))))).map s.init.range.clamp

/-- The two assignments in the inner loop of `AdvanceFrame` (overshoot_processor.cpp:37-38). -/
def substep (s : OvershootSlot ℚ) (dt : ℤ) : Option (OvershootSlot ℚ) :=
  (newVelocity rnd s dt).bind fun v =>
    let s' := { s with velocity := v }
    (newValue rnd s' dt).map fun x => { s' with value := x }

/-- The inner loop of `AdvanceFrame` (overshoot_processor.cpp:34-41). `MotiveTime` is a 32 bit `int`. -/
def loop (timeRemaining : ℤ) (s : OvershootSlot ℚ) : Option (OvershootSlot ℚ) :=
  if 0 < timeRemaining then
    match substep rnd s (min timeRemaining s.init.maxDt) with
    | none => none
    | some s' =>
      if 2147483647 < timeRemaining - min timeRemaining s.init.maxDt then none
      else loop (timeRemaining - min timeRemaining s.init.maxDt) s'
  else some s
partial_fixpoint

/-- One call (overshoot_processor.cpp:25-43, 93-108). Setting targets does not compute anything. -/
def apply (s : OvershootSlot ℚ) : Op ℚ → Option (OvershootSlot ℚ)
  | .frame dt => loop rnd dt s
  | .setTarget nodes => s.setTarget nodes

/-- Any number of calls. -/
def run (s : OvershootSlot ℚ) (ops : List (Op ℚ)) : Option (OvershootSlot ℚ) := ops.foldlM (apply rnd) s

end Model

/-! ### Specification -/

/-- A configuration in single precision that makes sense: as `OvershootInit.Legal`, in floats. A modular range is symmetric about 0, and
there is a float between the greatest value reached by a greatest step and the values that `Normalize` can no longer bring back. -/
structure Legal (F : Fmt) (i : OvershootInit ℚ) : Prop where
  maxDt : 0 < i.maxDt
  maxVelocity : 0 ≤ i.maxVelocity
  maxDelta : 0 ≤ i.maxDelta
  memVelocity : F.Mem i.maxVelocity
  memStart : F.Mem i.range.start
  memStop : F.Mem i.range.stop
  range : i.range.start ≤ i.range.stop
  modular : i.modular = true → ∃ a b, i.range = sym a ∧ 0 < a ∧ F.Mem b ∧ a + i.maxDelta ≤ b ∧ b < 3 * a

/-- Values of a motivator: floats, inside the range, at most the greatest speed. -/
structure Good (F : Fmt) (s : OvershootSlot ℚ) : Prop where
  value : s.init.Inside s.value
  target : s.init.Inside s.target
  speed : |s.velocity| ≤ s.init.maxVelocity
  memValue : F.Mem s.value
  memTarget : F.Mem s.target
  memVelocity : F.Mem s.velocity

/-- A call that respects the limits and passes floats. -/
def Respects (F : Fmt) (i : OvershootInit ℚ) (o : Op ℚ) : Prop :=
  o.Respects i ∧ match o with
    | .frame _ => True
    | .setTarget nodes => ∀ n ∈ nodes, F.Mem n.value ∧ F.Mem n.velocity

/-! ### Steps -/

variable {F : Fmt} {rnd : ℚ → ℚ}

theorem substep_some {s s' : OvershootSlot ℚ} {dt : ℤ} (h : substep rnd s dt = some s') :
    ∃ diff x, normalize rnd s.init (rnd (s.target - s.value)) = some diff ∧
      newValue rnd { s with velocity := velocityFor rnd s dt diff } dt = some x ∧
      s' = { s with velocity := velocityFor rnd s dt diff, value := x } := by
  unfold substep newVelocity at h
  cases hd : normalize rnd s.init (rnd (s.target - s.value)) with
  | none => rw [hd] at h; simp at h
  | some diff =>
    rw [hd] at h
    simp only [Option.map_some, Option.bind_some] at h
    cases hx : newValue rnd { s with velocity := velocityFor rnd s dt diff } dt with
    | none => rw [hx] at h; simp at h
    | some x =>
      rw [hx] at h
      simp only [Option.map_some, Option.some.injEq] at h
      exact ⟨diff, x, rfl, hx, h.symm⟩

theorem substep_of {s : OvershootSlot ℚ} {dt : ℤ} {diff x : ℚ}
    (h1 : normalize rnd s.init (rnd (s.target - s.value)) = some diff)
    (h2 : newValue rnd { s with velocity := velocityFor rnd s dt diff } dt = some x) :
    substep rnd s dt = some { s with velocity := velocityFor rnd s dt diff, value := x } := by
  unfold substep newVelocity
  rw [h1]
  simp only [Option.map_some, Option.bind_some]
  rw [h2]
  rfl

theorem substep_keeps {s s' : OvershootSlot ℚ} {dt : ℤ} (h : substep rnd s dt = some s') :
    s'.init = s.init ∧ s'.target = s.target := by
  obtain ⟨diff, x, -, -, rfl⟩ := substep_some h
  exact ⟨rfl, rfl⟩

theorem mem_clampTo {x lo hi : ℚ} (hx : F.Mem x) (h1 : F.Mem lo) (h2 : F.Mem hi) : F.Mem (clampTo x lo hi) := by
  unfold clampTo
  rcases max_choice lo (min x hi) with h | h <;> rw [h]
  · exact h1
  · rcases min_choice x hi with h | h <;> rw [h] <;> assumption

theorem velocityFor_abs {s : OvershootSlot ℚ} (h : 0 ≤ s.init.maxVelocity) (dt : ℤ) (diff : ℚ) :
    |velocityFor rnd s dt diff| ≤ s.init.maxVelocity := by
  unfold velocityFor
  simp only
  split_ifs
  · simpa using h
  · exact clampVelocity_abs h _

theorem velocityFor_mem (h : Nearest F rnd) {s : OvershootSlot ℚ} (hm : F.Mem s.init.maxVelocity) (dt : ℤ) (diff : ℚ) :
    F.Mem (velocityFor rnd s dt diff) := by
  unfold velocityFor
  simp only
  split_ifs
  · exact mem_zero
  · exact mem_clampTo (h.mem _) (mem_neg hm) hm

/-- With a legal configuration a step from inside the range succeeds and stays inside. -/
theorem substep_inside (h : Nearest F rnd) {s : OvershootSlot ℚ} (hl : Legal F s.init) (hg : Good F s) (dt : ℤ) :
    ∃ s', substep rnd s dt = some s' ∧ Good F s' := by
  have hdiff : ∃ d, normalize rnd s.init (rnd (s.target - s.value)) = some d := by
    unfold normalize
    by_cases hm : s.init.modular = true
    · rw [if_pos hm]
      obtain ⟨a, b, hr, ha, -⟩ := hl.modular hm
      have hv := hg.value; have ht := hg.target
      unfold OvershootInit.Inside at hv ht
      rw [if_pos hm, hr] at hv ht
      have hma : F.Mem a := by have := hl.memStop; rwa [hr] at this
      simp only [sym] at hv ht
      have h2 : F.Mem (2 * a) := by
        have := mem_mul_zpow (F := F) (k := 1) (by norm_num) hma
        rwa [zpow_one, mul_comm] at this
      have u1 := h.le_of_le h2 (x := s.target - s.value) (by linarith)
      have u2 := h.ge_of_ge (mem_neg h2) (x := s.target - s.value) (by linarith)
      obtain ⟨y, hy, -⟩ := Range.C83_normalize h hma (h.mem (s.target - s.value)) ha (by linarith) (by linarith)
      exact ⟨y, by rw [hr]; exact hy⟩
    · rw [if_neg hm]; exact ⟨_, rfl⟩
  obtain ⟨d, hd⟩ := hdiff
  have hx : ∃ x, newValue rnd { s with velocity := velocityFor rnd s dt d } dt = some x ∧ s.init.Inside x ∧ F.Mem x := by
    unfold newValue
    by_cases h0 : velocityFor rnd s dt d = 0
    · rw [if_pos h0]; exact ⟨_, rfl, hg.target, hg.memTarget⟩
    · rw [if_neg h0]
      simp only
      have hc := abs_le.mp (clampDelta_abs hl.maxDelta (i := s.init) (rnd (rnd dt * velocityFor rnd s dt d)))
      unfold normalize
      by_cases hm : s.init.modular = true
      · rw [if_pos hm]
        obtain ⟨a, b, hr, ha, hb, hab, hb3⟩ := hl.modular hm
        have hma : F.Mem a := by have := hl.memStop; rwa [hr] at this
        have hv := hg.value
        unfold OvershootInit.Inside at hv
        rw [if_pos hm, hr] at hv
        simp only [sym] at hv
        set dl := s.init.clampDelta (rnd (rnd dt * velocityFor rnd s dt d)) with hdl
        have u1 := h.le_of_le hb (x := s.value + dl) (by linarith)
        have u2 := h.ge_of_ge (mem_neg hb) (x := s.value + dl) (by linarith)
        obtain ⟨y, hy, hmy, ⟨c1, c2⟩, -⟩ := Range.C83_normalize h hma (h.mem (s.value + dl)) ha (by linarith) (by linarith)
        rw [hr, hy]
        refine ⟨_, rfl, ?_⟩
        rw [range_clamp_eq c1.le c2]
        unfold OvershootInit.Inside
        rw [if_pos hm, hr]; exact ⟨⟨c1, c2⟩, hmy⟩
      · rw [if_neg hm]
        refine ⟨_, rfl, ?_, mem_clampTo (h.mem _) hl.memStart hl.memStop⟩
        unfold OvershootInit.Inside
        rw [if_neg hm]
        exact range_clamp_inside hl.range _
  obtain ⟨x, hx, hin, hmx⟩ := hx
  exact ⟨_, substep_of hd hx, ⟨hin, hg.target, velocityFor_abs hl.maxVelocity dt d, hmx, hg.memTarget,
    velocityFor_mem h hl.memVelocity dt d⟩⟩

/-! ### Frames -/

theorem loop_done {t : ℤ} (h : t ≤ 0) (s : OvershootSlot ℚ) : loop rnd t s = some s := by
  rw [loop, if_neg (by omega)]

theorem loop_steps {s : OvershootSlot ℚ} (hm : 0 < s.init.maxDt) {t : ℤ} (ht : 0 ≤ t) (hi : t ≤ 2147483647) :
    loop rnd t s = (stepsOf t s.init.maxDt).foldlM (substep rnd) s := by
  obtain ⟨n, hn⟩ : ∃ n : ℕ, t ≤ n := ⟨t.toNat, by omega⟩
  induction n generalizing t s with
  | zero =>
    have : t = 0 := by push_cast at hn; omega
    subst this
    rw [loop_done le_rfl]
    simp [stepsOf]
  | succ n ih =>
    by_cases h0 : t = 0
    · subst h0
      rw [loop_done le_rfl]
      simp [stepsOf]
    rw [loop, if_pos (by omega)]
    by_cases hle : t ≤ s.init.maxDt
    · rw [min_eq_left hle, stepsOf_small (by omega) hle, List.foldlM_cons]
      cases hs : substep rnd s t with
      | none => rfl
      | some s' =>
        simp only [sub_self]
        rw [if_neg (by omega), loop_done le_rfl]
        rfl
    · push Not at hle
      rw [min_eq_right hle.le, stepsOf_large hm hle, List.foldlM_cons]
      cases hs : substep rnd s s.init.maxDt with
      | none => rfl
      | some s' =>
        simp only
        rw [if_neg (by omega)]
        have hk := (substep_keeps hs).1
        rw [ih (s := s') (by rw [hk]; exact hm) (by omega) (by omega) (by push_cast at hn; omega), hk]
        rfl

/-- What every step preserves holds after a frame. -/
theorem loop_keeps {P : OvershootSlot ℚ → Prop} {i : OvershootInit ℚ} (hm : 0 < i.maxDt)
    (hstep : ∀ s, P s → s.init = i → ∀ d, 0 < d → d ≤ i.maxDt → ∃ s', substep rnd s d = some s' ∧ P s')
    {s : OvershootSlot ℚ} (hP : P s) (hs : s.init = i) {t : ℤ} (hi : t ≤ 2147483647) :
    ∃ s', loop rnd t s = some s' ∧ P s' ∧ s'.init = i ∧ s'.target = s.target := by
  rcases le_or_gt t 0 with h | h
  · exact ⟨s, loop_done h s, hP, hs, rfl⟩
  · rw [loop_steps (by rw [hs]; exact hm) h.le hi]
    have hmem := (stepsOf_sum (m := s.init.maxDt) (by rw [hs]; exact hm) h.le).2
    generalize stepsOf t s.init.maxDt = l at hmem
    rw [hs] at hmem
    clear h hi
    induction l generalizing s with
    | nil => exact ⟨s, rfl, hP, hs, rfl⟩
    | cons d l ih =>
      obtain ⟨m1, m2⟩ := hmem d (by simp)
      obtain ⟨s1, e1, e2⟩ := hstep s hP hs d m1 m2
      obtain ⟨k1, k2⟩ := substep_keeps e1
      obtain ⟨s2, f1, f2, f3, f4⟩ := ih (s := s1) e2 (by rw [k1, hs]) (fun d hd => hmem d (by simp [hd]))
      refine ⟨s2, ?_, f2, f3, by rw [f4, k2]⟩
      rw [List.foldlM_cons, e1]
      exact f1

/-- **C92**. In single precision, with a sensible configuration: whatever frames pass and whatever values inside the limits are set, every
call succeeds, the value is a float inside the range and the speed is at most the greatest velocity. -/
theorem C92_limits (h : Nearest F rnd) {s : OvershootSlot ℚ} (hl : Legal F s.init) (hg : Good F s) (ops : List (Op ℚ))
    (hops : ∀ o ∈ ops, Respects F s.init o) : ∃ s', run rnd s ops = some s' ∧ s'.init = s.init ∧ Good F s' := by
  unfold run
  induction ops generalizing s with
  | nil => exact ⟨s, rfl, rfl, hg⟩
  | cons o ops ih =>
    have hone : ∃ s1, apply rnd s o = some s1 ∧ s1.init = s.init ∧ Good F s1 := by
      have ho := hops o (by simp)
      match o, ho with
      | .frame dt, ho =>
        obtain ⟨s1, e1, e2, e3, -⟩ := loop_keeps (P := Good F) hl.maxDt
          (fun s' hs' hi d _ _ => substep_inside h (by rw [hi]; exact hl) hs' d) hg rfl ho.1
        exact ⟨s1, e1, e3, e2⟩
      | .setTarget [], ho => exact absurd rfl ho.1.1
      | .setTarget (n0 :: rest), ho =>
        simp only [apply, setTarget]
        have h0 := ho.1.2 n0 (by simp)
        have h0' := ho.2 n0 (by simp)
        by_cases hz : n0.time = 0
        · rw [if_pos hz]
          match rest, ho with
          | [], _ => exact ⟨_, rfl, rfl, h0.1, hg.target, h0.2, h0'.1, hg.memTarget, h0'.2⟩
          | n1 :: _, ho =>
            exact ⟨_, rfl, rfl, h0.1, (ho.1.2 n1 (by simp)).1, h0.2, h0'.1, (ho.2 n1 (by simp)).1, h0'.2⟩
        · rw [if_neg hz]; exact ⟨_, rfl, rfl, hg.value, h0.1, hg.speed, hg.memValue, h0'.1, hg.memVelocity⟩
    obtain ⟨s1, h1, h2, h3⟩ := hone
    obtain ⟨s2, e1, e2, e3⟩ := ih (s := s1) (by rw [h2]; exact hl) h3 (fun o ho => by rw [h2]; exact hops o (by simp [ho]))
    exact ⟨s2, by rw [List.foldlM_cons, h1]; exact e1, by rw [e2, h2], e3⟩

/-- An angle: the range `(-kPi, kPi]` and steps of up to half a turn. -/
def angleInit : OvershootInit ℚ := ⟨sym kPi, true, 1 / 8, kPi, 1 / 64, 1 / 64, 1 / 1024, 4, 10⟩

example : Legal f32 angleInit ∧ Good f32 ⟨angleInit, 0, 3, -2⟩ ∧
    ∀ o ∈ ([.frame 33, .setTarget [⟨1, 1 / 16, 0⟩, ⟨-3, 0, 7⟩], .frame 5] : List (Op ℚ)), Respects f32 angleInit o := by
  have m2 : f32.Mem (2 * kPi) := Range.mem32 13176795 (-21) _ (by norm_num) (by norm_num) (by norm_num [kPi])
  have mi : ∀ n : ℤ, |n| ≤ 3 → f32.Mem n := fun n hn => mem_int (le_trans hn (by norm_num [f32])) (by norm_num [f32])
  refine ⟨⟨by decide, by norm_num [angleInit], by norm_num [angleInit, kPi],
      Range.mem32 1 (-3) _ (by norm_num) (by norm_num) (by norm_num [angleInit]), mem_neg mem_kPi, mem_kPi,
      by norm_num [angleInit, sym, kPi], fun _ => ⟨kPi, 2 * kPi, rfl, by norm_num [kPi], m2, by norm_num [angleInit, kPi], by norm_num [kPi]⟩⟩,
    ⟨by norm_num [angleInit, OvershootInit.Inside, sym, kPi], by norm_num [angleInit, OvershootInit.Inside, sym, kPi],
      by norm_num [angleInit], by exact_mod_cast mi (-2) (by norm_num), by exact_mod_cast mi 3 (by norm_num), mem_zero⟩, ?_⟩
  intro o ho
  simp only [List.mem_cons, List.not_mem_nil, or_false] at ho
  rcases ho with rfl | rfl | rfl
  · exact ⟨by norm_num [Op.Respects], trivial⟩
  · refine ⟨⟨by simp, ?_⟩, ?_⟩
    · intro n hn
      simp only [List.mem_cons, List.not_mem_nil, or_false] at hn
      rcases hn with rfl | rfl <;> norm_num [angleInit, OvershootInit.Inside, sym, kPi]
    · intro n hn
      simp only [List.mem_cons, List.not_mem_nil, or_false] at hn
      rcases hn with rfl | rfl
      · exact ⟨by exact_mod_cast mi 1 (by norm_num), Range.mem32 1 (-4) _ (by norm_num) (by norm_num) (by norm_num)⟩
      · exact ⟨by exact_mod_cast mi (-3) (by norm_num), mem_zero⟩
  · exact ⟨by norm_num [Op.Respects], trivial⟩

/-- **C92**, disagreement. The condition of the exact model, that a step is at most as long as the range, is not enough in single
precision: here the sum of the value and a greatest step is rounded past the values that `Normalize` brings back, and its assertion fails
(range.h:110). -/
theorem C92_longest_step_fails :
    let a : ℚ := 3 / 2 + 5 / 2 ^ 23
    let s : OvershootSlot ℚ := ⟨⟨sym a, true, 8, 2 * a, 0, 0, 4, 1, 1⟩, -8, -1, -(3 / 2 + 4 / 2 ^ 23)⟩
    s.init.Legal ∧ Good f32 s ∧ (s.substep 1).isSome = true ∧ substep (rne f32) s 1 = none := by
  refine ⟨⟨by decide, by norm_num, by norm_num, by norm_num [sym], fun _ => by norm_num [sym]⟩, ⟨?_, ?_, by norm_num, ?_, ?_, ?_⟩,
    by decide +kernel, by decide +kernel⟩
  · norm_num [OvershootInit.Inside, sym]
  · norm_num [OvershootInit.Inside, sym]
  · exact Range.mem32 (-12582916) (-23) _ (by norm_num) (by norm_num) (by norm_num)
  · exact Range.mem32 (-1) 0 _ (by norm_num) (by norm_num) (by norm_num)
  · exact Range.mem32 (-1) 3 _ (by norm_num) (by norm_num) (by norm_num)

/-! ### Settling -/

theorem rintEven_neg (q : ℚ) : rintEven (-q) = -rintEven q := by
  have h1 := Int.floor_le q
  have h2 := Int.lt_floor_add_one q
  by_cases hq : (⌊q⌋ : ℚ) = q
  · have hf : ⌊-q⌋ = -⌊q⌋ := by
      rw [Int.floor_eq_iff]; push_cast; constructor <;> linarith
    unfold rintEven
    rw [hf, if_pos (by push_cast; linarith), if_pos (by linarith)]
  · have hlt : (⌊q⌋ : ℚ) < q := lt_of_le_of_ne h1 hq
    have hf : ⌊-q⌋ = -⌊q⌋ - 1 := by
      rw [Int.floor_eq_iff]; push_cast; constructor <;> linarith
    unfold rintEven
    rw [hf]
    push_cast
    split_ifs <;> first | omega | (exfalso; linarith)

/-- Rounding to nearest even commutes with changes of sign. -/
theorem rne_neg (F : Fmt) (x : ℚ) : rne F (-x) = -rne F x := by
  have hu : ulpExp F (-x) = ulpExp F x := by unfold ulpExp; rw [abs_neg]
  unfold rne
  rw [hu, neg_div, rintEven_neg]
  push_cast; ring

theorem abs_rnd_le (h : Nearest F rnd) (hodd : ∀ x, rnd (-x) = -rnd x) {x y : ℚ} (hxy : |x| ≤ y) : |rnd x| ≤ rnd y := by
  obtain ⟨h1, h2⟩ := abs_le.mp hxy
  exact abs_le.mpr ⟨by rw [← hodd]; exact h.mono h1, h.mono h2⟩

theorem normalize_zero (h : Nearest F rnd) {i : OvershootInit ℚ} (hl : SettleLegal i) : normalize rnd i 0 = some 0 := by
  unfold normalize
  by_cases hm : i.modular = true
  · rw [if_pos hm]
    obtain ⟨h1, h2⟩ := hl.modular hm
    unfold Range.normalize Range.modularAdjustment Motive.Math.Range.containsExclStart
    simp only [if_neg (not_le.mpr h1), if_neg (not_lt.mpr h2), add_zero, h.zero]
    rw [if_pos ⟨h1, h2⟩]
  · rw [if_neg hm]

theorem settled_substep (h : Nearest F rnd) {s : OvershootSlot ℚ} (hl : SettleLegal s.init) (hs : s.Settled) (dt : ℤ) :
    substep rnd s dt = some s := by
  obtain ⟨h1, h2⟩ := hs
  have hd : normalize rnd s.init (rnd (s.target - s.value)) = some 0 := by
    rw [h1, sub_self, h.zero]; exact normalize_zero h hl
  have hv : velocityFor rnd s dt 0 = 0 := by
    unfold velocityFor acceleration
    rw [h2]
    simp only [zero_mul, h.zero, mul_zero, add_zero]
    have : s.init.clampVelocity 0 = 0 := by
      unfold OvershootInit.clampVelocity clampTo
      rw [min_eq_left hl.maxVelocity, max_eq_right (by linarith [hl.maxVelocity])]
    rw [this]; simp
  have := substep_of (dt := dt) (x := s.target) hd (by unfold newValue; rw [if_pos hv])
  rw [this, hv]
  congr 1
  cases s
  simp only at h1 h2
  simp [h1, h2]

/-- **C92**. A motivator that is on its target and not moving stays exactly there through any frames. -/
theorem C92_stays (h : Nearest F rnd) {s : OvershootSlot ℚ} (hl : SettleLegal s.init) (hs : s.Settled) (ts : List ℤ)
    (hts : ∀ t ∈ ts, t ≤ 2147483647) : run rnd s (ts.map Op.frame) = some s := by
  unfold run
  induction ts with
  | nil => rfl
  | cons t ts ih =>
    obtain ⟨s', e1, e2, -⟩ := loop_keeps (rnd := rnd) (P := fun x => x = s) hl.maxDt (i := s.init)
      (fun x hx _ d _ _ => ⟨x, by rw [hx]; exact settled_substep h hl hs d, hx⟩) rfl rfl (hts t (by simp))
    rw [List.map_cons, List.foldlM_cons, apply, e1, e2]
    exact ih fun t ht => hts t (by simp [ht])

/-- The greatest change of velocity in a step from a difference within the threshold, in single precision. -/
def kick (rnd : ℚ → ℚ) (i : OvershootInit ℚ) : ℚ :=
  rnd (rnd i.maxDt * rnd (rnd (i.atDifference * |i.accel|) * max 1 |i.wrongMultiplier|))

/-- **C92**. A motivator whose computed distance to the target is within the threshold, and whose speed is within the threshold even after
the acceleration of one step, is exactly on its target with velocity 0 after the next frame with time in it, and stays there. -/
theorem C92_settles (h : Nearest F rnd) (hodd : ∀ x, rnd (-x) = -rnd x) {s : OvershootSlot ℚ} (hl : SettleLegal s.init) {diff : ℚ}
    (hd : normalize rnd s.init (rnd (s.target - s.value)) = some diff) (h1 : |diff| ≤ s.init.atDifference)
    (h2 : rnd (|s.velocity| + kick rnd s.init) ≤ s.init.atVelocity) {t : ℤ} (ht : 0 < t) (ts : List ℤ)
    (hts : ∀ x ∈ t :: ts, x ≤ 2147483647) :
    run rnd s ((t :: ts).map Op.frame) = some { s with value := s.target, velocity := 0 } := by
  have hstep : ∀ d : ℤ, 0 < d → d ≤ s.init.maxDt →
      substep rnd s d = some { s with value := s.target, velocity := 0 } := by
    intro d hd0 hdm
    have hacc : |rnd (rnd d * acceleration rnd s diff)| ≤ kick rnd s.init := by
      unfold acceleration kick
      have hmul : |(if rnd (s.velocity * diff) < 0 then s.init.wrongMultiplier else 1 : ℚ)| ≤ max 1 |s.init.wrongMultiplier| := by
        split_ifs
        · exact le_max_right _ _
        · rw [abs_one]; exact le_max_left _ _
      have hA : |rnd (diff * s.init.accel)| ≤ rnd (s.init.atDifference * |s.init.accel|) :=
        abs_rnd_le h hodd (by rw [abs_mul]; exact mul_le_mul_of_nonneg_right h1 (abs_nonneg _))
      have hD : |rnd (d : ℚ)| ≤ rnd (s.init.maxDt : ℚ) := by
        refine abs_rnd_le h hodd ?_
        rw [abs_of_pos (by exact_mod_cast hd0)]; exact_mod_cast hdm
      refine abs_rnd_le h hodd ?_
      rw [abs_mul]
      refine mul_le_mul hD (abs_rnd_le h hodd ?_) (abs_nonneg _) ((abs_nonneg _).trans hD)
      rw [abs_mul]
      exact mul_le_mul hA hmul (abs_nonneg _) ((abs_nonneg _).trans hA)
    have hu : |rnd (s.velocity + rnd (rnd d * acceleration rnd s diff))| ≤ s.init.atVelocity :=
      (abs_rnd_le h hodd ((abs_add_le _ _).trans (by linarith))).trans h2
    have hc : |s.init.clampVelocity (rnd (s.velocity + rnd (rnd d * acceleration rnd s diff)))| ≤ s.init.atVelocity := by
      unfold OvershootInit.clampVelocity clampTo
      obtain ⟨u1, u2⟩ := abs_le.mp hu
      have hm := hl.maxVelocity
      have h0 : 0 ≤ s.init.atVelocity := (abs_nonneg _).trans hu
      rw [abs_le]
      constructor
      · exact le_trans (le_min u1 (by linarith)) (le_max_right _ _)
      · exact max_le (by linarith) ((min_le_left _ _).trans u2)
    have hv : velocityFor rnd s d diff = 0 := by
      unfold velocityFor
      simp only
      exact if_pos ⟨h1, hc⟩
    have := substep_of (dt := d) (x := s.target) hd (by unfold newValue; rw [if_pos hv])
    rw [this, hv]
  have hset : ({ s with value := s.target, velocity := 0 } : OvershootSlot ℚ).Settled := ⟨rfl, rfl⟩
  have hfirst : loop rnd t s = some { s with value := s.target, velocity := 0 } := by
    have hti := hts t (by simp)
    obtain ⟨hsum, hmem⟩ := stepsOf_sum hl.maxDt ht.le
    rw [loop_steps hl.maxDt ht.le hti]
    cases hsteps : stepsOf t s.init.maxDt with
    | nil => rw [hsteps] at hsum; simp at hsum; omega
    | cons d l =>
      obtain ⟨m1, m2⟩ := hmem d (by rw [hsteps]; simp)
      rw [List.foldlM_cons, hstep d m1 m2]
      clear hsteps
      induction l with
      | nil => rfl
      | cons e l ih =>
        simp only [Option.bind_eq_bind, Option.bind_some, List.foldlM_cons] at ih ⊢
        rw [settled_substep h (s := { s with value := s.target, velocity := 0 }) hl hset e]
        exact ih
  unfold run
  rw [List.map_cons, List.foldlM_cons, apply, hfirst]
  exact C92_stays h (s := { s with value := s.target, velocity := 0 }) hl hset ts fun x hx => hts x (by simp [hx])

example : let s : OvershootSlot ℚ := ⟨⟨sym 3, true, 2, 1, 1 / 64, 1 / 2, 1 / 8, 4, 10⟩, 1 / 64, -383 / 128, 3⟩
    SettleLegal s.init ∧ normalize (rne f32) s.init (rne f32 (s.target - s.value)) = some (1 / 128) ∧
      |(1 / 128 : ℚ)| ≤ s.init.atDifference ∧ rne f32 (|s.velocity| + kick (rne f32) s.init) ≤ s.init.atVelocity :=
  ⟨⟨by decide, by norm_num, fun _ => by norm_num [sym]⟩, by decide +kernel, by norm_num, by decide +kernel⟩

/-! ### Stalling -/

/-- **C92**, disagreement. A slow motivator far from 0 never moves in single precision: its value is `n * 2 ^ e` with a full significand,
and a greatest step is less than half of a unit in its last place. However long it is below its target, further than the threshold, its
value stays what it is. -/
theorem C92_slow_motion_stalls (h : Nearest F rnd) (hF : F.emin ≤ 0) {s : OvershootSlot ℚ} (hl : Legal F s.init)
    (hm : s.init.modular = false) {n e : ℤ} (hval : s.value = n * 2 ^ e) (hn : |n| < 2 ^ F.p) (hfull : 2 ^ (F.p - 1) < |n|) (he : F.emin ≤ e)
    (hin : s.init.Inside s.value) (hv : 0 ≤ s.velocity)
    (hfar : s.init.atDifference < rnd (s.target - s.value)) (hat : 0 ≤ s.init.atDifference)
    (hacc : 0 < rnd (rnd (s.target - s.value) * s.init.accel)) (hspeed : 0 < s.init.maxVelocity)
    (hslow : min s.init.maxDelta (rnd (rnd s.init.maxDt * s.init.maxVelocity)) < 2 ^ (e - 1))
    (ts : List ℤ) (hts : ∀ t ∈ ts, t ≤ 2147483647) :
    ∃ s', run rnd s (ts.map Op.frame) = some s' ∧ s'.value = s.value ∧ s'.target = s.target ∧ s'.value ≠ s'.target := by
  set d := rnd (s.target - s.value) with hd
  have hne : s.value ≠ s.target := by
    intro heq
    rw [heq, sub_self, h.zero] at hd
    linarith
  have hd0 : 0 < d := lt_of_le_of_lt hat hfar
  have m1 : F.Mem 1 := by
    have h : |(1 : ℤ)| ≤ 2 ^ F.p := by rw [abs_one]; exact one_le_pow₀ (by norm_num)
    exact_mod_cast mem_int h hF
  set P : OvershootSlot ℚ → Prop := fun x => x.value = s.value ∧ x.target = s.target ∧ 0 ≤ x.velocity with hP
  have hstep : ∀ x, P x → x.init = s.init → ∀ dt : ℤ, 0 < dt → dt ≤ s.init.maxDt → ∃ x', substep rnd x dt = some x' ∧ P x' := by
    rintro x ⟨p1, p2, p3⟩ hi dt hdt hdm
    have hdiff : normalize rnd x.init (rnd (x.target - x.value)) = some d := by
      unfold normalize
      rw [hi, hm, p1, p2]; rfl
    have hdt1 : 1 ≤ rnd (dt : ℚ) := h.ge_of_ge m1 (by exact_mod_cast hdt)
    have hdtm : rnd (dt : ℚ) ≤ rnd (s.init.maxDt : ℚ) := h.mono (by exact_mod_cast hdm)
    have hA : acceleration rnd x d = rnd (d * s.init.accel) := by
      unfold acceleration
      have : ¬ rnd (x.velocity * d) < 0 := not_lt.mpr (h.ge_of_ge mem_zero (mul_nonneg p3 hd0.le))
      rw [if_neg this, mul_one, h.exact (h.mem _), hi]
    have hu : rnd (d * s.init.accel) ≤ rnd (x.velocity + rnd (rnd dt * acceleration rnd x d)) := by
      rw [hA]
      have : rnd (d * s.init.accel) ≤ rnd (rnd dt * rnd (d * s.init.accel)) :=
        h.ge_of_ge (h.mem _) (by nlinarith)
      exact h.ge_of_ge (h.mem _) (by linarith)
    have hvel : 0 < velocityFor rnd x dt d ∧ velocityFor rnd x dt d ≤ s.init.maxVelocity := by
      have hnot : ∀ v, ¬ x.init.atTarget d v := by
        rintro v ⟨h1, -⟩
        rw [hi, abs_of_pos hd0] at h1
        linarith
      unfold velocityFor
      simp only
      rw [if_neg (hnot _), hi]
      unfold OvershootInit.clampVelocity clampTo
      exact ⟨lt_max_of_lt_right (lt_min (by linarith) hspeed), max_le (by linarith) (min_le_right _ _)⟩
    have hx : newValue rnd { x with velocity := velocityFor rnd x dt d } dt = some s.value := by
      unfold newValue
      rw [if_neg hvel.1.ne']
      simp only
      set q := rnd (rnd dt * velocityFor rnd x dt d) with hq
      have q0 : 0 ≤ q := h.ge_of_ge mem_zero (mul_nonneg (by linarith) hvel.1.le)
      have q1 : q ≤ rnd (rnd s.init.maxDt * s.init.maxVelocity) :=
        h.mono (mul_le_mul hdtm hvel.2 hvel.1.le (by linarith))
      have hD : 0 ≤ x.init.clampDelta q ∧ x.init.clampDelta q < 2 ^ (e - 1) := by
        rw [hi]
        unfold OvershootInit.clampDelta clampTo
        have hmd := hl.maxDelta
        refine ⟨le_max_of_le_right (le_min q0 hmd), max_lt ?_ (lt_of_le_of_lt ?_ hslow)⟩
        · have := two_zpow_pos (e - 1); linarith
        · exact le_min (min_le_right _ _) ((min_le_left _ _).trans q1)
      have hr : rnd (x.value + x.init.clampDelta q) = s.value := by
        rw [hval]
        refine h.eq_of_close hn he (Or.inr hfull) ?_
        rw [p1, hval, add_sub_cancel_left, abs_of_nonneg hD.1]
        exact hD.2
      rw [hr]
      unfold normalize
      rw [hi, hm]
      simp only [Bool.false_eq_true, if_false, Option.map_some, Option.some.injEq]
      unfold OvershootInit.Inside at hin
      simp only [hm, Bool.false_eq_true, if_false] at hin
      exact range_clamp_eq hin.1 hin.2
    exact ⟨_, substep_of hdiff hx, rfl, p2, hvel.1.le⟩
  have key : ∀ (ts : List ℤ), (∀ t ∈ ts, t ≤ 2147483647) → ∀ x, P x → x.init = s.init →
      ∃ s', run rnd x (ts.map Op.frame) = some s' ∧ P s' := by
    intro ts
    induction ts with
    | nil => intro _ x hx _; exact ⟨x, rfl, hx⟩
    | cons t ts ih =>
      intro hts x hx hi
      obtain ⟨x1, e1, e2, e3, -⟩ := loop_keeps (rnd := rnd) hl.maxDt hstep hx hi (hts t (by simp))
      obtain ⟨x2, f1, f2⟩ := ih (fun t ht => hts t (by simp [ht])) x1 e2 e3
      refine ⟨x2, ?_, f2⟩
      unfold run at f1 ⊢
      rw [List.map_cons, List.foldlM_cons, apply, e1]
      exact f1
  obtain ⟨s', e1, e2, e3, -⟩ := key ts hts s ⟨rfl, rfl, hv⟩ rfl
  exact ⟨s', e1, e2, e3, by rw [e2, e3]; exact hne⟩

/-- In exact arithmetic the same motivator moves: from 1000 towards 1001, in steps of at most `2 ^ -16`. -/
example : let s : OvershootSlot ℚ := ⟨⟨⟨0, 2000⟩, false, 1 / 2 ^ 16, 1, 1 / 64, 1 / 64, 1 / 2 ^ 16, 1, 1⟩, 0, 1001, 1000⟩
    (∀ n : ℕ, ∃ s', run (rne f32) s ((List.replicate n 30).map Op.frame) = some s' ∧ s'.value = 1000) ∧
    s.substep 1 = some { s with velocity := 1 / 2 ^ 16, value := 1000 + 1 / 2 ^ 16 } := by
  refine ⟨fun n => ?_, by decide +kernel⟩
  obtain ⟨s', e1, e2, -⟩ := C92_slow_motion_stalls (rne_nearest f32) (by norm_num [f32])
    (s := ⟨⟨⟨0, 2000⟩, false, 1 / 2 ^ 16, 1, 1 / 64, 1 / 64, 1 / 2 ^ 16, 1, 1⟩, 0, 1001, 1000⟩) (n := 16384000) (e := -14)
    ⟨by decide, by norm_num, by norm_num, Range.mem32 1 (-16) _ (by norm_num) (by norm_num) (by norm_num), mem_zero,
      Range.mem32 2000 0 _ (by norm_num) (by norm_num) (by norm_num), by norm_num, by simp⟩ rfl (by norm_num) (by norm_num [f32])
    (by norm_num [f32]) (by norm_num [f32]) (by norm_num [OvershootInit.Inside]) le_rfl (by decide +kernel) (by norm_num)
    (by decide +kernel) (by norm_num) (by decide +kernel) (List.replicate n 30) (by simp [List.mem_replicate])
  exact ⟨s', e1, e2⟩

end Motive.Float.Overshoot
