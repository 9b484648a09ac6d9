import Verif.Slot.OvershootProps
import Verif.Proc.Partial
/-!
# Frames of the whole overshoot processor

`Verif.Proc` with the overshoot slot: the processor's `AdvanceFrame` terminates although the slots of removed motivators are
overwritten with the default configuration, whose `max_delta_time` is 0.
-/

namespace Motive.Slot

open Motive.Proc

variable {K : Type} [Field K] [LinearOrder K] [IsStrictOrderedRing K]

/-- The slot that `RemoveIndices` leaves behind (overshoot_processor.cpp:122-124, overshoot_init.h:31-38); `full` stands for
`Range::Full()` and `junk` for the members that the constructor does not set. -/
def removedSlot (full : Motive.Math.Range K) (junk : K) : OvershootSlot K :=
  .fresh ⟨full, false, 0, junk, 0, 0, 0, 0, 0⟩

/-- A frame would never end on a slot that `RemoveIndices` leaves behind. -/
theorem removedSlot_hangs (full : Motive.Math.Range K) (junk : K) {t : ℤ} (ht : 0 < t) :
    (removedSlot full junk).advance t = none :=
  (OvershootSlot.C34_hangs_without_max_delta_time (s := removedSlot full junk) le_rfl ht).1

/-- **C34** for the processor. In every reachable state, with any history of creations, removals, moves and earlier
frames, `AdvanceFrame(t)` terminates if every valid motivator has a positive `max_delta_time` and does not wrap around;
and every valid motivator's slots go through exactly the steps of `C34_steps`. -/
theorem C34_processor_frame {ops : List (Op (OvershootSlot K))} {w : World (OvershootSlot K)} (h : run ops = some w)
    {p : ProcId} (hp : (w.procs p).isSome) {t : ℤ} (ht : t ≤ 2147483647)
    (hok : ∀ m l, w.view.vals m = some (p, l) → ∀ s ∈ l, 0 < s.init.maxDt ∧ s.init.modular = false) :
    ∃ w', w.advanceM p (fun s => s.advance t) = some w' ∧
      ∀ m l, w.view.vals m = some (p, l) → ∃ l', w'.view.vals m = some (p, l') ∧ l.mapM (fun s => s.advance t) = some l' := by
  obtain ⟨h1, h2⟩ := C39_frame_succeeds_iff h hp (fun s => s.advance t)
  have hall : ∀ m l, w.view.vals m = some (p, l) → ∀ s ∈ l, (s.advance t).isSome := by
    intro m l hv s hs
    obtain ⟨g1, g2⟩ := hok m l hv s hs
    obtain ⟨s', hs'⟩ := OvershootSlot.C34_terminates g1 g2 ht
    rw [hs']; rfl
  obtain ⟨w', hw'⟩ := h1.mpr hall
  refine ⟨w', hw', fun m l hv => ?_⟩
  obtain ⟨l', hl'⟩ := mapM_isSome_iff.mpr (hall m l hv)
  refine ⟨l', ?_, hl'⟩
  rw [(h2 w' hw').2 m, hv, mapM_eq_map hl']
  simp

/-- **C34** for motivators that wrap around: the same under the conditions of `C33_respects_limits`. -/
theorem C34_processor_frame_modular {ops : List (Op (OvershootSlot K))} {w : World (OvershootSlot K)}
    (h : run ops = some w) {p : ProcId} (hp : (w.procs p).isSome) {t : ℤ} (ht : t ≤ 2147483647)
    (hok : ∀ m l, w.view.vals m = some (p, l) → ∀ s ∈ l, s.init.Legal ∧ s.init.Inside s.value ∧ s.init.Inside s.target ∧
      |s.velocity| ≤ s.init.maxVelocity) :
    ∃ w', w.advanceM p (fun s => s.advance t) = some w' ∧
      ∀ m l, w'.view.vals m = some (p, l) → ∀ s ∈ l, s.init.Legal ∧ s.init.Inside s.value ∧ s.init.Inside s.target ∧
        |s.velocity| ≤ s.init.maxVelocity := by
  obtain ⟨h1, h2⟩ := C39_frame_succeeds_iff h hp (fun s => s.advance t)
  have hone : ∀ s : OvershootSlot K, s.init.Legal ∧ s.init.Inside s.value ∧ s.init.Inside s.target ∧
      |s.velocity| ≤ s.init.maxVelocity → ∃ s', s.advance t = some s' ∧ s'.init.Legal ∧ s'.init.Inside s'.value ∧
        s'.init.Inside s'.target ∧ |s'.velocity| ≤ s'.init.maxVelocity := by
    rintro s ⟨g1, g2, g3, g4⟩
    obtain ⟨s', e1, e2, e3, e4, e5⟩ := OvershootSlot.C33_respects_limits g1 g2 g3 g4 [.frame t]
      (by intro o ho; simp at ho; subst ho; exact ht)
    refine ⟨s', ?_, by rw [e2]; exact g1, by rw [e2]; exact e3, by rw [e2]; exact e4, by rw [e2]; exact e5⟩
    unfold OvershootSlot.run at e1
    rw [List.foldlM_cons] at e1
    simp only [OvershootSlot.apply] at e1
    cases hc : s.advance t with
    | none => rw [hc] at e1; simp at e1
    | some x => rw [hc] at e1; simpa using e1
  obtain ⟨w', hw'⟩ := h1.mpr fun m l hv s hs => by
    obtain ⟨s', hs', -⟩ := hone s (hok m l hv s hs)
    rw [hs']; rfl
  refine ⟨w', hw', fun m l hv s hs => ?_⟩
  rw [(h2 w' hw').2 m] at hv
  cases hm : w.view.vals m with
  | none => rw [hm] at hv; simp at hv
  | some x =>
    obtain ⟨q, l0⟩ := x
    rw [hm] at hv
    simp only [Option.map_some, Option.some.injEq] at hv
    by_cases hq : q = p
    · subst hq
      simp at hv
      subst hv
      rw [List.mem_map] at hs
      obtain ⟨y, hy, rfl⟩ := hs
      obtain ⟨s', hs', hrest⟩ := hone y (hok m l0 hm y hy)
      rw [hs']
      exact hrest
    · rw [if_neg hq] at hv
      simp at hv
      exact absurd hv.1 hq

/-- A motivator next to the slot of a removed one. -/
example : ∃ w : World (OvershootSlot ℚ),
    run [.create 0 (removedSlot ⟨-9, 9⟩ 0) false, .initialize 10 0 [.fresh OvershootSlot.demoInit],
      .initialize 11 0 [.fresh { OvershootSlot.demoInit with modular := false }], .invalidate 10] = some w ∧
    (w.procs 0).isSome ∧ ∀ m l, w.view.vals m = some (0, l) → ∀ s ∈ l, 0 < s.init.maxDt ∧ s.init.modular = false := by
  obtain ⟨w, h1, h2, h3⟩ := runFrom_spec (δ := OvershootSlot ℚ)
    [.create 0 (removedSlot ⟨-9, 9⟩ 0) false, .initialize 10 0 [.fresh OvershootSlot.demoInit],
      .initialize 11 0 [.fresh { OvershootSlot.demoInit with modular := false }], .invalidate 10] World.empty winv_empty
  refine ⟨w, h1, ?_, ?_⟩
  · have : (w.view.procs 0).isSome = true := by rw [h3]; decide +kernel
    simpa [World.view] using this
  · intro m l hv s hs
    rw [h3] at hv
    by_cases hm : m = 11
    · subst hm
      simp [absStep, Abs.set, World.view, World.empty] at hv
      subst hv
      simp at hs
      subst hs
      simp [OvershootSlot.fresh, OvershootSlot.demoInit]
    · exfalso
      by_cases hm' : m = 10 <;> simp [absStep, Abs.set, World.view, World.empty, hm, hm'] at hv

end Motive.Slot
