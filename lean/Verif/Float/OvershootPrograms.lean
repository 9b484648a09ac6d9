import Verif.Float.Overshoot
import Verif.Proc.Lineage

/-!
# Overshoot motivators in single precision in any program (C92)
-/

namespace Motive.Float.Overshoot

open Motive.Slot Motive.Slot.OvershootSlot Motive.Proc Motive.Proc.Vector

variable {F : Fmt} {rnd : ℚ → ℚ}

/-- The overshoot processor: `SetTargets` with a target per dimension (overshoot_processor.cpp:92-109) and `AdvanceFrame`
(overshoot_processor.cpp:25-43) in single precision. -/
def machine (rnd : ℚ → ℚ) : Machine (OvershootSlot ℚ) (List (Node ℚ)) ℤ :=
  ⟨fun nodes s => s.setTarget nodes, fun dt s => loop rnd dt s⟩

/-- The program keeps to the limits `i` and uses floats. -/
def Limits (F : Fmt) (i : OvershootInit ℚ) : Call (OvershootSlot ℚ) (List (Node ℚ)) ℤ → Prop :=
  Call.Keeps (fun s => s.init = i ∧ Good F s) (fun nodes => Respects F i (.setTarget nodes)) (fun dt => dt ≤ 2147483647)

theorem apply_keeps (h : Nearest F rnd) {i : OvershootInit ℚ} (hi : Legal F i) {s : OvershootSlot ℚ} (hs : s.init = i ∧ Good F s) {o : OvershootSlot.Op ℚ}
    (ho : Respects F i o) : ∃ s', apply rnd s o = some s' ∧ s'.init = i ∧ Good F s' := by
  obtain ⟨rfl, hg⟩ := hs
  obtain ⟨s', e1, e2, e3⟩ := C92_limits h hi hg [o] (by simpa using ho)
  refine ⟨s', ?_, e2, e3⟩
  simpa [Overshoot.run] using e1

/-- **C92**. Overshoot motivators of any dimensions in any program, in single precision: no legal call fails, all values stay inside the
range and all velocities below the greatest. -/
theorem C92_programs (h : Nearest F rnd) {i : OvershootInit ℚ} (hi : Legal F i)
    {cs : List (Call (OvershootSlot ℚ) (List (Node ℚ)) ℤ)} (hcs : ∀ c ∈ cs, Limits F i c)
    {w : World (OvershootSlot ℚ)} (hw : Vector.run (machine rnd) cs = some w) :
    (∀ m l, gather OvershootSlot.value w m = some l → ∀ x ∈ l, i.Inside x ∧ F.Mem x) ∧
    (∀ m l, gather OvershootSlot.velocity w m = some l → ∀ x ∈ l, |x| ≤ i.maxVelocity ∧ F.Mem x) ∧
    ∀ c : Call (OvershootSlot ℚ) (List (Node ℚ)) ℤ, Limits F i c → c.Legal w → ∃ w', call (machine rnd) c w = some w' := by
  obtain ⟨h1, h2⟩ := C90_safety (β := ℚ) (machine rnd) (P := fun s => s.init = i ∧ Good F s)
    (Q := fun nodes => Respects F i (.setTarget nodes)) (R := fun dt => dt ≤ 2147483647)
    (fun a d hp hq => apply_keeps h hi hp (o := .setTarget a) hq)
    (fun t d hp hq => apply_keeps h hi hp (o := .frame t) ⟨hq, trivial⟩) hcs hw
  refine ⟨fun m l hg x hx => ?_, fun m l hg x hx => ?_, h2⟩
  · obtain ⟨d, ⟨rfl, hd⟩, rfl⟩ := h1 m _ l hg x hx
    exact ⟨hd.value, hd.memValue⟩
  · obtain ⟨d, ⟨rfl, hd⟩, rfl⟩ := h1 m _ l hg x hx
    exact ⟨hd.speed, hd.memVelocity⟩

/-- A program with angles. -/
example : ∀ c ∈ ([.create 0 ⟨angleInit, 0, 0, 0⟩ true, .initialize 5 0 [⟨angleInit, 0, 0, 0⟩, ⟨angleInit, 0, 0, 0⟩],
    .set 5 [[⟨1, 0, 0⟩], [⟨1, 0, 3⟩]], .frame 0 33, .cloneFrom 6 (some 5), .frame 0 5] :
    List (Call (OvershootSlot ℚ) (List (Node ℚ)) ℤ)), Limits f32 angleInit c := by
  have m1 : f32.Mem 1 := Range.mem32 1 0 _ (by norm_num) (by norm_num) (by norm_num)
  have hg : Good f32 ⟨angleInit, 0, 0, 0⟩ := by
    constructor <;> first | exact mem_zero | norm_num [angleInit, OvershootInit.Inside, Range.sym, Angle.kPi]
  intro c hc
  simp only [List.mem_cons, List.not_mem_nil, or_false] at hc
  rcases hc with rfl | rfl | rfl | rfl | rfl | rfl <;>
    simp [Limits, Call.Keeps, hg, Respects, Op.Respects, m1, mem_zero]
  norm_num [angleInit, OvershootInit.Inside, Range.sym, Angle.kPi]

end Motive.Float.Overshoot
