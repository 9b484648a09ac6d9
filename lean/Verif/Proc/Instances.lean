import Verif.Proc.Lineage
import Verif.Slot.OvershootProps
import Verif.Slot.SpringProps
import Verif.Slot.EaseProps

/-!
# Overshoot, spring and ease in, ease out motivators of several dimensions in any program (C90)

The slots of `Verif.Slot` as machines of `Verif.Proc.Vector`; what is known of one slot is stated for motivators of any number of
dimensions in programs that do anything else with other motivators.
-/

namespace Motive.Proc.Vector

open Motive.Slot Motive.Math Motive.Curve

variable {K β : Type} [Field K] [LinearOrder K] [IsStrictOrderedRing K]

/-! ### Overshoot -/

/-- The overshoot processor: `SetTargets` with a target per dimension (overshoot_processor.cpp:92-109) and `AdvanceFrame`
(overshoot_processor.cpp:39-62). -/
def overshootMachine : Machine (OvershootSlot K) (List (OvershootSlot.Node K)) ℤ :=
  ⟨fun nodes s => s.setTarget nodes, fun dt s => s.advance dt⟩

/-- A slot inside the limits of `i`. -/
def InLimits (i : OvershootInit K) (s : OvershootSlot K) : Prop :=
  s.init = i ∧ i.Inside s.value ∧ i.Inside s.target ∧ |s.velocity| ≤ i.maxVelocity

/-- The program keeps to the limits `i`: motivators start inside, the targets and velocities set are inside, frames are shorter
than 2^31 ticks. -/
def Call.Limits (i : OvershootInit K) : Call (OvershootSlot K) (List (OvershootSlot.Node K)) ℤ → Prop :=
  Call.Keeps (InLimits i) (fun nodes => nodes ≠ [] ∧ ∀ n ∈ nodes, i.Inside n.value ∧ |n.velocity| ≤ i.maxVelocity)
    (fun dt => dt ≤ 2147483647)

theorem overshoot_keeps {i : OvershootInit K} (hi : i.Legal) {s : OvershootSlot K} (hs : InLimits i s) {o : OvershootSlot.Op K}
    (ho : o.Respects i) : ∃ s', s.apply o = some s' ∧ InLimits i s' := by
  obtain ⟨rfl, h1, h2, h3⟩ := hs
  obtain ⟨s', e1, e2, e3, e4, e5⟩ := OvershootSlot.C33_respects_limits hi h1 h2 h3 [o] (by simpa using ho)
  refine ⟨s', ?_, e2, e3, e4, e5⟩
  simpa [OvershootSlot.run] using e1

/-- Overshoot motivators of any dimensions in any program: no legal call fails, all values stay inside the range and all
velocities below the greatest. -/
theorem C90_overshoot_limits {i : OvershootInit K} (hi : i.Legal)
    {cs : List (Call (OvershootSlot K) (List (OvershootSlot.Node K)) ℤ)} (hcs : ∀ c ∈ cs, c.Limits i)
    {w : World (OvershootSlot K)} (h : run overshootMachine cs = some w) :
    (∀ m l, gather OvershootSlot.value w m = some l → ∀ x ∈ l, i.Inside x) ∧
    (∀ m l, gather OvershootSlot.velocity w m = some l → ∀ x ∈ l, |x| ≤ i.maxVelocity) ∧
    ∀ c : Call (OvershootSlot K) (List (OvershootSlot.Node K)) ℤ, c.Limits i → c.Legal w →
      ∃ w', call overshootMachine c w = some w' := by
  obtain ⟨h1, h2⟩ := C90_safety (β := K) overshootMachine (P := InLimits i)
    (Q := fun nodes => nodes ≠ [] ∧ ∀ n ∈ nodes, i.Inside n.value ∧ |n.velocity| ≤ i.maxVelocity)
    (R := fun dt => dt ≤ 2147483647)
    (fun a d hp hq => overshoot_keeps hi hp (o := .setTarget a) hq)
    (fun t d hp hq => overshoot_keeps hi hp (o := .frame t) hq) hcs h
  refine ⟨fun m l hg x hx => ?_, fun m l hg x hx => ?_, h2⟩
  · obtain ⟨d, hd, rfl⟩ := h1 m _ l hg x hx
    exact hd.2.1
  · obtain ⟨d, hd, rfl⟩ := h1 m _ l hg x hx
    exact hd.2.2.2

/-- A program within the limits of `OvershootSlot.demoInit`. -/
example : OvershootSlot.demoInit.Legal ∧ ∀ c ∈ ([.create 0 ⟨OvershootSlot.demoInit, 0, 1, 0⟩ true, .initialize 5 0 [⟨OvershootSlot.demoInit, 0, 1, 2⟩, ⟨OvershootSlot.demoInit, 1, 1, 1⟩],
    .set 5 [[⟨-2, 0, 5⟩], [⟨1, 1, 0⟩, ⟨3, 0, 7⟩]], .frame 0 33, .cloneFrom 6 (some 5), .frame 0 5] :
    List (Call (OvershootSlot ℚ) (List (OvershootSlot.Node ℚ)) ℤ)), c.Limits OvershootSlot.demoInit := by
  refine ⟨⟨by decide, by decide +kernel, by decide +kernel, by decide +kernel, fun _ => by decide +kernel⟩, ?_⟩
  intro c hc
  simp only [List.mem_cons, List.not_mem_nil, or_false] at hc
  rcases hc with rfl | rfl | rfl | rfl | rfl | rfl <;>
    simp [Call.Limits, Call.Keeps, InLimits, OvershootSlot.demoInit, OvershootInit.Inside] <;> norm_num

/-! ### Spring -/

/-- The argument of `SetTargetWithShape` for one dimension. -/
structure ShapedTarget where
  target : ℝ
  velocity : ℝ
  typDelta : ℝ
  typTime : ℝ
  bias : ℝ

/-- The spring processor: `SetTargetWithShape` (spring_processor.cpp:71-81; it ignores the target velocity) and `AdvanceFrame`. -/
noncomputable def springMachine : Machine SpringSlot ShapedTarget ℝ :=
  ⟨fun a s => s.setTarget a.target a.typDelta a.typTime a.bias, fun dt s => s.advance dt⟩

theorem replay_frames {δ κ τ : Type} (M : Machine δ κ τ) (d : δ) (ts : List τ) :
    replay M d (ts.map Sum.inr) = ts.foldlM (fun s t => M.frame t s) d := by
  induction ts generalizing d with
  | nil => rfl
  | cons t ts ih =>
    simp only [replay, List.map_cons, List.foldlM_cons, event] at ih ⊢
    congr 1
    funext x
    exact ih x

theorem eventsOf_frames {κ τ : Type} (k : Nat) (ts : List τ) :
    eventsOf k (ts.map (Sum.inr : τ → List κ ⊕ τ)) = ts.map Sum.inr := by
  simp [eventsOf, List.filterMap_map]

theorem eventsOf_set {κ τ : Type} (k : Nat) (es es' : List (List κ ⊕ τ)) {args : List κ} {a : κ} (ha : args[k]? = some a) :
    eventsOf k (es ++ .inl args :: es') = eventsOf k es ++ .inl a :: eventsOf k es' := by
  simp [eventsOf, List.filterMap_append, ha]

/-- A bound for finitely many. -/
theorem bound_all {n : Nat} {p : Nat → ℝ → Prop} (h : ∀ k < n, ∃ T : ℝ, ∀ t, T ≤ t → p k t) :
    ∃ T : ℝ, ∀ k < n, ∀ t, T ≤ t → p k t := by
  induction n with
  | zero => exact ⟨0, fun k hk => by omega⟩
  | succ n ih =>
    obtain ⟨T1, h1⟩ := ih fun k hk => h k (by omega)
    obtain ⟨T2, h2⟩ := h n (by omega)
    refine ⟨max T1 T2, fun k hk t ht => ?_⟩
    rcases Nat.lt_succ_iff_lt_or_eq.mp hk with hk | rfl
    · exact h1 k hk t (le_trans (le_max_left _ _) ht)
    · exact h2 t (le_trans (le_max_right _ _) ht)

/-- Springs of any dimensions in any program arrive. Take what happened to a motivator up to a call of `SetTargetWithShape`. Then there
is a time such that, in every program in which the motivator lived through this and then through frames of that length in total,
whatever the frames and whatever else the program did, it stands still on its targets. -/
theorem C90_springs_arrive (start : List SpringSlot) (es : List (List ShapedTarget ⊕ ℝ)) (args : List ShapedTarget)
    (hlen : args.length = start.length)
    (hargs : ∀ (k : Nat) (d s : SpringSlot) (a : ShapedTarget), start[k]? = some d → args[k]? = some a →
      replay springMachine d (eventsOf k es) = some s →
      0 < a.typDelta ∧ 0 < a.typTime ∧ 1 / 10000 ≤ a.bias ∧ a.bias < 1 ∧
        ∃ v, s.velocity = some v ∧ (a.target ≠ s.value ∨ 0 < v)) :
    ∃ T : ℝ, ∀ (cs : List (Call SpringSlot ShapedTarget ℝ)) (w : World SpringSlot) (m : MotId) (L : Life SpringSlot ShapedTarget ℝ)
      (dts : List ℝ), run springMachine cs = some w → life cs.reverse m = some L → L.start = start →
      L.events = es ++ .inl args :: dts.map .inr → (∀ t ∈ dts, 0 ≤ t) → T ≤ dts.sum →
      gather SpringSlot.value w m = some (args.map ShapedTarget.target) ∧
      gather SpringSlot.velocity w m = some (args.map fun _ => some 0) ∧
      gather SpringSlot.difference w m = some (args.map fun _ => 0) := by
  have hk : ∀ k < start.length, ∃ T : ℝ, ∀ t, T ≤ t → ∀ (d : SpringSlot) (a : ShapedTarget) (dts : List ℝ) (s' : SpringSlot),
      start[k]? = some d → args[k]? = some a → (∀ x ∈ dts, 0 ≤ x) → dts.sum = t →
      replay springMachine d (eventsOf k (es ++ .inl args :: dts.map .inr)) = some s' →
      s'.value = a.target ∧ s'.velocity = some 0 ∧ s'.difference = 0 := by
    intro k hk
    have ha : args[k]? = some args[k] := List.getElem?_eq_getElem (by omega)
    cases hs : replay springMachine start[k] (eventsOf k es) with
    | none =>
      refine ⟨0, fun t _ d a dts s' hd ha' _ _ hr => ?_⟩
      rw [eventsOf_set k es _ ha', replay_append] at hr
      rw [List.getElem?_eq_getElem hk] at hd
      cases hd
      rw [hs] at hr
      cases hr
    | some s =>
      obtain ⟨g1, g2, g3, g4, v, g5, g6⟩ := hargs k _ s _ (List.getElem?_eq_getElem hk) ha hs
      obtain ⟨T, hT⟩ := SpringSlot.C37_settles g5 g1 g2 g3 g4 g6
      refine ⟨T, fun t ht d a dts s' hd ha' hp hsum hr => ?_⟩
      rw [List.getElem?_eq_getElem hk] at hd
      cases hd
      rw [eventsOf_set k es _ ha', eventsOf_frames, replay_append, hs] at hr
      rw [ha] at ha'
      cases ha'
      obtain ⟨s2, e1, e2, e3, e4⟩ := hT dts hp (by rw [hsum]; exact ht)
      have : replay springMachine s (.inl args[k] :: dts.map .inr) = some s2 := by
        rw [← e1]
        show (springMachine.cmd args[k] s).bind (fun s1 => replay springMachine s1 (dts.map .inr)) = _
        simp only [replay_frames]
        rfl
      rw [Option.bind_some, this] at hr
      cases hr
      exact ⟨e2, e3, e4⟩
  obtain ⟨T, hT⟩ := bound_all hk
  refine ⟨T, fun cs w m L dts h hL h0 h1 hp hs => ?_⟩
  have key : ∀ {β : Type} (g : SpringSlot → β) (f : ShapedTarget → β),
      (∀ (s' : SpringSlot) (a : ShapedTarget), s'.value = a.target ∧ s'.velocity = some 0 ∧ s'.difference = 0 → g s' = f a) →
      gather g w m = some (args.map f) := by
    intro β g f hgf
    obtain ⟨-, -, hr⟩ := (C90_life (β := β) springMachine h m).2 L hL
    obtain ⟨l, e1, e2, e3⟩ := hr g
    rw [e1]
    congr 1
    refine List.ext_getElem? fun k => ?_
    by_cases hk : k < start.length
    · have ha : args[k]? = some args[k] := List.getElem?_eq_getElem (by omega)
      have hd : start[k]? = some start[k] := List.getElem?_eq_getElem hk
      obtain ⟨d', a1, a2⟩ := e3 k start[k] (by rw [h0]; exact hd)
      rw [h1] at a1
      have := hT k hk dts.sum hs _ _ dts d' hd ha hp rfl a1
      rw [a2, hgf d' args[k] this]
      simp [ha]
    · rw [List.getElem?_eq_none (by rw [e2, h0]; omega), List.getElem?_eq_none (by simp; omega)]
  exact ⟨key _ _ fun s' a h => h.1, key _ _ fun s' a h => h.2.1, key _ _ fun s' a h => h.2.2⟩

/-- The hypotheses hold for a fresh motivator of two dimensions. -/
example : ∀ (k : Nat) (d s : SpringSlot) (a : ShapedTarget), [SpringSlot.fresh 0, SpringSlot.fresh 5][k]? = some d →
      [(⟨1, 0, 1, 10, 1 / 2⟩ : ShapedTarget), ⟨2, 0, 3, 10, 1 / 4⟩][k]? = some a →
      replay springMachine d (eventsOf k []) = some s →
      0 < a.typDelta ∧ 0 < a.typTime ∧ 1 / 10000 ≤ a.bias ∧ a.bias < 1 ∧
        ∃ v, s.velocity = some v ∧ (a.target ≠ s.value ∨ 0 < v) := by
  intro k d s a h1 h2 h3
  cases h3
  match k with
  | 0 => cases h1; cases h2; refine ⟨?_, ?_, ?_, ?_, 0, (SpringSlot.C37_fresh 0).2.2.2, .inl ?_⟩ <;> norm_num [SpringSlot.fresh]
  | 1 => cases h1; cases h2; refine ⟨?_, ?_, ?_, ?_, 0, (SpringSlot.C37_fresh 5).2.2.2, .inl ?_⟩ <;> norm_num [SpringSlot.fresh]
  | k + 2 => simp at h1

/-! ### Ease in, ease out -/

/-- The ease in, ease out processor: `SetTargetWithShape` (ease_in_ease_out_processor.cpp:111-136) and `AdvanceFrame`
(ease_in_ease_out_processor.cpp:61-107). -/
noncomputable def easeMachine : Machine EaseSlot ShapedTarget ℝ :=
  ⟨fun a s => s.setTarget a.target a.velocity a.typDelta a.typTime a.bias, fun dt s => s.advance dt⟩

/-- Motivators of any dimensions in any program, at rest at the typical distance from their new targets: they stand on them once the
typical time has passed, whatever the frames and whatever else the program did. -/
theorem C90_eases_arrive {cs : List (Call EaseSlot ShapedTarget ℝ)} {w : World EaseSlot} (h : run easeMachine cs = some w)
    {m : MotId} {L : Life EaseSlot ShapedTarget ℝ} (hL : life cs.reverse m = some L) {es : List (List ShapedTarget ⊕ ℝ)}
    {args : List ShapedTarget} {dts : List ℝ} (he : L.events = es ++ .inl args :: dts.map .inr)
    (hlen : args.length = L.start.length)
    (hargs : ∀ (k : Nat) (d s : EaseSlot) (a : ShapedTarget), L.start[k]? = some d → args[k]? = some a →
      replay easeMachine d (eventsOf k es) = some s →
      s.velocity = 0 ∧ a.velocity = 0 ∧ 1 / 10000 ≤ a.bias ∧ a.bias < 1 ∧ 0 < a.typDelta ∧ 0 < a.typTime ∧
      |a.target - s.value| = a.typDelta ∧
      (2 : ℝ) ^ (-60 : Int) ≤ 4 * a.typDelta ^ 2 / (a.bias * (1 - a.bias) * a.typTime ^ 4) ∧
      4 * a.typDelta ^ 2 / (a.bias * (1 - a.bias) * a.typTime ^ 4) ≤ 2 ^ (60 : Int) ∧
      (2 : ℝ) ^ (-60 : Int) ≤ 4 * a.typDelta ^ 2 / (a.bias * (1 - a.bias) * a.typTime ^ 2) ∧
      4 * a.typDelta ^ 2 / (a.bias * (1 - a.bias) * a.typTime ^ 2) ≤ 2 ^ (60 : Int))
    (hp : ∀ t ∈ dts, 0 ≤ t) (hs : ∀ a ∈ args, a.typTime ≤ dts.sum) :
    gather EaseSlot.value w m = some (args.map ShapedTarget.target) ∧
    gather EaseSlot.velocity w m = some (args.map fun _ => 0) := by
  have key : ∀ (g : EaseSlot → ℝ) (f : ShapedTarget → ℝ),
      (∀ (s' : EaseSlot) (a : ShapedTarget), s'.value = a.target ∧ s'.velocity = 0 → g s' = f a) →
      gather g w m = some (args.map f) := by
    intro g f hgf
    obtain ⟨-, -, hr⟩ := (C90_life (β := ℝ) easeMachine h m).2 L hL
    obtain ⟨l, e1, e2, e3⟩ := hr g
    rw [e1]
    congr 1
    refine List.ext_getElem? fun k => ?_
    by_cases hk : k < L.start.length
    · have ha : args[k]? = some args[k] := List.getElem?_eq_getElem (by omega)
      have hd : L.start[k]? = some L.start[k] := List.getElem?_eq_getElem hk
      obtain ⟨d', a1, a2⟩ := e3 k _ hd
      rw [he, eventsOf_set k es _ ha, eventsOf_frames, replay_append] at a1
      cases hr : replay easeMachine L.start[k] (eventsOf k es) with
      | none => rw [hr] at a1; cases a1
      | some s =>
        rw [hr, Option.bind_some] at a1
        obtain ⟨g1, g2, g3, g4, g5, g6, g7, g8⟩ := hargs k _ s _ hd ha hr
        obtain ⟨s1, b1, -, -, -, b5⟩ := EaseSlot.C59_typical g1 g3 g4 g5 g6 g7 g8
        obtain ⟨s', c1, c2, c3⟩ := b5 dts hp (hs _ (List.getElem_mem (by omega)))
        have : replay easeMachine s (.inl args[k] :: dts.map .inr) = some s' := by
          rw [← c1]
          show (easeMachine.cmd args[k] s).bind (fun s1 => replay easeMachine s1 (dts.map .inr)) = _
          have hcmd : easeMachine.cmd args[k] s = some s1 := by
            show s.setTarget _ _ _ _ _ = _
            rw [g2, b1]
          rw [hcmd]
          simp only [replay_frames, Option.bind_some]
          rfl
        rw [this] at a1
        cases a1
        rw [a2, hgf _ args[k] ⟨c2, c3⟩]
        simp [ha]
    · rw [List.getElem?_eq_none (by rw [e2]; omega), List.getElem?_eq_none (by simp; omega)]
  exact ⟨key _ _ fun s' a h => h.1, key _ _ fun s' a h => h.2⟩

/-- The hypotheses hold for a fresh motivator of one dimension. -/
example : ∀ (k : Nat) (d s : EaseSlot) (a : ShapedTarget), [EaseSlot.fresh 0 0][k]? = some d →
      [(⟨1, 0, 1, 1, 1 / 2⟩ : ShapedTarget)][k]? = some a → replay easeMachine d (eventsOf k []) = some s →
      s.velocity = 0 ∧ a.velocity = 0 ∧ 1 / 10000 ≤ a.bias ∧ a.bias < 1 ∧ 0 < a.typDelta ∧ 0 < a.typTime ∧
      |a.target - s.value| = a.typDelta ∧
      (2 : ℝ) ^ (-60 : Int) ≤ 4 * a.typDelta ^ 2 / (a.bias * (1 - a.bias) * a.typTime ^ 4) ∧
      4 * a.typDelta ^ 2 / (a.bias * (1 - a.bias) * a.typTime ^ 4) ≤ 2 ^ (60 : Int) ∧
      (2 : ℝ) ^ (-60 : Int) ≤ 4 * a.typDelta ^ 2 / (a.bias * (1 - a.bias) * a.typTime ^ 2) ∧
      4 * a.typDelta ^ 2 / (a.bias * (1 - a.bias) * a.typTime ^ 2) ≤ 2 ^ (60 : Int) := by
  intro k d s a h1 h2 h3
  cases h3
  match k with
  | 0 =>
    cases h1; cases h2
    refine ⟨?_, rfl, ?_, ?_, ?_, ?_, ?_, ?_, ?_, ?_, ?_⟩
    · simp [EaseSlot.velocity, EaseSlot.fresh, EaseQ.deriv, EaseCurve.deriv, EaseCurve.curve, EaseCurve.single, Quad.initOrigin,
        Quad.deriv]
    all_goals norm_num [EaseSlot.fresh]
  | k + 1 => simp at h1

end Motive.Proc.Vector
