import Verif.Slot.OvershootRound
/-!
# `Twitch` and `Settled1f` (C104)

`Twitch` (util.h:96-110) gives a settled motivator a boost.  Here for `Motivator1f`s of the overshoot processor, whose slots are the elements
of a list, each motivator one slot.
-/

namespace Motive.Slot

open Motive.Math

variable {K : Type} [Field K] [LinearOrder K] [IsStrictOrderedRing K]

/-! ### Model -/

/-- `TwitchDirection` (util.h:52-56). -/
inductive TwitchDirection where
  | none
  | positive
  | negative
deriving DecidableEq

/-- `Settled1f` (util.h:58-88). -/
structure Settled1f (K : Type) where
  /-- `max_difference` -/
  maxDifference : K
  /-- `max_velocity` -/
  maxVelocity : K

/-- `Settled(dist, velocity)` (util.h:65-67). -/
def Settled1f.settled (st : Settled1f K) (dist velocity : K) : Prop := |dist| ≤ st.maxDifference ∧ |velocity| ≤ st.maxVelocity
instance (st : Settled1f K) (dist velocity : K) : Decidable (st.settled dist velocity) := inferInstanceAs (Decidable (_ ∧ _))

/-- `Settled(motivator)` (util.h:70-80), for the motivator with the slots `index`, …, `index + dims - 1`: the loop over the dimensions,
without the early return. -/
def Settled1f.settledMotivator (st : Settled1f K) (data : List (OvershootSlot K)) (index : ℕ) (dims : List ℕ) : Option Bool :=
  dims.foldlM (init := true) fun all i => do
    let diff ← overshootDifference data index i
    let d ← data[index + i]?
    pure (all && decide (st.settled diff d.velocity))

/-- `Current1f` (target.h:235-238). -/
def current1f (value velocity : K) : List (OvershootSlot.Node K) := [⟨value, velocity, 0⟩]

/-- `Twitch` (util.h:103-110), for the motivator with the slot `index`. -/
def twitch (dir : TwitchDirection) (velocity : K) (st : Settled1f K) (data : List (OvershootSlot K)) (index : ℕ) :
    Option (List (OvershootSlot K)) :=
  if dir = .none then some data
  else do
    let diff ← overshootDifference data index 0
    let d ← data[index]?
    if st.settled diff d.velocity then
      let d' ← d.setTarget (current1f d.value (if dir = .positive then velocity else -velocity))
      pure (data.set index d')
    else pure data

/-! ### Specification -/

/-- The velocity that `Twitch` promises. -/
def boosted : TwitchDirection → K → K → K
  | .none, _, old => old
  | .positive, v, _ => v
  | .negative, v, _ => -v

/-! ### C104 -/

/-- **C104**. `Twitch` of the first motivator of the processor: if it is within both thresholds of its target (the short way round if it
wraps), its velocity becomes the boost in the direction asked for, and nothing else changes, neither its value nor its target nor any other
motivator; otherwise nothing changes at all. -/
theorem C104_twitch_partial (dir : TwitchDirection) (velocity : K) (st : Settled1f K) {d : OvershootSlot K} {rest : List (OvershootSlot K)} {diff : K}
    (hd : d.init.normalize (d.target - d.value) = some diff) :
    twitch dir velocity st (d :: rest) 0 = some
      (if |diff| ≤ st.maxDifference ∧ |d.velocity| ≤ st.maxVelocity then { d with velocity := boosted dir velocity d.velocity } :: rest
       else d :: rest) := by
  have ho : overshootDifference (d :: rest) 0 0 = some diff := by rw [C60_difference_first_partial]; exact hd
  unfold twitch
  rw [ho]
  cases dir with
  | none => rw [if_pos rfl]; simp [boosted]
  | positive =>
    simp only [reduceCtorEq, if_false, Option.bind_eq_bind, Option.bind_some, List.getElem?_cons_zero, Settled1f.settled]
    split_ifs <;> simp [current1f, OvershootSlot.setTarget, boosted]
  | negative =>
    simp only [reduceCtorEq, if_false, Option.bind_eq_bind, Option.bind_some, List.getElem?_cons_zero, Settled1f.settled]
    split_ifs <;> simp [current1f, OvershootSlot.setTarget, boosted]

/-- **C104**. "A slight boost that then settles back": with a damped configuration, there is a number of frames after which a motivator that has
been boosted is exactly on its target and at rest again, whatever the boost was. -/
theorem C104_settles_back [Archimedean K] {i : OvershootInit K} {T : K} (h : OvershootSlot.Damped i T) :
    ∃ N : ℕ, ∀ (d : OvershootSlot K) (rest : List (OvershootSlot K)) (dir : TwitchDirection) (velocity : K) (st : Settled1f K), d.init = i → d.target = T →
      ∃ d' : OvershootSlot K, twitch dir velocity st (d :: rest) 0 = some (d' :: rest) ∧ d'.value = d.value ∧
        ∀ ts : List ℤ, (∀ t ∈ ts, t ≤ 2147483647) → N ≤ (ts.filter (fun t => decide (0 < t))).length →
          d'.run (ts.map OvershootSlot.Op.frame) = some { d with value := T, velocity := 0 } := by
  obtain ⟨N, hN⟩ := OvershootSlot.C103_settles h
  refine ⟨N, fun d rest dir velocity st h1 h2 => ?_⟩
  have hd : d.init.normalize (d.target - d.value) = some (d.target - d.value) := by
    unfold OvershootInit.normalize
    rw [if_neg (by rw [h1, h.linear]; decide)]
  rw [C104_twitch_partial dir velocity st hd]
  split_ifs with hc
  · refine ⟨{ d with velocity := boosted dir velocity d.velocity }, rfl, rfl, fun ts hts hn => ?_⟩
    exact hN { d with velocity := boosted dir velocity d.velocity } h1 h2 ts hts hn
  · exact ⟨d, rfl, rfl, fun ts hts hn => hN d h1 h2 ts hts hn⟩

/-- **C104**, for motivators that wrap around. -/
theorem C104_round_settles_back [Archimedean K] {i : OvershootInit K} {T : K} (h : OvershootSlot.DampedRound i T) :
    ∃ N : ℕ, ∀ (d : OvershootSlot K) (rest : List (OvershootSlot K)) (dir : TwitchDirection) (velocity : K) (st : Settled1f K), d.init = i → d.target = T →
      i.range.start < d.value → d.value ≤ i.range.stop →
      ∃ d' : OvershootSlot K, twitch dir velocity st (d :: rest) 0 = some (d' :: rest) ∧ d'.value = d.value ∧
        ∀ ts : List ℤ, (∀ t ∈ ts, t ≤ 2147483647) → N ≤ (ts.filter (fun t => decide (0 < t))).length →
          d'.run (ts.map OvershootSlot.Op.frame) = some { d with value := T, velocity := 0 } := by
  obtain ⟨N, hN⟩ := OvershootSlot.C103_round_settles h
  refine ⟨N, fun d rest dir velocity st h1 h2 ha hb => ?_⟩
  obtain ⟨hd, -⟩ := h.away_eq (s := d) ⟨h1, h2⟩ ha hb
  rw [C104_twitch_partial dir velocity st hd]
  split_ifs with hc
  · refine ⟨{ d with velocity := boosted dir velocity d.velocity }, rfl, rfl, fun ts hts hn => ?_⟩
    exact hN { d with velocity := boosted dir velocity d.velocity } h1 h2 ha hb ts hts hn
  · exact ⟨d, rfl, rfl, fun ts hts hn => hN d h1 h2 ha hb ts hts hn⟩

/-- **C104**. `Settled` of a motivator with any number of dimensions, if its slots are the first of the processor: all of its dimensions are
within both thresholds. -/
theorem C104_settled_partial (st : Settled1f K) {data : List (OvershootSlot K)} {dims : ℕ} {diff : ℕ → K}
    (hd : ∀ i < dims, ∃ d, data[i]? = some d ∧ d.init.normalize (d.target - d.value) = some (diff i)) :
    ∃ b, st.settledMotivator data 0 (List.range dims) = some b ∧
      (b = true ↔ ∀ i < dims, ∃ d, data[i]? = some d ∧ |diff i| ≤ st.maxDifference ∧ |d.velocity| ≤ st.maxVelocity) := by
  induction dims with
  | zero => exact ⟨true, rfl, by simp⟩
  | succ n ih =>
    obtain ⟨b, e, hb⟩ := ih fun i hi => hd i (by omega)
    obtain ⟨d, e1, e2⟩ := hd n (by omega)
    have ho : overshootDifference data 0 n = some (diff n) := by
      rw [C60_difference_first_partial, e1]; exact e2
    refine ⟨b && decide (st.settled (diff n) d.velocity), ?_, ?_⟩
    · unfold Settled1f.settledMotivator at e ⊢
      rw [List.range_succ, List.foldlM_append, e]
      simp [ho, e1]
    · rw [Bool.and_eq_true, hb, decide_eq_true_eq]
      constructor
      · rintro ⟨c1, c2⟩ i hi
        rcases Nat.lt_succ_iff_lt_or_eq.mp hi with hi | rfl
        · exact c1 i hi
        · exact ⟨d, e1, c2⟩
      · intro c
        refine ⟨fun i hi => c i (by omega), ?_⟩
        obtain ⟨d', f1, f2⟩ := c n (by omega)
        rw [e1] at f1
        cases f1
        exact f2

/-- **C104** fails for every motivator but the first: one that is at rest on its target is not boosted, and one that is on its way, far from
its target, is, if it has the value of the first motivator as its target. -/
theorem C104_other_motivators_fail :
    ∃ (st : Settled1f ℚ) (a b c : OvershootSlot ℚ), 0 < st.maxDifference ∧ 0 < st.maxVelocity ∧
      (b.Settled ∧ twitch .positive 1 st [a, b] 1 = some [a, b] ∧ b.velocity ≠ 1) ∧
      (st.maxDifference < |c.target - c.value| ∧ twitch .positive 1 st [a, c] 1 = some [a, { c with velocity := 1 }] ∧ c.velocity ≠ 1) := by
  refine ⟨⟨1 / 10, 1 / 10⟩, ⟨OvershootSlot.demoInit, 0, 0, 0⟩, ⟨OvershootSlot.demoInit, 0, 1, 1⟩, ⟨OvershootSlot.demoInit, 0, 0, 1⟩,
    by norm_num, by norm_num, ⟨⟨rfl, rfl⟩, ?_, by norm_num⟩, by norm_num, ?_, by norm_num⟩
  · decide +kernel
  · decide +kernel

omit [Field K] [LinearOrder K] [IsStrictOrderedRing K] in
/-- **C104**. `Current1f` is documented to reset the target to the new value (target.h:233-234), and the velocity to 0 (target.h:96-97).  An overshoot
motivator does neither, which is what `Twitch` relies on. -/
theorem C104_current_keeps_target (s : OvershootSlot K) (value velocity : K) :
    s.setTarget (current1f value velocity) = some { s with value := value, velocity := velocity } := by
  simp [current1f, OvershootSlot.setTarget]

/-- For example: a motivator on its target. -/
example : twitch .negative (1 / 2) ⟨1 / 10, 1 / 10⟩ [(⟨OvershootSlot.demoInit, 0, 1, 1⟩ : OvershootSlot ℚ)] 0 =
    some [⟨OvershootSlot.demoInit, -(1 / 2), 1, 1⟩] := by decide +kernel

example : (⟨1 / 10, 1 / 10⟩ : Settled1f ℚ).settledMotivator [⟨OvershootSlot.demoInit, 0, 1, 1⟩, ⟨OvershootSlot.demoInit, 0, 1, 0⟩] 0 (List.range 2) =
    some false := by decide +kernel

end Motive.Slot
