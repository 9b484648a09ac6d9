import Verif.Rig.Time

/-!
# C106: the playback rates of a rig

`SetPlaybackRate`, `SetPlaybackRates` and `SetRepeating` (src/motive/processor/rig_data.h:167-185 and 203-207). What a motivator of a bone does with them is
C91 and C96 for its operations (include/motive/matrix_op.h:363-371).
-/

namespace Motive.Rig
open Motive.Matrix4

noncomputable section
variable {J : Joint}

/-! ### Specification -/

/-- Nothing of a rig but its motivators has changed. -/
def SameButMotivators (r r' : RigData J) : Prop :=
  r'.transforms = r.transforms ∧ r'.weights = r.weights ∧ r'.defining = r.defining ∧ r'.rootBone = r.rootBone ∧ r'.rootMotion = r.rootMotion ∧
    r'.endTime = r.endTime

/-- The motivator of bone `k` in animation `i`. -/
def Drives (r : RigData J) (i k : ℕ) (m : J.M) : Prop := r.motivators[i * r.numBones + k]? = some (some m)

/-! ### Theorems -/

theorem drives_exists {r : RigData J} (h : Reach r) {i k : ℕ} (hi : i < r.weights.length) (hk : k < r.numBones) : ∃ m, Drives r i k m := by
  have hs := h.shaped
  have hc : r.motivators.length = r.numBones * r.weights.length := by rw [hs.count, Nat.max_eq_right (by omega)]
  have hlt : i * r.numBones + k < r.motivators.length := by
    rw [hc]
    calc i * r.numBones + k < r.numBones * (i + 1) := by rw [Nat.mul_add, Nat.mul_one, Nat.mul_comm]; omega
      _ ≤ r.numBones * r.weights.length := Nat.mul_le_mul_left _ hi
  obtain ⟨m, hm⟩ := Option.isSome_iff_exists.mp (hs.valid (by intro h0; rw [h0] at hi; simp at hi) _ (List.getElem_mem hlt))
  exact ⟨m, by unfold Drives; rw [List.getElem?_eq_getElem hlt, hm]⟩

/-- `SetPlaybackRates` gives the first animations their rates, and leaves the others alone. -/
theorem C106_rates {r : RigData J} (h : Reach r) {rates : List ℝ} (hl : rates.length ≤ r.weights.length) :
    ∃ r', r.setRates rates = some r' ∧ SameButMotivators r r' ∧ ∀ i < r.weights.length, ∀ k < r.numBones, ∃ m, Drives r i k m ∧
      (∀ x, rates[i]? = some x → Drives r' i k (J.setRate m x)) ∧ (rates[i]? = none → Drives r' i k m) := by
  rcases Nat.eq_zero_or_pos r.numBones with hn | hn
  · have : ∀ (rates : List ℝ) (i : ℕ), ratesLoop (J := J) 0 i rates r.motivators = some r.motivators := by
      intro rates
      induction rates with
      | nil => intro i; rfl
      | cons x rates ih => intro i; rw [ratesLoop, rateLoop, if_neg (by omega)]; exact ih (i + 1)
    refine ⟨r, by unfold RigData.setRates; rw [hn, this]; rfl, ⟨rfl, rfl, rfl, rfl, rfl, rfl⟩, fun i _ k hk => by omega⟩
  · have hs := h.shaped
    have hspec := ratesLoop_spec hn rates 0 r.motivators
    rw [if_neg ?_] at hspec
    · obtain ⟨ms, e1, -, e3⟩ := hspec
      refine ⟨{ r with motivators := ms }, by unfold RigData.setRates; rw [e1]; rfl, ⟨rfl, rfl, rfl, rfl, rfl, rfl⟩, ?_⟩
      intro i hi k hk
      obtain ⟨m, hm⟩ := drives_exists h hi hk
      have hget := e3 i k hk
      unfold Drives at hm
      rw [hm] at hget
      refine ⟨m, hm, fun x hx => ?_, fun hx => ?_⟩
      · obtain ⟨hlt, rfl⟩ := List.getElem?_eq_some_iff.mp hx
        rw [dif_pos ⟨Nat.zero_le _, by omega⟩] at hget
        exact hget
      · rw [dif_neg (by have := List.getElem?_eq_none_iff.mp hx; omega)] at hget
        exact hget
    · rintro ⟨hlt, hne⟩
      have hpos : 0 < rates.length := List.length_pos_iff.mpr hne
      rw [hs.count, Nat.max_eq_right (by omega), Nat.zero_add, Nat.mul_comm] at hlt
      exact absurd (Nat.mul_le_mul_right r.numBones hl) (by omega)

/-- More rates than animations: motivators past the end of the vector are used. Before the first animation is played there is one set of
motivators, which are not valid and ignore one rate. -/
theorem C106_extra_rates_fail {r : RigData J} (h : Reach r) (hn : 0 < r.numBones) {rates : List ℝ} (hl : max 1 r.weights.length < rates.length) :
    r.setRates rates = none := by
  have hspec := ratesLoop_spec hn rates 0 r.motivators
  rw [if_pos ?_] at hspec
  · unfold RigData.setRates; rw [hspec]; rfl
  · refine ⟨?_, by rintro rfl; simp at hl⟩
    rw [h.shaped.count, Nat.zero_add, Nat.mul_comm]
    exact Nat.mul_lt_mul_of_pos_right hl hn

/-- `SetPlaybackRate` gives all animations that rate. -/
theorem C106_rate {r : RigData J} (h : Reach r) (x : ℝ) : SameButMotivators r (r.setRate x) ∧ ∀ i < r.weights.length, ∀ k < r.numBones,
    ∃ m, Drives r i k m ∧ Drives (r.setRate x) i k (J.setRate m x) := by
  refine ⟨⟨rfl, rfl, rfl, rfl, rfl, rfl⟩, fun i hi k hk => ?_⟩
  obtain ⟨m, hm⟩ := drives_exists h hi hk
  refine ⟨m, hm, ?_⟩
  unfold Drives at hm ⊢
  change (r.motivators.map _)[i * r.numBones + k]? = _
  rw [List.getElem?_map, hm]
  rfl

/-- `SetRepeating` makes all animations repeat or not. -/
theorem C106_repeating {r : RigData J} (h : Reach r) (b : Bool) : SameButMotivators r (r.setRepeating b) ∧ ∀ i < r.weights.length, ∀ k < r.numBones,
    ∃ m, Drives r i k m ∧ Drives (r.setRepeating b) i k (J.setRepeating m b) := by
  refine ⟨⟨rfl, rfl, rfl, rfl, rfl, rfl⟩, fun i hi k hk => ?_⟩
  obtain ⟨m, hm⟩ := drives_exists h hi hk
  refine ⟨m, hm, ?_⟩
  unfold Drives at hm ⊢
  change (r.motivators.map _)[i * r.numBones + k]? = _
  rw [List.getElem?_map, hm]
  rfl

/-- Before the first animation is played they do nothing. -/
theorem C106_before_animation {a : Anim J} {root : ℕ} {time : ℤ} {r : RigData J} (h : RigData.new a root time = some r) :
    (∀ x, r.setRate x = r) ∧ (∀ b, r.setRepeating b = r) := by
  obtain ⟨e1, -⟩ := update_fields h
  have : ∀ f : J.M → J.M, r.motivators.map (fun m => m.map f) = r.motivators := by intro f; rw [e1]; simp
  exact ⟨fun x => by unfold RigData.setRate; rw [this], fun b => by unfold RigData.setRepeating; rw [this]⟩

/-- A rig that blends two animations, one of which is given a rate. -/
example : ∃ r : RigData simpleJoint, Reach r ∧ r.weights.length = 2 ∧ 0 < r.numBones ∧ ([2] : List ℝ).length ≤ r.weights.length :=
  ⟨_, Reach.blendToAnims (sample_reach 2) (sample_two 2 5 7 1 3 (by norm_num) (by norm_num) (by norm_num)), by simp [sampleRig],
    by simp [sampleRig, RigData.numBones, sampleAnim], by simp [sampleRig]⟩

end
end Motive.Rig
