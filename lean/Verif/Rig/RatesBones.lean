import Verif.Rig.Rates
import Verif.Rig.Clip
/-!
# C106 for bones with splines: what `SetPlaybackRate` and `SetRepeating` change

`Verif.Rig.Rates` says which motivators of a rig are told.  Here the motivators are those of `Verif.Rig.Clip`, matrix and SQT motivators whose
operations play splines, so that it can be said what the call changes and what it leaves alone.
-/

namespace Motive.Rig
open Motive.Matrix4

noncomputable section

variable {F : Matrix (Fin 3) (Fin 3) ℝ → Quat}

/-! ### Specification -/

/-- Two operations are the same except for their motivators, and the spline players in those are related by `P`. -/
structure Told (P : Player → Player → Prop) (o o' : Op splineDriver) : Prop where
  id : o'.id = o.id
  type : o'.type = o.type
  const : o'.const = o.const
  constant : o.motivator = none → o'.motivator = none
  player : ∀ p, o.motivator = some (some p) → ∃ p', o'.motivator = some (some p') ∧ P p p'

/-- Two bones are the same except for the spline players of their operations. -/
def BoneTold (P : Player → Player → Prop) (b b' : Bone) : Prop :=
  b'.sqt = b.sqt ∧ b'.matrix = b.matrix ∧ b'.rotation = b.rotation ∧ b'.scale = b.scale ∧ List.Forall₂ (Told P) b.ops b'.ops

/-- The player repeats or not, as told, and shows the same value at the same place of the same spline. -/
def Repeats (x : Bool) (p p' : Player) : Prop :=
  p'.slot.rep = x ∧ p'.slot.rate = p.slot.rate ∧ p'.slot.spline = p.slot.spline ∧ p'.slot.y = p.slot.y ∧
    p'.slot.derivative = p.slot.derivative ∧ p'.slot.X p'.heap = p.slot.X p.heap ∧ p'.heap = p.heap

/-- The player has the rate and its velocity is scaled to it; it shows the same value at the same place of the same spline. -/
def HasRate (x : ℝ) (p p' : Player) : Prop :=
  p'.slot.rate = x ∧ p'.slot.rep = p.slot.rep ∧ p'.slot.spline = p.slot.spline ∧ p'.slot.y = p.slot.y ∧
    p'.slot.derivative * p.slot.rate = p.slot.derivative * x ∧ p'.slot.X p'.heap = p.slot.X p.heap ∧ p'.heap = p.heap

/-! ### Theorems -/

theorem told_map {P : Player → Player → Prop} (f : Option Player → Option Player) (hf : ∀ p, ∃ p', f (some p) = some p' ∧ P p p')
    (ops : List (Op splineDriver)) : List.Forall₂ (Told P) ops (ops.map fun o => { o with motivator := o.motivator.map f }) := by
  rw [List.forall₂_map_right_iff, List.forall₂_same]
  intro o _
  refine ⟨rfl, rfl, rfl, fun h => by simp [h], fun p hp => ?_⟩
  obtain ⟨p', h1, h2⟩ := hf p
  exact ⟨p', by simp [hp, h1], h2⟩

/-- C106: `SetRepeating` makes the splines of all bones of all animations repeat or not, and changes nothing else in them. -/
theorem C106_splines_repeat {r : RigData (boneJoint F)} (h : Reach r) (x : Bool) : SameButMotivators r (r.setRepeating x) ∧
    ∀ i < r.weights.length, ∀ k < r.numBones, ∃ m m', Drives r i k m ∧ Drives (r.setRepeating x) i k m' ∧ BoneTold (Repeats x) m m' := by
  obtain ⟨h1, h2⟩ := C106_repeating h x
  refine ⟨h1, fun i hi k hk => ?_⟩
  obtain ⟨m, d1, d2⟩ := h2 i hi k hk
  exact ⟨m, _, d1, d2, rfl, rfl, rfl, rfl, told_map _ (fun p => ⟨_, rfl, rfl, rfl, rfl, rfl, rfl, rfl, rfl⟩) _⟩

/-- C106: `SetPlaybackRate` gives the splines of all bones of all animations that rate, and changes nothing else in them. -/
theorem C106_splines_rate {r : RigData (boneJoint F)} (h : Reach r) (x : ℝ) : SameButMotivators r (r.setRate x) ∧
    ∀ i < r.weights.length, ∀ k < r.numBones, ∃ m m', Drives r i k m ∧ Drives (r.setRate x) i k m' ∧ BoneTold (HasRate x) m m' := by
  obtain ⟨h1, h2⟩ := C106_rate h x
  refine ⟨h1, fun i hi k hk => ?_⟩
  obtain ⟨m, d1, d2⟩ := h2 i hi k hk
  exact ⟨m, _, d1, d2, rfl, rfl, rfl, rfl, told_map _ (fun p => ⟨_, rfl, rfl, rfl, rfl, rfl,
    by simp only [Motive.Splines.Slot.derivative]; ring, rfl, rfl⟩) _⟩

/-- A player that repeats after being told, and did not before. -/
example (p : Player) (hp : p.slot.rep = false) : Repeats true p ⟨p.heap, { p.slot with rep := true }⟩ ∧
    ¬ Repeats true p p := ⟨⟨rfl, rfl, rfl, rfl, rfl, rfl, rfl⟩, fun h => by simp [Repeats, hp] at h⟩

/-- The hypotheses are met by a rig that plays an animation. -/
example : ∃ (F : Matrix (Fin 3) (Fin 3) ℝ → Quat) (r : RigData (boneJoint F)), Reach r ∧ r.weights.length = 1 ∧ r.numBones = 2 := by
  have hm : (samplePlay (F := fun _ => .one)).matches samplePlay := ⟨rfl, rfl⟩
  have hal : Allowed (F := fun _ => .one) (fun _ => false) sampleKind 0 [.play samplePlay samplePlayback] := ⟨sample_suits, trivial⟩
  have ho : InOrder (samplePlay (F := fun _ => .one)).parents := by
    unfold InOrder samplePlay kInvalidBoneIdx; decide
  obtain ⟨r₀, r, t, h0, h⟩ := C98_runs (by intro _; simp [Quat.one]) 0 7 rfl ho hal
    ⟨hm, ⟨by norm_num [samplePlay], by norm_num [samplePlay]⟩, trivial⟩
  simp only [run, List.foldlM_cons, List.foldlM_nil, step, Option.bind_eq_bind, Option.bind_eq_some_iff, Option.map_eq_some_iff] at h
  obtain ⟨x, ⟨r', h1, rfl⟩, h2⟩ := h
  have hr : Reach r' := .blendToAnim (.new rfl ho h0) h1
  obtain ⟨e, ms, -, -, e3⟩ := blendToAnim_fields h1
  refine ⟨_, r', hr, by rw [e3]; exact resize_length _ _ _, ?_⟩
  rw [e3]
  change r₀.defining.bones.length = 2
  rw [(update_fields h0).2.2.1]
  rfl

end
end Motive.Rig
