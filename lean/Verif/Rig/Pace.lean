import Verif.Rig.Rest
import Verif.Matrix.Pace
import Verif.Rig.Rates

/-!
# C109: slow motion and pauses of rigs

`SetPlaybackRate` (src/motive/processor/rig_data.h:167-173) while animations play: only the product of the rate and the length of a frame matters, so
that half the rate with frames twice as long gives the same poses, and a rate of 0 stops everything.
-/

namespace Motive.Rig
open Motive.Matrix4 Motive.Splines Motive.Math Motive.Curve

noncomputable section

variable {F : Matrix (Fin 3) (Fin 3) ℝ → Quat}

/-! ### Specification -/

/-- The frames of a program that sets the rate before each one: the rates and the lengths of the frames. -/
def paces (r : RigData (boneJoint F)) : List (ℝ × ℤ) → Option (RigData (boneJoint F))
  | [] => some r
  | (c, dt) :: l => ((r.setRate c).frame dt).bind fun r' => paces r' l

/-- Two such programs, with the same products of rate and length. -/
def SameProducts (l l' : List (ℝ × ℤ)) : Prop := List.Forall₂ (fun a b : ℝ × ℤ => a.1 * (a.2 : ℝ) = b.1 * (b.2 : ℝ)) l l'

/-! ### Frames without rates -/

/-- The rate of a bone's motivator. -/
def rateBone (c : ℝ) (b : Bone) : Bone := { b with ops := b.ops.map (rateOp c) }

def glideBone (δ : ℝ) (b : Bone) : Option Bone := Bone.update { b with ops := b.ops.map (glideOp δ) }

def glideSome (δ : ℝ) : Option Bone → Option (Option Bone)
  | none => some none
  | some b => (glideBone δ b).map some

def glide (δ : ℝ) (r : RigData (boneJoint F)) : Option (RigData (boneJoint F)) :=
  (r.motivators.mapM (glideSome δ)).bind fun ms => RigData.update { r with motivators := ms }

theorem update_rateBone (c : ℝ) (b : Bone) : (rateBone c b).update = b.update.map (rateBone c) := by
  unfold Bone.update rateBone
  simp only [read_rate]
  split_ifs <;> simp only [Option.map_map] <;> rfl

theorem advance_rateBone (c : ℝ) (dt : ℤ) (b : Bone) : (rateBone c b).advance dt = (glideBone (dt * c) b).map (rateBone c) := by
  unfold Bone.advance glideBone
  rw [← update_rateBone]
  congr 1
  unfold rateBone
  simp only [List.map_map]
  congr 1
  apply List.map_congr_left
  intro o _
  exact advance_rateOp c dt o

theorem glide_rateBone (c δ : ℝ) (b : Bone) : glideBone δ (rateBone c b) = (glideBone δ b).map (rateBone c) := by
  unfold glideBone
  rw [← update_rateBone]
  congr 1
  unfold rateBone
  simp only [List.map_map]
  congr 1
  apply List.map_congr_left
  intro o _
  exact glide_rateOp c δ o

theorem rate_rateBone (c c' : ℝ) (b : Bone) : rateBone c' (rateBone c b) = rateBone c' b := by
  unfold rateBone
  simp only [List.map_map]
  congr 1
  apply List.map_congr_left
  intro o _
  exact rate_rateOp c c' o

theorem rate_rig (c c' : ℝ) (r : RigData (boneJoint F)) : (r.setRate c).setRate c' = r.setRate c' := by
  unfold RigData.setRate
  simp only [List.map_map]
  congr 1
  apply List.map_congr_left
  intro m _
  cases m with
  | none => rfl
  | some b => exact congrArg some (rate_rateBone c c' b)

theorem update_rate (c : ℝ) (r : RigData (boneJoint F)) : RigData.update (r.setRate c) = (RigData.update r).map (·.setRate c) := by
  have hget : ∀ i, (r.setRate c).motivators.getD i none = (r.motivators.getD i none).map (rateBone c) := by
    intro i
    rw [List.getD_eq_getElem?_getD, List.getD_eq_getElem?_getD]
    change ((r.motivators.map _)[i]?).getD none = _
    rw [List.getElem?_map]
    cases r.motivators[i]? <;> rfl
  have h1 : (r.setRate c).singleLocals = r.singleLocals := by
    unfold RigData.singleLocals
    apply List.map_congr_left
    intro i _
    rw [hget]
    cases r.motivators.getD i none <;> rfl
  have h2 : (r.setRate c).blendedLocals = r.blendedLocals := by
    unfold RigData.blendedLocals
    have : (r.setRate c).bonePoses = r.bonePoses := by
      funext i
      unfold RigData.bonePoses
      apply List.map_congr_left
      intro j _
      rw [hget]
      change (r.weights.getD j 0, _) = _
      congr 1
      rw [show (r.setRate c).numBones = r.numBones from rfl]
      cases r.motivators.getD (i + j * r.numBones) none <;> rfl
    rw [this]
    rfl
  unfold RigData.update
  rw [h1, h2]
  change (match (if r.weights.length ≤ 1 then some r.singleLocals else r.blendedLocals) with
    | none => none
    | some locals => _) = _
  cases (if r.weights.length ≤ 1 then some r.singleLocals else r.blendedLocals) with
  | none => rfl
  | some L =>
    simp only [Option.map_map]
    rfl

theorem mapM_rate {α β : Type} (f g : α → Option β) (k : β → β) (h : ∀ x, f x = (g x).map k) (l : List α) :
    l.mapM f = (l.mapM g).map (List.map k) := by
  induction l with
  | nil => rfl
  | cons a l ih =>
    rw [List.mapM_cons, List.mapM_cons, h a, ih]
    cases g a with
    | none => rfl
    | some b => cases l.mapM g <;> rfl

/-- A frame at a rate is a frame without rates, by the product. -/
theorem frame_rate (c : ℝ) (dt : ℤ) (r : RigData (boneJoint F)) : (r.setRate c).frame dt = (glide (dt * c) r).map (·.setRate c) := by
  unfold RigData.frame glide
  have h1 : (r.setRate c).motivators.mapM (fun m => advanceBone m dt) = (r.motivators.mapM (glideSome (dt * c))).map (List.map (Option.map (rateBone c))) := by
    change (r.motivators.map _).mapM _ = _
    rw [List.mapM_map]
    apply mapM_rate
    intro m
    cases m with
    | none => rfl
    | some b =>
      change ((rateBone c b).advance dt).map some = _
      rw [advance_rateBone]
      simp only [glideSome, Option.map_map]
      rfl
  rw [h1]
  generalize (r.motivators.mapM (glideSome _)) = ms
  cases ms with
  | none => rfl
  | some ms =>
    simp only [Option.map_some, Option.bind_some]
    exact update_rate c { r with motivators := ms }

theorem glide_rate_rig (c δ : ℝ) (r : RigData (boneJoint F)) : glide δ (r.setRate c) = (glide δ r).map (·.setRate c) := by
  unfold glide
  have h1 : (r.setRate c).motivators.mapM (glideSome δ) = (r.motivators.mapM (glideSome δ)).map (List.map (Option.map (rateBone c))) := by
    change (r.motivators.map _).mapM _ = _
    rw [List.mapM_map]
    apply mapM_rate
    intro m
    cases m with
    | none => rfl
    | some b =>
      change (glideBone δ (rateBone c b)).map some = _
      rw [glide_rateBone]
      simp only [glideSome, Option.map_map]
      rfl
  rw [h1]
  generalize (r.motivators.mapM (glideSome _)) = ms
  cases ms with
  | none => rfl
  | some ms =>
    simp only [Option.map_some, Option.bind_some]
    exact update_rate c { r with motivators := ms }

/-! ### Rates -/

theorem longest_rate (c : ℝ) : ∀ (ms : List (Option Bone)) (t : ℤ),
    longest (J := boneJoint F) t (ms.map (Option.map (rateBone c))) = longest (J := boneJoint F) t ms := by
  intro ms
  induction ms with
  | nil => intro t; rfl
  | cons m ms ih =>
    intro t
    cases m with
    | none => exact ih _
    | some b =>
      have : timeRemaining (rateBone c b).ops = timeRemaining b.ops := by
        unfold timeRemaining rateBone
        simp only [List.foldl_map]
        congr 1
        funext t o
        congr 1
        unfold Op.timeRemaining rateOp
        cases o.motivator with
        | none => rfl
        | some m => cases m <;> rfl
      change longest (J := boneJoint F) (max t (timeRemaining (rateBone c b).ops)) (ms.map (Option.map (rateBone c))) =
        longest (J := boneJoint F) (max t (timeRemaining b.ops)) ms
      rw [ih, this]

theorem timeRemaining_rate (c : ℝ) (r : RigData (boneJoint F)) : (r.setRate c).timeRemaining = r.timeRemaining := by
  unfold RigData.timeRemaining
  split_ifs with h1 h2 h2
  · rfl
  · exact absurd h1 h2
  · exact absurd h2 h1
  · exact longest_rate c r.motivators 0

theorem paces_alike {l l' : List (ℝ × ℤ)} (h : SameProducts l l') :
    ∀ {r r' : RigData (boneJoint F)}, r.setRate 0 = r'.setRate 0 → (paces r l).map (·.setRate 0) = (paces r' l').map (·.setRate 0) := by
  induction h with
  | nil => intro r r' e; exact congrArg some e
  | @cons a b l l' hab _ ih =>
    intro r r' e
    obtain ⟨c, dt⟩ := a
    obtain ⟨c', dt'⟩ := b
    have hab : c * (dt : ℝ) = c' * (dt' : ℝ) := hab
    have hδ : (dt' : ℝ) * c' = dt * c := by rw [mul_comm, ← hab, mul_comm]
    unfold paces
    rw [frame_rate, frame_rate, hδ]
    have h1 : (glide (dt * c) r).map (·.setRate 0) = (glide (dt * c) r').map (·.setRate 0) := by
      rw [← glide_rate_rig, ← glide_rate_rig, e]
    cases g : glide (dt * c) r with
    | none =>
      rw [g] at h1
      have : glide (dt * c) r' = none := by
        cases g' : glide (dt * c) r' with
        | none => rfl
        | some _ => rw [g'] at h1; cases h1
      rw [this]; rfl
    | some s =>
      rw [g] at h1
      obtain ⟨s', g', e'⟩ := Option.map_eq_some_iff.mp h1.symm
      rw [g']
      simp only [Option.map_some, Option.bind_some]
      exact ih (by rw [rate_rig, rate_rig, e'])

/-- **C109.** A program sets the playback rate of a rig before each frame, if it likes. Only the products of the rates and the lengths of the frames matter:
with other rates and frames that have the same products the rig has the same pose at the end, the same root motion and time remaining, and is in
the same state but for the rates. -/
theorem C109_rates {l l' : List (ℝ × ℤ)} (h : SameProducts l l') {r r1 : RigData (boneJoint F)}
    (h1 : paces r l = some r1) : ∃ r2, paces r l' = some r2 ∧ r2.transforms = r1.transforms ∧ r2.rootMotion = r1.rootMotion ∧
      r2.timeRemaining = r1.timeRemaining ∧ ∀ c, r2.setRate c = r1.setRate c := by
  have e := paces_alike h (rfl : r.setRate 0 = r.setRate 0)
  rw [h1] at e
  obtain ⟨r2, h2, e2⟩ := Option.map_eq_some_iff.mp e.symm
  refine ⟨r2, h2, ?_, ?_, ?_, fun c => ?_⟩
  · have := congrArg RigData.transforms e2; exact this
  · have := congrArg RigData.rootMotion e2; exact this
  · rw [← timeRemaining_rate 0 r2, e2, timeRemaining_rate]
  · rw [← rate_rig 0 c r2, e2, rate_rig]

end
end Motive.Rig
