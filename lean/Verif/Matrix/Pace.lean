import Verif.Matrix.Rest

/-!
# C109: rates of operations' motivators

A frame moves the position on a spline by the product of the rate and the length of the frame (src/motive/math/bulk_spline_evaluator.cpp:281-296), and the
rate appears in velocities, but nowhere else.
-/

namespace Motive.Matrix4
open Motive.Targets Motive.Splines Motive.Math Motive.Curve

noncomputable section

/-! ### Frames without rates -/

/-- A frame in which the position moves by `δ`. -/
def glideSlot (h : Heap) (δ : ℝ) (c : Slot) : Option Slot :=
  let c1 := { c with cubicX := c.cubicX + δ }
  (if c1.cubicXEnd < ((c1.cubicX : ℝ) : WithTop ℝ) then (c1.X h).bind fun x => c1.initCubic h x else some c1).map Slot.evaluate

theorem advance_glide (h : Heap) (dx : ℝ) (c : Slot) : c.advance h dx = glideSlot h (dx * c.rate) c := rfl

theorem initCubic_rate (h : Heap) (c : Slot) (x r : ℝ) :
    Slot.initCubic h { c with rate := r } x = (c.initCubic h x).map fun c => { c with rate := r } := by
  unfold Slot.initCubic
  cases hs : c.spline with
  | none => simp [← hs]
  | some id =>
    simp only [hs]
    cases h id with
    | none => rfl
    | some s =>
      simp only [Option.bind_some]
      cases s.indexForXRepeat x ((c.xIndex + 1) % 65536) c.rep with
      | none => rfl
      | some p =>
        simp only [Option.bind_some]
        cases s.rangeX p.1 with
        | none => rfl
        | some r' =>
          simp only [Option.bind_some]
          cases s.cubicInitAt p.1 <;> rfl

theorem glide_rate (h : Heap) (δ : ℝ) (c : Slot) (r : ℝ) :
    glideSlot h δ { c with rate := r } = (glideSlot h δ c).map fun c => { c with rate := r } := by
  unfold glideSlot
  simp only
  split_ifs
  · rw [Option.map_map]
    have hX : Slot.X h { c with cubicX := c.cubicX + δ, rate := r } = Slot.X h { c with cubicX := c.cubicX + δ } := rfl
    rw [hX]
    cases Slot.X h { c with cubicX := c.cubicX + δ } with
    | none => rfl
    | some x =>
      simp only [Option.bind_some]
      have := initCubic_rate h { c with cubicX := c.cubicX + δ } x r
      simp only at this
      rw [this, Option.map_map]
      rfl
  · rfl

/-- The rate of an operation's motivator. -/
def rateOp (c : ℝ) (o : Op splineDriver) : Op splineDriver := { o with motivator := o.motivator.map (splineDriver.setRate · c) }

def glidePlayer (δ : ℝ) (p : Player) : Option Player := (glideSlot p.heap δ p.slot).map fun c => ⟨p.heap, c⟩

def glideOp (δ : ℝ) (o : Op splineDriver) : Op splineDriver := { o with motivator := o.motivator.map fun m => m.bind (glidePlayer δ) }

theorem advance_rateOp (c : ℝ) (dt : ℤ) (o : Op splineDriver) : (rateOp c o).advance dt = rateOp c (glideOp (dt * c) o) := by
  unfold rateOp Op.advance glideOp
  simp only [Option.map_map]
  congr 1
  cases o.motivator with
  | none => rfl
  | some m =>
    cases m with
    | none => rfl
    | some p =>
      simp only [Option.map_some, Function.comp_apply, Option.bind_some, Player.advance, glidePlayer]
      rw [advance_glide]
      simp only
      rw [glide_rate]
      simp only [Option.map_map]
      rfl

theorem glide_rateOp (c δ : ℝ) (o : Op splineDriver) : glideOp δ (rateOp c o) = rateOp c (glideOp δ o) := by
  unfold rateOp glideOp
  simp only [Option.map_map]
  congr 1
  cases o.motivator with
  | none => rfl
  | some m =>
    cases m with
    | none => rfl
    | some p =>
      simp only [Option.map_some, Function.comp_apply, Option.bind_some, glidePlayer]
      rw [glide_rate]
      simp only [Option.map_map]
      rfl

theorem rate_rateOp (c c' : ℝ) (o : Op splineDriver) : rateOp c' (rateOp c o) = rateOp c' o := by
  unfold rateOp
  simp only [Option.map_map]
  congr 1
  cases o.motivator with
  | none => rfl
  | some m => cases m <;> rfl

theorem read_rate (c : ℝ) (l : List (Op splineDriver)) : readOps (l.map (rateOp c)) = readOps l := by
  unfold readOps
  rw [List.map_map]
  apply List.map_congr_left
  intro o _
  simp only [Function.comp_apply]
  congr 1
  unfold rateOp Op.value
  cases o.motivator with
  | none => rfl
  | some m => cases m <;> rfl

end
end Motive.Matrix4
