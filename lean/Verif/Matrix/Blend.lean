import Verif.Matrix.Ops
import Verif.SplineProc.Target
import Mathlib.Algebra.Order.Floor.Ring
/-!
# Model of `MatrixOperation` and `BlendToOps` (include/motive/matrix_op.h, src/motive/processor/matrix_data.h, sqt_data.h)

Idealisation: `float` is `ℝ`. The child motivator of an operation can be of any type, so the operations are modelled over a `Driver`: what
the interface of `Motivator1f` offers. By C09 the calls to one motivator do not disturb the others, so a child motivator is a value here; C114 proves that this is so.
A failed assertion or a null dereference is `none`.
-/

namespace Motive.Matrix4
open Motive.Targets Motive.Curve

noncomputable section

/-- `SplinePlayback` (include/motive/math/compact_spline.h:591-631). -/
structure Playback where
  startX : ℝ := 0
  repeating : Bool := false
  rate : ℝ := 1
  blendX : ℝ := 0
  yScale : ℝ := 1
  yOffset : ℝ := 0

/-- `static_cast<MotiveTime>` of a float: rounds towards zero. A value out of the range of `int` is not modelled. -/
def toTime (x : ℝ) : ℤ := if 0 ≤ x then ⌊x⌋ else ⌈x⌉

/-- The one dimensional motivator of an operation: `Motivator1f` (include/motive/motivator.h). -/
structure Driver where
  /-- The state of a motivator. -/
  M : Type
  /-- Its initialisers, `MotivatorInit`. -/
  I : Type
  /-- `CompactSpline`. -/
  S : Type
  create : I → M
  value : M → ℝ
  velocity : M → ℝ
  setTarget : M → Target ℝ → M
  setSpline : M → S → Playback → M
  setRate : M → ℝ → M
  setRepeating : M → Bool → M
  targetTime : M → ℤ
  splineStart : S → ℝ
  advance : M → ℤ → M

variable (D : Driver)

/-- The union of `MatrixOperationInit` (matrix_op.h:133-138, 196-201). -/
inductive Union where
  | empty
  | initial (v : ℝ)
  | target (t : Target ℝ)
  | spline (s : D.S)

/-- `MatrixOperationInit` (matrix_op.h:130-202). -/
structure OpInit where
  init : Option D.I
  id : ℕ
  type : OpType
  union : Union D

/-- `MatrixOperation` (matrix_op.h:207-516): `motivator_` is `none` when it is not valid. -/
structure Op where
  id : ℕ
  type : OpType
  motivator : Option D.M
  const : ℝ

variable {D}

/-- `StartValue` (matrix_op.h:180-191). -/
def OpInit.startValue (i : OpInit D) : Option ℝ :=
  match i.union with
  | .empty => some i.type.default
  | .initial v => some v
  | .target t => (t.node 0).map (·.value)
  | .spline s => some (D.splineStart s)

/-- `kEpsilon` (matrix_op.h:38). -/
def kEpsilon : ℝ := 1 / 1000

/-- `NearlyEqual` (matrix_op.h:71-74). -/
def nearlyEqual (a b p : ℝ) : Prop := -p ≤ a - b ∧ a - b ≤ p

open Classical in
/-- `BlendToOp` (matrix_op.h:302-347). -/
def Op.blendToOp (o : Op D) (i : OpInit D) (pb : Playback) : Option (Op D) :=
  match i.union with
  | .empty => some o
  | .initial v =>
    match o.motivator with
    | none => some { o with const := v }
    | some m =>
      if nearlyEqual (D.value m) v kEpsilon ∧ nearlyEqual (D.velocity m) 0 kEpsilon then
        some { o with motivator := none, const := v }
      else (Target.target v 0 (toTime pb.blendX) .closest).map fun t => { o with motivator := some (D.setTarget m t) }
  | .target t =>
    match o.motivator with
    | none => i.init.map fun k => { o with motivator := some (D.setTarget (D.setTarget (D.create k) (.current o.const 0)) t) }
    | some m => some { o with motivator := some (D.setTarget m t) }
  | .spline s =>
    match o.motivator with
    | none => i.init.map fun k => { o with motivator := some (D.setSpline (D.setTarget (D.create k) (.current o.const 0)) s pb) }
    | some m => some { o with motivator := some (D.setSpline m s pb) }

/-- `BlendToDefault` (matrix_op.h:349-361). -/
def Op.blendToDefault (o : Op D) (time : ℤ) : Option (Op D) :=
  match o.motivator with
  | none => some { o with const := o.type.default }
  | some m =>
    (if time = 0 then some (Target.current o.type.default 0) else Target.target o.type.default 0 time .closest).map
      fun t => { o with motivator := some (D.setTarget m t) }

/-- The state of an operation before `BlendToOp` in its constructor (matrix_op.h:217-228). -/
def OpInit.fresh (i : OpInit D) : Op D :=
  ⟨i.id, i.type, i.init.map fun k => D.setTarget (D.create k) (.current i.type.default 0), i.type.default⟩

/-- The constructor of `MatrixOperation` (matrix_op.h:214-233), with the assertion of `SetId` (matrix_op.h:494-497). -/
def OpInit.construct (i : OpInit D) (pb : Playback) : Option (Op D) :=
  if i.id ≤ 254 then i.fresh.blendToOp i pb else none

/-- `Value` (matrix_op.h:268-270). -/
def Op.value (o : Op D) : ℝ := match o.motivator with
  | some m => D.value m
  | none => o.const

/-- `Velocity` (matrix_op.h:273-275). -/
def Op.velocity (o : Op D) : ℝ := match o.motivator with
  | some m => D.velocity m
  | none => 0

/-- `TimeRemaining` (matrix_op.h:373-381). -/
def Op.timeRemaining (o : Op D) : ℤ := match o.motivator with
  | some m => D.targetTime m
  | none => 0

/-- The first loop of `BlendToOps` (matrix_data.h:65-93, sqt_data.h:153-181). `bad` is the kind of operations that it asserts not to see:
quaternions in `MatrixData`, rotations about an axis in `SqtData`. -/
def mergeLoop (bad : OpType → Bool) (new : List (OpInit D)) (pb : Playback) (ops : List (Op D)) (oi ni : ℕ) :
    Option (List (Op D) × ℕ × ℕ) :=
  if h : oi < ops.length ∧ ni < new.length then
    let o := ops[oi]
    let n := new[ni]
    if bad n.type then none
    else if o.id = n.id then
      match o.blendToOp n pb with
      | none => none
      | some o' => mergeLoop bad new pb (ops.set oi o') (oi + 1) (ni + 1)
    else if o.id < n.id then
      match o.blendToDefault (toTime pb.blendX) with
      | none => none
      | some o' => mergeLoop bad new pb (ops.set oi o') (oi + 1) ni
    else
      match n.construct pb with
      | none => none
      | some o' => mergeLoop bad new pb (ops.insertIdx oi o') (oi + 1) (ni + 1)
  else some (ops, oi, ni)
termination_by (ops.length - oi) + (new.length - ni)
decreasing_by all_goals (simp only [List.length_insertIdx, List.length_set]; first | omega | (rw [if_pos h.1.le]; omega))

/-- The second loop (matrix_data.h:96-99, sqt_data.h:184-187). -/
def restOld (pb : Playback) (ops : List (Op D)) (oi : ℕ) : Option (List (Op D)) :=
  if h : oi < ops.length then
    match ops[oi].blendToDefault (toTime pb.blendX) with
    | none => none
    | some o' => restOld pb (ops.set oi o') (oi + 1)
  else some ops
termination_by ops.length - oi
decreasing_by simp; omega

/-- The third loop (matrix_data.h:102-104, sqt_data.h:190-192). -/
def restNew (pb : Playback) (new : List (OpInit D)) (ops : List (Op D)) (ni : ℕ) : Option (List (Op D)) :=
  if h : ni < new.length then
    match new[ni].construct pb with
    | none => none
    | some o' => restNew pb new (ops ++ [o']) (ni + 1)
  else some ops
termination_by new.length - ni

/-- `BlendToOps` (matrix_data.h:56-105; sqt_data.h:147-193 after `AlignQuaternionOps`). -/
def blendToOps (bad : OpType → Bool) (new : List (OpInit D)) (pb : Playback) (ops : List (Op D)) : Option (List (Op D)) :=
  match mergeLoop bad new pb ops 0 0 with
  | none => none
  | some (ops1, oi, ni) =>
    match restOld pb ops1 oi with
    | none => none
    | some ops2 => restNew pb new ops2 ni

/-- The loop of `Initialize` (matrix_data.h:34-38, sqt_data.h:39-43): the default `SplinePlayback`. -/
def initOps (bad : OpType → Bool) (new : List (OpInit D)) : Option (List (Op D)) :=
  new.mapM fun n => if bad n.type then none else n.construct {}

/-- `TimeRemaining` (matrix_data.h:119-126). -/
def timeRemaining (ops : List (Op D)) : ℤ := ops.foldl (fun t o => max t o.timeRemaining) 0

/-! ### The recursive form of the merge -/

/-- The merge, by recursion on both lists. -/
def mergeRec (bad : OpType → Bool) (pb : Playback) : List (Op D) → List (OpInit D) → Option (List (Op D))
  | [], ns => ns.mapM (·.construct pb)
  | o :: os, [] => (o :: os).mapM (·.blendToDefault (toTime pb.blendX))
  | o :: os, n :: ns =>
    if bad n.type then none
    else if o.id = n.id then (o.blendToOp n pb).bind fun o' => (mergeRec bad pb os ns).map (o' :: ·)
    else if o.id < n.id then (o.blendToDefault (toTime pb.blendX)).bind fun o' => (mergeRec bad pb os (n :: ns)).map (o' :: ·)
    else (n.construct pb).bind fun o' => (mergeRec bad pb (o :: os) ns).map (o' :: ·)

theorem restOld_eq (pb : Playback) (pre os : List (Op D)) :
    restOld pb (pre ++ os) pre.length = (os.mapM fun o : Op D => o.blendToDefault (toTime pb.blendX)).map (pre ++ ·) := by
  induction os generalizing pre with
  | nil => rw [restOld]; simp
  | cons o os ih =>
    rw [restOld, dif_pos (by simp)]
    rw [List.mapM_cons]
    have : (pre ++ o :: os)[pre.length]'(by simp) = o := by simp
    rw [this]
    cases o.blendToDefault (toTime pb.blendX) with
    | none => rfl
    | some o' =>
      have := ih (pre ++ [o'])
      simp only [List.length_append, List.length_singleton, List.append_assoc, List.singleton_append] at this
      simp only [List.set_append_right _ _ (le_refl _), Nat.sub_self, List.set_cons_zero, this]
      cases os.mapM (fun x : Op D => x.blendToDefault (toTime pb.blendX)) <;> simp [bind, pure]

theorem restNew_eq (pb : Playback) (new : List (OpInit D)) (ops : List (Op D)) (ni : ℕ) :
    restNew pb new ops ni = ((new.drop ni).mapM fun n : OpInit D => n.construct pb).map (ops ++ ·) := by
  induction h : new.length - ni generalizing ni ops with
  | zero => rw [restNew, dif_neg (by omega), List.drop_eq_nil_of_le (by omega)]; simp
  | succ k ih =>
    have hlt : ni < new.length := by omega
    rw [restNew, dif_pos hlt, List.drop_eq_getElem_cons hlt, List.mapM_cons]
    cases new[ni].construct pb with
    | none => rfl
    | some o' =>
      simp only [ih (ops ++ [o']) (ni + 1) (by omega)]
      cases (new.drop (ni + 1)).mapM (fun x : OpInit D => x.construct pb) <;> simp [bind, pure]

theorem mergeRec_nil_right (bad : OpType → Bool) (pb : Playback) (os : List (Op D)) :
    mergeRec bad pb os [] = os.mapM (·.blendToDefault (toTime pb.blendX)) := by
  cases os <;> simp [mergeRec]

theorem insertIdx_mid {α : Type} (pre l : List α) (x : α) : (pre ++ l).insertIdx pre.length x = (pre ++ [x]) ++ l := by
  induction pre with
  | nil => simp
  | cons a pre ih => simpa using ih

theorem merge_eq (bad : OpType → Bool) (new : List (OpInit D)) (pb : Playback) (pre os : List (Op D)) (ni : ℕ) :
    (match mergeLoop bad new pb (pre ++ os) pre.length ni with
      | none => none
      | some (ops1, oi, ni) =>
        match restOld pb ops1 oi with
        | none => none
        | some ops2 => restNew pb new ops2 ni) = (mergeRec bad pb os (new.drop ni)).map (pre ++ ·) := by
  induction hk : os.length + (new.length - ni) using Nat.strong_induction_on generalizing pre os ni with
  | _ k ih =>
  rw [mergeLoop]
  by_cases h : pre.length < (pre ++ os).length ∧ ni < new.length
  · rw [dif_pos h]
    obtain ⟨o, os', rfl⟩ : ∃ o os', os = o :: os' := by
      cases os with
      | nil => simp at h
      | cons o os' => exact ⟨o, os', rfl⟩
    have ho : (pre ++ o :: os')[pre.length]'h.1 = o := by simp
    have hset : ∀ o', (pre ++ o :: os').set pre.length o' = (pre ++ [o']) ++ os' := by
      intro o'; simp [List.set_append_right]
    have hins : ∀ o', (pre ++ o :: os').insertIdx pre.length o' = (pre ++ [o']) ++ (o :: os') := by
      intro o'; exact insertIdx_mid pre _ o'
    have hlen : ∀ o' : Op D, pre.length + 1 = (pre ++ [o']).length := by simp
    simp only [List.length_cons] at hk
    rw [List.drop_eq_getElem_cons h.2]
    simp only [ho, mergeRec]
    split_ifs with hb h1 h2
    · rfl
    · cases o.blendToOp new[ni] pb with
      | none => rfl
      | some o' =>
        simp only [hset, hlen o', Option.bind_some, Option.map_map]
        rw [ih _ (by have := h.2; omega) _ _ _ rfl]
        cases mergeRec bad pb os' (new.drop (ni + 1)) <;> simp
    · cases o.blendToDefault (toTime pb.blendX) with
      | none => rfl
      | some o' =>
        simp only [hset, hlen o', Option.bind_some, Option.map_map]
        rw [ih _ (by omega) _ _ _ rfl, List.drop_eq_getElem_cons h.2]
        cases mergeRec bad pb os' (new[ni] :: new.drop (ni + 1)) <;> simp
    · cases new[ni].construct pb with
      | none => rfl
      | some o' =>
        simp only [hins, hlen o', Option.bind_some, Option.map_map]
        rw [ih _ (by have := h.2; simp; omega) _ _ _ rfl]
        cases mergeRec bad pb (o :: os') (new.drop (ni + 1)) <;> simp
  · rw [dif_neg h]
    simp only [restOld_eq]
    by_cases hn : ni < new.length
    · have : os = [] := by
        cases os with
        | nil => rfl
        | cons o os' => exact absurd ⟨by simp, hn⟩ h
      subst this
      simp [restNew_eq, mergeRec, pure]
    · rw [List.drop_eq_nil_of_le (by omega), mergeRec_nil_right]
      cases os.mapM (fun x : Op D => x.blendToDefault (toTime pb.blendX)) with
      | none => rfl
      | some l => simp [restNew_eq, List.drop_eq_nil_of_le (Nat.le_of_not_lt hn), pure]

theorem blendToOps_eq (bad : OpType → Bool) (new : List (OpInit D)) (pb : Playback) (ops : List (Op D)) :
    blendToOps bad new pb ops = mergeRec bad pb ops new := by
  have := merge_eq bad new pb [] ops 0
  simp only [List.nil_append, List.length_nil, List.drop_zero, Option.map_id'] at this
  exact this

end
end Motive.Matrix4
