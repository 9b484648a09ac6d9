import Verif.Proc.Partial
import Mathlib.Algebra.Group.Basic
/-!
# The const processor (const_processor.cpp, const_data.h) and initialisation of simple processors
(simple_processor_template.h:83-92)

The slot type is `ConstData` with the entry of `values_`; values are opaque, nothing computes with them.
-/

namespace Motive.Slot

open Motive.Proc

/-- `ConstData` (const_data.h:24-30) with the slot's entry of `values_`. -/
structure ConstSlot (V : Type) where
  /-- `velocity` -/
  velocity : V
  /-- `values_[i]` -/
  value : V
deriving DecidableEq

namespace ConstSlot

variable {V : Type}

/-- `AdvanceFrame` for one slot (const_processor.cpp:53-55): `Defragment` alone, which `World.advance` contains. -/
def frame : ConstSlot V → ConstSlot V := id

/-- `SimpleVelocity`, `SimpleTargetVelocity` (const_processor.cpp:26-28, 36-38). -/
def velocityOf (s : ConstSlot V) : V := s.velocity
/-- `SimpleTargetValue` (const_processor.cpp:31-33). -/
def targetValue (s : ConstSlot V) : V := s.value
/-- `SimpleDifference` (const_processor.cpp:40-42). -/
def difference [Sub V] (s : ConstSlot V) : V := s.targetValue - s.value

/-- `SetTargets`, `SetTargetWithShape`, `SetSplines`, … are inherited from `MotiveProcessorNf` (vector_processor.h:85-122)
and do nothing, so a call history of const motivators has no `write`. -/
def NoWrite : Op (ConstSlot V) → Prop
  | .write .. => False
  | _ => True

/-- A frame of processor `p` is the const processor's. -/
def ConstFrames (p : ProcId) : Op (ConstSlot V) → Prop
  | .advance q f => q = p → f = frame
  | _ => True

end ConstSlot

/-- `InitializeIndices` (simple_processor_template.h:83-92) with `ConstData(init, i)` (const_data.h:26-27): the slots for
`dimensions` dimensions from the arrays of `SimpleInit`. A null or too short array that is read is undefined (`none`). -/
def constSlots {V : Type} (values derivatives : Option (List V)) (dimensions : ℕ) : Option (List (ConstSlot V)) :=
  (List.range dimensions).mapM fun i =>
    (derivatives.bind (·[i]?)).bind fun d => (values.bind (·[i]?)).map fun v => ⟨d, v⟩

/-! ### C38 -/

section
variable {V : Type}

theorem const_step {w : World (ConstSlot V)} {p : ProcId} {m : MotId} {l : List (ConstSlot V)}
    (hv : w.view.vals m = some (p, l)) (op : Op (ConstSlot V)) (hn : m ∉ op.names) (hd : op ≠ .destroyProc p)
    (hf : ConstSlot.ConstFrames p op) :
    (absStep op w.view).vals m = some (p, l) := by
  match op with
  | .create .. => simp only [absStep]; split <;> exact hv
  | .initialize .. =>
    simp [Op.names] at hn
    simp only [absStep]; split <;> simp [Abs.set, hn, hv]
  | .invalidate .. => simp [Op.names] at hn; simp [absStep, Abs.set, hn, hv]
  | .moveAssign .. =>
    simp [Op.names] at hn
    simp only [absStep]; split <;> simp [Abs.set, hn, hv]
  | .moveConstruct .. =>
    simp [Op.names] at hn
    simp only [absStep]; split <;> simp [Abs.set, hn, hv]
  | .cloneFrom _ src =>
    simp [Op.names] at hn
    simp only [absStep]
    split
    · simp [Abs.set, hn, hv]
    · split
      · simp [Abs.set, hn, hv]
      · split
        · simp [Abs.set, hn, hv]
        · split <;> simp [Abs.set, hn, hv]
  | .write .. =>
    simp [Op.names] at hn
    simp only [absStep]
    split
    · exact hv
    · split <;> simp [Abs.set, hn, hv]
  | .advance q f =>
    simp only [absStep]; split
    · simp only [hv, Option.map_some]
      by_cases hq : p = q
      · have := hf hq.symm
        rw [if_pos hq, this]
        simp [ConstSlot.frame]
      · rw [if_neg hq]
    · exact hv
  | .destroyProc q =>
    have hq : p ≠ q := by
      intro h; exact hd (by rw [h])
    simp only [absStep]; split
    · simp only [hv]
      rw [Option.filter_some, if_pos (by simp [hq])]
    · exact hv

/-- **C38**. Whatever happens to other motivators and however many frames pass, a const motivator that the calls do not
name keeps exactly the values and velocities it has, for as long as its processor exists. -/
theorem C38_const_never_changes {ops : List (Op (ConstSlot V))} {w : World (ConstSlot V)} (h : run ops = some w)
    {p : ProcId} {m : MotId} {l : List (ConstSlot V)} (hv : w.view.vals m = some (p, l)) (later : List (Op (ConstSlot V)))
    (hn : ∀ op ∈ later, m ∉ op.names ∧ op ≠ .destroyProc p ∧ ConstSlot.ConstFrames p op) :
    ∃ w', runFrom w later = some w' ∧ w'.view.vals m = some (p, l) := by
  obtain ⟨hw, -⟩ := run_winv h
  clear h ops
  induction later generalizing w with
  | nil => exact ⟨w, rfl, hv⟩
  | cons op later ih =>
    obtain ⟨h1, h2, h3⟩ := hn op (by simp)
    obtain ⟨w1, e1, e2, e3⟩ := step_spec hw op
    obtain ⟨w2, f1, f2⟩ := ih (w := w1) (by rw [e3]; exact const_step hv op h1 h2 h3)
      (fun o ho => hn o (by simp [ho])) e2
    exact ⟨w2, by simp [runFrom, e1, f1], f2⟩

/-- **C38**. A motivator that is initialised, and then not named by any call, reads the values it was initialised with. -/
theorem C38_reads_initial_values {ops : List (Op (ConstSlot V))} {w : World (ConstSlot V)} (h : run ops = some w)
    {p : ProcId} (hp : (w.procs p).isSome) (m : MotId) {vals : List (ConstSlot V)} (hl : vals ≠ [])
    (later : List (Op (ConstSlot V)))
    (hn : ∀ op ∈ later, m ∉ op.names ∧ op ≠ .destroyProc p ∧ ConstSlot.ConstFrames p op) :
    ∃ w', runFrom w (.initialize m p vals :: later) = some w' ∧ w'.view.vals m = some (p, vals) := by
  obtain ⟨hw, -⟩ := run_winv h
  obtain ⟨w1, e1, e2, e3⟩ := step_spec hw (.initialize m p vals)
  have hpos : 0 < vals.length := List.length_pos_iff.mpr hl
  have hv : w1.view.vals m = some (p, vals) := by
    rw [e3]
    have : (w.view.procs p).isSome := by simpa [World.view] using hp
    simp only [absStep, this, hpos, and_self, if_true]
    simp [Abs.set]
  have happ : run (ops ++ [.initialize m p vals]) = some w1 := by
    have hgen : ∀ (os : List (Op (ConstSlot V))) (a b : World (ConstSlot V)), runFrom a os = some b →
        runFrom a (os ++ [.initialize m p vals]) = step (.initialize m p vals) b := by
      intro os
      induction os with
      | nil =>
        intro a b hab
        simp only [runFrom, Option.some.injEq] at hab
        subst hab
        simp only [List.nil_append, runFrom]
        cases step (.initialize m p vals) a <;> rfl
      | cons o os ih =>
        intro a b hab
        simp only [runFrom, List.cons_append] at hab ⊢
        cases ho : step o a with
        | none => rw [ho] at hab; simp at hab
        | some a1 =>
          rw [ho] at hab
          simp only [Option.bind_some] at hab ⊢
          exact ih a1 b hab
    unfold run
    rw [hgen ops World.empty w h]
    exact e1
  obtain ⟨w2, f1, f2⟩ := C38_const_never_changes happ hv later hn
  exact ⟨w2, by simp [runFrom, e1, f1], f2⟩

/-- The target of a const motivator is its value, so the difference is 0. -/
theorem C38_at_target [AddGroup V] (s : ConstSlot V) : s.targetValue = s.value ∧ s.difference = 0 := by
  simp [ConstSlot.targetValue, ConstSlot.difference]

example : ∃ w : World (ConstSlot Int), run [.create 0 ⟨0, 0⟩ false, .initialize 10 0 [⟨1, 2⟩]] = some w ∧
    w.view.vals 10 = some (0, [⟨1, 2⟩]) ∧
    ∀ op ∈ ([.initialize 11 0 [⟨3, 4⟩, ⟨5, 6⟩], .advance 0 ConstSlot.frame, .invalidate 11, .advance 0 ConstSlot.frame] :
      List (Op (ConstSlot Int))), 10 ∉ op.names ∧ op ≠ .destroyProc 0 ∧ ConstSlot.ConstFrames 0 op := by
  obtain ⟨w, h1, h2, h3⟩ := runFrom_spec (δ := ConstSlot Int)
    [.create 0 ⟨0, 0⟩ false, .initialize 10 0 [⟨1, 2⟩]] World.empty winv_empty
  refine ⟨w, h1, by rw [h3]; decide, ?_⟩
  intro op hop
  simp at hop
  rcases hop with rfl | rfl | rfl | rfl <;> simp [Op.names, ConstSlot.ConstFrames]

/-! ### C61 -/

/-- **C61**, with both arrays given: every dimension gets its own start value and derivative. -/
theorem C61_initial_values (values derivatives : List V) {n : ℕ} (hv : n ≤ values.length) (hd : n ≤ derivatives.length) :
    ∃ l, constSlots (some values) (some derivatives) n = some l ∧ l.length = n ∧
      ∀ i (hi : i < n), l[i]? = some ⟨derivatives[i], values[i]⟩ := by
  have key : ∀ k, k ≤ n → (List.range k).mapM (fun i =>
      ((some derivatives : Option (List V)).bind (·[i]?)).bind fun d =>
        ((some values : Option (List V)).bind (·[i]?)).map fun v => (⟨d, v⟩ : ConstSlot V)) =
      some ((derivatives.take k).zipWith (fun d v => ⟨d, v⟩) (values.take k)) := by
    intro k hk
    induction k with
    | zero => rfl
    | succ k ih =>
      rw [List.range_succ, List.mapM_append, ih (by omega)]
      have h1 : k < derivatives.length := by omega
      have h2 : k < values.length := by omega
      have hd : derivatives.take (k + 1) = derivatives.take k ++ [derivatives[k]] := by
        rw [List.take_add_one, List.getElem?_eq_getElem h1]; rfl
      have hv : values.take (k + 1) = values.take k ++ [values[k]] := by
        rw [List.take_add_one, List.getElem?_eq_getElem h2]; rfl
      rw [hd, hv, List.zipWith_append (by simp; omega)]
      simp [List.getElem?_eq_getElem h1, List.getElem?_eq_getElem h2]
  refine ⟨_, key n le_rfl, by simp; omega, ?_⟩
  intro i hi
  simp [List.getElem?_zipWith, hi, List.getElem?_eq_getElem (show i < derivatives.length by omega),
    List.getElem?_eq_getElem (show i < values.length by omega)]

/-- **C61** fails for the default argument: an init made from start values alone (`start_derivatives = nullptr`) is
dereferenced when a motivator is initialised with it. -/
theorem C61_default_derivatives_fails (values : List V) {n : ℕ} (hn : 0 < n) : constSlots (some values) none n = none := by
  obtain ⟨k, rfl⟩ : ∃ k, n = k + 1 := ⟨n - 1, by omega⟩
  unfold constSlots
  rw [List.range_succ_eq_map, List.mapM_cons]
  rfl

end

end Motive.Slot
