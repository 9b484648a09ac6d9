import Verif.Matrix.Ops
import Verif.Proc.Props
/-!
# C73: cloning a matrix motivator

Model of the copy of `MatrixData` and `MatrixOperation` (src/motive/processor/matrix_data.h, include/motive/matrix_op.h), on the processors and
motivators of `Verif.Proc`.  The child motivator of an operation is part of the operation, so it has an address of its own.  The children may
belong to any processors, with slots of type `δ`.  The slot of a sqt motivator (src/motive/processor/sqt_data.h) is copied alike.

Idealisation: `float` is `ℝ`.  The slots of the matrix processor itself, which are plain slots for `Verif.Proc`, are values here.
-/

namespace Motive.Matrix4
open Motive.Proc

noncomputable section

variable {δ : Type}

/-- `MatrixOperation` (matrix_op.h:207-516); `child` is the address of `motivator_`. -/
structure Part where
  id : ℕ
  type : OpType
  child : MotId
  const : ℝ

/-- `MatrixData` (matrix_data.h:26-171). -/
structure Slot where
  result : Matrix (Fin 4) (Fin 4) ℝ × (Fin 3 → ℝ)
  ops : List Part

/-- `Value` (matrix_op.h:268-270); `rd` reads the value in a slot of a child. -/
def Part.value (rd : δ → ℝ) (w : World δ) (o : Part) : ℝ :=
  match w.view.vals o.child with
  | some (_, v :: _) => rd v
  | _ => o.const

/-- `UpdateResultMatrix` (matrix_data.h:51-54). -/
def Slot.update (rd : δ → ℝ) (w : World δ) (s : Slot) : Option Slot :=
  (calculate (s.ops.map fun o => (o.type, o.value rd w))).map fun r => ⟨r, s.ops⟩

/-- `ValueMotivator` (matrix_op.h:287-289). -/
def Part.valueMotivator (w : World δ) (o : Part) : Option MotId := if w.valid o.child then some o.child else none

/-- The copy constructor of `MatrixOperation` (matrix_op.h:248-257) into the address `a`. -/
def copyPart (w : World δ) (o : Part) (a : MotId) : Option (World δ × Part) :=
  (w.cloneFrom a (o.valueMotivator w)).map fun w' => (w', ⟨o.id, o.type, a, o.const⟩)

/-- The copy of the vector of operations, into an array of operations whose motivators have the addresses `dst`. -/
def copyParts (w : World δ) : List Part → List MotId → Option (World δ × List Part)
  | [], _ => some (w, [])
  | _ :: _, [] => none
  | o :: os, a :: as =>
    match copyPart w o a with
    | none => none
    | some (w', o') =>
      match copyParts w' os as with
      | none => none
      | some (w'', os') => some (w'', o' :: os')

/-- `CloneIndices` (matrix_processor.cpp:137-143, sqt_processor.cpp:138-144) for one slot. -/
def cloneSlot (w : World δ) (s : Slot) (dst : List MotId) : Option (World δ × Slot) :=
  (copyParts w s.ops dst).map fun r => (r.1, ⟨s.result, r.2⟩)

/-! ### Specification -/

/-- The child of an operation can be cloned: it is not valid, or of a processor that supports cloning. -/
def Part.Clones (w : World δ) (o : Part) : Prop := ∀ p l, w.view.vals o.child = some (p, l) → w.view.procs p = some true

/-- A call that neither mentions one of the addresses nor destroys a processor. -/
def Elsewhere (dst : List MotId) (op : Op δ) : Prop := (∀ a ∈ dst, a ∉ op.names) ∧ ∀ p, op ≠ .destroyProc p

/-- What a call does to a motivator that it does not mention: `AdvanceFrame` of its processor updates its values. -/
def frame (v : Option (ProcId × List δ)) : Op δ → Option (ProcId × List δ)
  | .advance p f => v.map fun x => if x.1 = p then (x.1, x.2.map f) else x
  | _ => v

/-- The memory for the new operations: each has its own address, which is not that of an operation of the source. -/
def Room (w : World δ) (s : Slot) (dst : List MotId) : Prop :=
  dst.length = s.ops.length ∧ dst.Nodup ∧ (∀ a ∈ dst, w.valid a = false) ∧ ∀ o ∈ s.ops, o.child ∉ dst

/-! ### Proofs -/

theorem view_clone {w : World δ} (hw : WInv w) (o : Part) (a : MotId) (ha : o.child ≠ a) :
    ∃ w', w.cloneFrom a (o.valueMotivator w) = some w' ∧ WInv w' ∧ w'.view.procs = w.view.procs ∧
      (∀ m, m ≠ a → w'.view.vals m = w.view.vals m) ∧
      w'.view.vals a = (w.view.vals o.child).filter fun x => w.view.procs x.1 = some true := by
  obtain ⟨w', e1, e2, e3⟩ := Proc.step_spec hw (Op.cloneFrom a (o.valueMotivator w))
  refine ⟨w', e1, e2, ?_⟩
  rw [e3]
  unfold Part.valueMotivator
  rw [valid_view hw]
  cases h : w.view.vals o.child with
  | none => simp +contextual [absStep, Abs.set]
  | some x =>
    obtain ⟨p, l⟩ := x
    simp only [absStep, Option.isSome_some, if_true, Ne.symm ha, if_false, h]
    by_cases hc : w.view.procs p = some true
    · simp +contextual [hc, Abs.set, Option.filter]
    · simp +contextual [hc, Abs.set, Option.filter]

theorem forall₂_mem {α β : Type} {R S : α → β → Prop} : ∀ {l : List α} {l' : List β}, List.Forall₂ R l l' →
    (∀ a ∈ l, ∀ b ∈ l', R a b → S a b) → List.Forall₂ S l l'
  | _, _, .nil, _ => .nil
  | _, _, .cons h t, f => .cons (f _ (by simp) _ (by simp) h) (forall₂_mem t fun a ha b hb => f a (by simp [ha]) b (by simp [hb]))

theorem map_forall₂ {α β γ : Type} {f : α → γ} {g : β → γ} : ∀ {l : List α} {l' : List β}, List.Forall₂ (fun a b => g b = f a) l l' →
    l'.map g = l.map f
  | _, _, .nil => rfl
  | _, _, .cons h t => by rw [List.map_cons, List.map_cons, h, map_forall₂ t]

theorem copyParts_spec : ∀ (os : List Part) (as : List MotId) {w : World δ}, WInv w → as.length = os.length → as.Nodup →
    (∀ o ∈ os, o.child ∉ as) → ∃ w' os', copyParts w os as = some (w', os') ∧ (∃ calls, runFrom w calls = some w') ∧ WInv w' ∧ w'.view.procs = w.view.procs ∧
      (∀ m, m ∉ as → w'.view.vals m = w.view.vals m) ∧
      os'.map Part.child = as ∧
      List.Forall₂ (fun (o o' : Part) => o'.id = o.id ∧ o'.type = o.type ∧ o'.const = o.const ∧
        w'.view.vals o'.child = (w.view.vals o.child).filter fun x => w.view.procs x.1 = some true) os os'
  | [], as, w, hw, hl, _, _ => by
    obtain rfl : as = [] := List.length_eq_zero_iff.mp hl
    exact ⟨w, [], rfl, ⟨[], rfl⟩, hw, rfl, fun _ _ => rfl, rfl, .nil⟩
  | o :: os, [], w, _, hl, _, _ => by simp at hl
  | o :: os, a :: as, w, hw, hl, hn, hd => by
    have hoa : o.child ≠ a := fun h => hd o (by simp) (by simp [h])
    obtain ⟨w1, e1, e2, e3, e4, e5⟩ := view_clone hw o a hoa
    rw [List.nodup_cons] at hn
    obtain ⟨w2, os', f1, ⟨calls, f0⟩, f2, f3, f4, f5, f6⟩ := copyParts_spec os as e2 (by simpa using hl) hn.2
      (fun o' ho' h => hd o' (by simp [ho']) (by simp [h]))
    refine ⟨w2, ⟨o.id, o.type, a, o.const⟩ :: os', ?_,
      ⟨.cloneFrom a (o.valueMotivator w) :: calls, by simp [runFrom, step, e1, f0]⟩, f2, f3.trans e3, fun m hm => ?_, by simp [f5], .cons ⟨rfl, rfl, rfl, ?_⟩ ?_⟩
    · simp only [copyParts, copyPart, e1, Option.map_some, f1]
    · rw [List.mem_cons, not_or] at hm
      rw [f4 m hm.2, e4 m hm.1]
    · rw [f4 a hn.1, e5]
    · refine forall₂_mem f6 fun o' ho' b _ h => ?_
      have : w1.view.vals o'.child = w.view.vals o'.child := e4 _ fun h' => hd o' (by simp [ho']) (by simp [h'])
      rw [this, e3] at h
      exact h

theorem filter_clones {w : World δ} {o : Part} (h : o.Clones w) :
    (w.view.vals o.child).filter (fun x => w.view.procs x.1 = some true) = w.view.vals o.child := by
  cases hv : w.view.vals o.child with
  | none => rfl
  | some x => simp [h x.1 x.2 hv]

theorem runFrom_append {l l' : List (Op δ)} : ∀ {w w' : World δ}, runFrom w l = some w' → runFrom w (l ++ l') = runFrom w' l' := by
  induction l with
  | nil => intro w w' h; simp only [runFrom, Option.some.injEq] at h; subst h; rfl
  | cons op l ih =>
    intro w w' h
    simp only [runFrom, List.cons_append] at h ⊢
    cases hs : step op w with
    | none => rw [hs] at h; simp at h
    | some w1 => rw [hs] at h; exact ih h

/-- C73: a clone of a matrix motivator.  In every state, for every matrix motivator and every memory for the operations of the clone, cloning
succeeds.  It changes no other motivator.  The clone reports the matrix of the source.  Its operations have the ids, the types and the
constants of those of the source.  The child motivator of each, if it can be cloned, is a copy of that of the source, with the same values; if
not, the operation of the clone has no child motivator. -/
theorem C73_clone {hist : List (Op δ)} {w : World δ} (h : run hist = some w) {s : Slot} {dst : List MotId} (hr : Room w s dst) :
    ∃ w' s', cloneSlot w s dst = some (w', s') ∧ s'.result = s.result ∧ s'.ops.map Part.child = dst ∧
      (∃ calls, run (hist ++ calls) = some w') ∧
      (∀ m, m ∉ dst → w'.view.vals m = w.view.vals m) ∧
      List.Forall₂ (fun (o o' : Part) => o'.id = o.id ∧ o'.type = o.type ∧ o'.const = o.const ∧
        (o.Clones w → w'.view.vals o'.child = w.view.vals o.child) ∧ (¬ o.Clones w → w'.valid o'.child = false)) s.ops s'.ops := by
  obtain ⟨hw, -⟩ := run_winv h
  obtain ⟨w', os', e1, ⟨calls, e0⟩, e2, e3, e4, e5, e6⟩ := copyParts_spec s.ops dst hw hr.1 hr.2.1 hr.2.2.2
  refine ⟨w', ⟨s.result, os'⟩, ?_, rfl, e5, ⟨calls, ?_⟩, e4, ?_⟩
  · unfold cloneSlot; rw [e1]; rfl
  · rw [run, runFrom_append h]; exact e0
  · refine e6.imp fun o o' ho => ⟨ho.1, ho.2.1, ho.2.2.1, fun hc => by rw [ho.2.2.2, filter_clones hc], fun hc => ?_⟩
    rw [valid_view e2, ho.2.2.2]
    unfold Part.Clones at hc
    push Not at hc
    obtain ⟨p, l, h1, h2⟩ := hc
    rw [h1]
    simp [h2]

/-- Only frames matter to a motivator that is not mentioned. -/
theorem elsewhere_frames (a : MotId) : ∀ (later : List (Op δ)) {w : World δ}, WInv w → (∀ op ∈ later, Elsewhere [a] op) →
    ∃ w', runFrom w later = some w' ∧ WInv w' ∧ w'.view.vals a = later.foldl frame (w.view.vals a)
  | [], w, hw, _ => ⟨w, rfl, hw, rfl⟩
  | op :: later, w, hw, he => by
    obtain ⟨w1, e1, e2, e3⟩ := Proc.step_spec hw op
    obtain ⟨hn, hdp⟩ := he op (by simp)
    have hn : a ∉ op.names := hn a (by simp)
    obtain ⟨u, g1, g2, g3⟩ := elsewhere_frames a later e2 fun o ho => he o (List.mem_cons_of_mem op ho)
    refine ⟨u, by simp [runFrom, e1, g1], g2, ?_⟩
    rw [g3, List.foldl_cons, e3]
    congr 1
    match op, hn, hdp with
    | .create .., _, _ => simp only [absStep]; split_ifs <;> rfl
    | .initialize .., hn, _ => simp [Op.names] at hn; simp only [absStep]; split_ifs <;> simp [Abs.set, hn, frame]
    | .invalidate .., hn, _ => simp [Op.names] at hn; simp [absStep, Abs.set, hn, frame]
    | .moveAssign .., hn, _ => simp [Op.names] at hn; simp only [absStep]; split_ifs <;> simp [Abs.set, hn, frame]
    | .moveConstruct .., hn, _ => simp [Op.names] at hn; simp only [absStep]; split_ifs <;> simp [Abs.set, hn, frame]
    | .cloneFrom d none, hn, _ => simp [Op.names] at hn; simp [absStep, Abs.set, hn, frame]
    | .cloneFrom d (some s), hn, _ =>
      simp [Op.names] at hn
      simp only [absStep]
      split_ifs
      · simp [Abs.set, hn, frame]
      · split
        · simp [Abs.set, hn, frame]
        · split_ifs <;> simp [Abs.set, hn, frame]
    | .write .., hn, _ =>
      simp [Op.names] at hn
      simp only [absStep]
      split
      · rfl
      · split_ifs <;> simp [Abs.set, hn, frame]
    | .advance p f, _, _ =>
      simp only [absStep, frame]
      split_ifs with hp
      · rfl
      · cases hv : w.view.vals a with
        | none => rfl
        | some x =>
          have : (w.view.procs x.1).isSome := by
            cases hm : w.mots a with
            | none => rw [view_none hm] at hv; simp at hv
            | some y =>
              obtain ⟨q, i⟩ := y
              obtain ⟨pr, hpr⟩ := hw.mots a q i hm
              obtain ⟨n, hl, -⟩ := (hw.procs q pr hpr).ref a i hm
              rw [view_some hm hpr hl] at hv
              simp only [Option.some.injEq] at hv
              rw [← hv]
              simp [World.view, hpr]
          rw [Option.map_some, if_neg]
          rintro rfl
          exact hp this
    | .destroyProc p, _, hdp => exact absurd rfl (hdp p)

theorem Elsewhere.one {dst : List MotId} {op : Op δ} (h : Elsewhere dst op) {a : MotId} (ha : a ∈ dst) : Elsewhere [a] op :=
  ⟨fun b hb => by rw [List.mem_singleton.mp hb]; exact h.1 a ha, h.2⟩

/-- C73: the clone goes on like the source.  Whatever calls follow that mention neither the operations of the source nor those of the clone,
the next update gives both the same matrix, if the child motivators of the source can be cloned. -/
theorem C73_goes_on {hist : List (Op δ)} {w : World δ} (h : run hist = some w) {s : Slot} {dst : List MotId} (hr : Room w s dst)
    (hc : ∀ o ∈ s.ops, o.Clones w) (rd : δ → ℝ) {later : List (Op δ)} (hs : ∀ op ∈ later, Elsewhere (s.ops.map Part.child ++ dst) op) :
    ∃ w' s' w'', cloneSlot w s dst = some (w', s') ∧ runFrom w' later = some w'' ∧
      (s'.update rd w'').map Slot.result = (s.update rd w'').map Slot.result := by
  obtain ⟨w', s', e1, -, e3, ⟨calls, e4⟩, e5, e6⟩ := C73_clone h hr
  obtain ⟨hw', -⟩ := run_winv e4
  obtain ⟨w'', f1, f2, -⟩ := runFrom_spec later w' hw'
  refine ⟨w', s', w'', e1, f1, ?_⟩
  have hval : ∀ a ∈ s.ops.map Part.child ++ dst, w''.view.vals a = later.foldl frame (w'.view.vals a) := by
    intro a ha
    obtain ⟨u, g1, -, g3⟩ := elsewhere_frames a later hw' fun op hop => (hs op hop).one ha
    rw [f1] at g1
    cases g1
    exact g3
  have hlist : (s'.ops.map fun o => (o.type, o.value rd w'')) = s.ops.map fun o => (o.type, o.value rd w'') := by
    refine map_forall₂ (forall₂_mem e6 fun o ho o' ho' q => ?_)
    have h1 := hval o'.child (List.mem_append_right _ (e3 ▸ List.mem_map_of_mem ho'))
    have h2 := hval o.child (List.mem_append_left _ (List.mem_map_of_mem ho))
    rw [e5 o.child (hr.2.2.2 o ho)] at h2
    rw [q.2.2.2.1 (hc o ho)] at h1
    unfold Part.value
    rw [h1, h2, q.2.1, q.2.2.1]
  unfold Slot.update
  rw [hlist]
  simp [Function.comp_def]

/-- C73: the clone does not depend on the source.  Whatever calls follow that do not mention the operations of the clone, its child motivators
have the values that they had, updated by the frames alone. -/
theorem C73_independent {hist : List (Op δ)} {w : World δ} (h : run hist = some w) {s : Slot} {dst : List MotId} (hr : Room w s dst)
    (hc : ∀ o ∈ s.ops, o.Clones w) {later : List (Op δ)} (hs : ∀ op ∈ later, Elsewhere dst op) :
    ∃ w' s' w'', cloneSlot w s dst = some (w', s') ∧ runFrom w' later = some w'' ∧
      List.Forall₂ (fun (o o' : Part) => w''.view.vals o'.child = later.foldl frame (w.view.vals o.child)) s.ops s'.ops := by
  obtain ⟨w', s', e1, -, e3, ⟨calls, e4⟩, e5, e6⟩ := C73_clone h hr
  obtain ⟨hw', -⟩ := run_winv e4
  obtain ⟨w'', f1, f2, -⟩ := runFrom_spec later w' hw'
  refine ⟨w', s', w'', e1, f1, forall₂_mem e6 fun o ho o' ho' q => ?_⟩
  obtain ⟨u, g1, -, g3⟩ := elsewhere_frames o'.child later hw' fun op hop => (hs op hop).one (e3 ▸ List.mem_map_of_mem ho')
  rw [f1] at g1
  cases g1
  rw [g3, q.2.2.2.1 (hc o ho)]

/-- A translation along x that is driven by the motivator 7, with the cached matrix of its value 5. -/
def driven : Slot := ⟨(elementary (.translateX, 5), 1), [⟨0, .translateX, 7, 0⟩]⟩
/-- The motivator 7 is initialised with the value 5, on a processor that does or does not support cloning. -/
def drivenHist (cloning : Bool) : List (Op ℝ) := [.create 1 0 cloning, .initialize 7 1 [5]]

theorem drivenHist_spec (cloning : Bool) : ∃ w, run (drivenHist cloning) = some w ∧ WInv w ∧ w.view.procs 1 = some cloning ∧
    w.view.vals 7 = some (1, [5]) ∧ w.view.vals 8 = none := by
  obtain ⟨w, h1, h2, h3⟩ := runFrom_spec (drivenHist cloning) World.empty winv_empty
  refine ⟨w, h1, h2, ?_, ?_, ?_⟩ <;> rw [h3] <;> simp [drivenHist, absStep, view_empty, Abs.empty, Abs.set]

/-- C73: a child motivator that cannot be cloned is lost.  Springs, eases, overshoots and constants are such motivators.  The source is a
translation by 5, and so is the clone as long as its cached matrix is kept; but with the next update the clone is the identity, without any
call that mentions either. -/
theorem C73_child_lost : ∃ (w w' : World ℝ) (s' : Slot) (u u' : Slot), run (drivenHist false) = some w ∧
    Room w driven [8] ∧ cloneSlot w driven [8] = some (w', s') ∧ s'.result.1 = elementary (.translateX, 5) ∧
    driven.update id w' = some u ∧ u.result.1 = elementary (.translateX, 5) ∧ s'.update id w' = some u' ∧ u'.result.1 = 1 ∧
    elementary (.translateX, 5) ≠ 1 := by
  obtain ⟨w, h1, h2, h3, h4, h5⟩ := drivenHist_spec false
  have hr : Room w driven [8] := by
    refine ⟨rfl, by simp, ?_, by simp [driven]⟩
    intro a ha
    rw [List.mem_singleton.mp ha, valid_view h2, h5]; rfl
  obtain ⟨w', s', e1, e2, e3, ⟨calls, e4⟩, e5, e6⟩ := C73_clone h1 hr
  obtain ⟨hw', -⟩ := run_winv e4
  obtain ⟨o', hs', ho⟩ : ∃ o' : Part, s'.ops = [o'] ∧ o'.type = .translateX ∧ o'.const = 0 ∧ o'.child = 8 := by
    have hl : s'.ops.length = 1 := by rw [← e6.length_eq]; rfl
    obtain ⟨o', ho'⟩ := List.length_eq_one_iff.mp hl
    rw [ho'] at e6 e3
    simp only [driven, List.forall₂_cons, List.forall₂_nil_left_iff, and_true] at e6
    exact ⟨o', ho', e6.2.1, e6.2.2.1, by simpa using e3⟩
  have h7 : w'.view.vals 7 = some (1, [5]) := by rw [e5 7 (by simp), h4]
  have h8 : w'.view.vals 8 = none := by
    rw [hs'] at e6
    simp only [driven, List.forall₂_cons, List.forall₂_nil_left_iff, and_true] at e6
    have := e6.2.2.2.2 (by
      intro hcl
      have := hcl 1 [5] h4
      rw [h3] at this
      simp at this)
    rw [ho.2.2, valid_view hw'] at this
    simpa using this
  have su : ∀ v : ℝ, calculate [(.translateX, v)] = some (elementary (.translateX, v), 1) := by
    intro v
    rw [C42_result_is_product _ (by simp [Supported, OpType.isTranslate])]
    simp [scaling]
  refine ⟨w, w', s', ⟨(elementary (.translateX, 5), 1), driven.ops⟩, ⟨(elementary (.translateX, 0), 1), s'.ops⟩, h1, hr, e1, by rw [e2]; rfl,
    ?_, rfl, ?_, ?_, ?_⟩
  · simp only [Slot.update, driven, List.map_cons, List.map_nil, Part.value, h7, id, su, Option.map_some]
  · simp only [Slot.update, hs', List.map_cons, List.map_nil, Part.value, ho, h8, su, Option.map_some]
  · have := C42_default_does_nothing .translateX
    simpa [OpType.default, OpType.isScale] using this
  · intro h
    have := congrFun (congrFun h 0) 3
    simp [elementary] at this

/-- The hypotheses of `C73_clone`, `C73_goes_on` and `C73_independent` are met by a translation that is driven by a motivator of a processor
that supports cloning; later calls move the source away and advance the processor by a frame that changes the values. -/
example : ∃ w : World ℝ, run (drivenHist true) = some w ∧ Room w driven [8] ∧ (∀ o ∈ driven.ops, o.Clones w) ∧
    (∀ op ∈ [Op.invalidate 7, .advance 1 (· + 1)], Elsewhere [8] op) ∧
    (∀ op ∈ [Op.create 2 (0 : ℝ) true, .advance 1 (· + 1)], Elsewhere (driven.ops.map Part.child ++ [8]) op) := by
  obtain ⟨w, h1, h2, h3, h4, h5⟩ := drivenHist_spec true
  refine ⟨w, h1, ⟨rfl, by simp, ?_, by simp [driven]⟩, ?_, ?_, ?_⟩
  · intro a ha
    rw [List.mem_singleton.mp ha, valid_view h2, h5]; rfl
  · intro o ho p l hv
    simp only [driven, List.mem_singleton] at ho
    subst ho
    rw [h4] at hv
    simp only [Option.some.injEq, Prod.mk.injEq] at hv
    rw [← hv.1, h3]
  · simp [Elsewhere, Op.names]
  · simp [Elsewhere, Op.names]

end
end Motive.Matrix4
