import Verif.Proc.Props
/-!
# Frames whose slot update can fail

The update of one slot in `AdvanceFrame` can fail an assertion or not terminate (overshoot, spring, ease). It runs on every
element of `data_`, so the frame is safe only if the slots of removed motivators are gone by then. They are, because
`AdvanceFrame` compacts first.
-/

namespace Motive.Proc

open Motive.Alloc

variable {δ : Type}

/-- The `AdvanceFrame` of a slot-array processor whose update of a slot may fail: `Defragment()`, then the update of every
slot in order (overshoot_processor.cpp:25-43, spring_processor.cpp:48-62, ease_in_ease_out_processor.cpp:65-107). -/
def World.advanceM (w : World δ) (p : ProcId) (f : δ → Option δ) : Option (World δ) :=
  (w.defragment p).bind fun w' =>
    (w'.procs p).bind fun pr =>
      (pr.data.mapM f).map fun data => w'.setProc p (some { pr with data := data })

theorem mapM_isSome_iff {f : δ → Option δ} {l : List δ} :
    (∃ l', l.mapM f = some l') ↔ ∀ x ∈ l, (f x).isSome := by
  induction l with
  | nil => simp
  | cons a l ih =>
    rw [List.mapM_cons]
    constructor
    · rintro ⟨l', h⟩
      cases ha : f a with
      | none => rw [ha] at h; simp at h
      | some b =>
        rw [ha] at h
        cases hl : l.mapM f with
        | none => rw [hl] at h; simp at h
        | some l2 =>
          intro x hx
          rcases List.mem_cons.mp hx with rfl | hx
          · rw [ha]; rfl
          · exact ih.mp ⟨l2, hl⟩ x hx
    · intro h
      obtain ⟨l2, hl⟩ := ih.mpr fun x hx => h x (by simp [hx])
      obtain ⟨b, hb⟩ := Option.isSome_iff_exists.mp (h a (by simp))
      exact ⟨b :: l2, by rw [hb, hl]; rfl⟩

theorem mapM_eq_map {f : δ → Option δ} {l l' : List δ} (h : l.mapM f = some l') :
    l' = l.map fun x => (f x).getD x := by
  induction l generalizing l' with
  | nil => simpa using h.symm
  | cons a l ih =>
    rw [List.mapM_cons] at h
    cases ha : f a with
    | none => rw [ha] at h; simp at h
    | some b =>
      rw [ha] at h
      cases hl : l.mapM f with
      | none => rw [hl] at h; simp at h
      | some l2 =>
        rw [hl] at h
        simp at h
        rw [← h, ih hl]
        simp [ha]

/-- In a processor without holes every slot belongs to a valid handle. -/
theorem slot_owner {w : World δ} (hw : WInv w) {p : ProcId} {pr : Proc δ} (hpr : w.procs p = some pr)
    (hu : pr.alloc.unused = []) {x : δ} (hx : x ∈ pr.data) :
    ∃ m l, w.view.vals m = some (p, l) ∧ x ∈ l := by
  have hp := hw.procs p pr hpr
  obtain ⟨k, hk, rfl⟩ := List.mem_iff_getElem.mp hx
  have hk' : k < pr.alloc.counts.length := by
    have := hp.dlen
    simp only [Proc.pstate] at this
    have h2 : pr.alloc.numIndices = pr.alloc.counts.length := rfl
    omega
  obtain ⟨i, n, hb, -, -, h1, h2⟩ := hp.inv.tiled.cover (Nat.zero_le k) hk'
  have hl : Live pr.alloc i n := ⟨hb, by rw [hu]; simp⟩
  obtain ⟨m, hm, -⟩ := hp.own i n hl
  refine ⟨m, _, view_some hm hpr hl, ?_⟩
  rw [List.mem_iff_getElem?]
  refine ⟨k - i, ?_⟩
  rw [List.getElem?_take, if_pos (by omega), List.getElem?_drop, show i + (k - i) = k by omega,
    List.getElem?_eq_getElem hk]

/-- **C39** for updates that can fail. In every reachable state a frame succeeds exactly if the update succeeds on every
value of every valid handle of the processor; removed motivators cannot make it fail. Every handle then reads the updated
values, and handles of other processors read what they did. -/
theorem C39_frame_succeeds_iff {ops : List (Op δ)} {w : World δ} (h : run ops = some w) {p : ProcId}
    (hp : (w.procs p).isSome) (f : δ → Option δ) :
    ((∃ w', w.advanceM p f = some w') ↔ ∀ m l, w.view.vals m = some (p, l) → ∀ x ∈ l, (f x).isSome) ∧
    ∀ w', w.advanceM p f = some w' →
      run (ops ++ [.advance p fun x => (f x).getD x]) = some w' ∧
      ∀ m, w'.view.vals m = (w.view.vals m).map fun x => if x.1 = p then (x.1, x.2.map fun y => (f y).getD y) else x := by
  obtain ⟨hw, -⟩ := run_winv h
  obtain ⟨pr, hpr⟩ := Option.isSome_iff_exists.mp hp
  obtain ⟨w1, pr1, e1, e2, e3, e4, e5, -⟩ := defragment_spec' hw hpr
  have hM : w.advanceM p f = (pr1.data.mapM f).map fun data => w1.setProc p (some { pr1 with data := data }) := by
    simp [World.advanceM, e1, e4]
  constructor
  · rw [hM, ← e3]
    constructor
    · rintro ⟨w', hw'⟩ m l hv x hx
      obtain ⟨i, n, pr2, h1, h2, -, rfl⟩ := (view_iff e2).mp hv
      rw [e4] at h2; simp at h2; subst h2
      cases hd : pr1.data.mapM f with
      | none => rw [hd] at hw'; simp at hw'
      | some l' => exact mapM_isSome_iff.mp ⟨l', hd⟩ x (List.mem_of_mem_drop (List.mem_of_mem_take hx))
    · intro hall
      obtain ⟨l', hl'⟩ := mapM_isSome_iff.mpr fun x hx => by
        obtain ⟨m, l, hv, hxl⟩ := slot_owner e2 e4 e5 hx
        exact hall m l hv x hxl
      exact ⟨_, by rw [hl']; rfl⟩
  · intro w' hw'
    rw [hM] at hw'
    cases hd : pr1.data.mapM f with
    | none => rw [hd] at hw'; simp at hw'
    | some l' =>
      rw [hd] at hw'
      simp only [Option.map_some, Option.some.injEq] at hw'
      have hl' := mapM_eq_map hd
      have hadv : w.advance p (fun x => (f x).getD x) = some w' := by
        rw [← hw', hl']
        simp [World.advance, e1, e4]
      refine ⟨?_, ?_⟩
      · have happ : ∀ (os : List (Op δ)) (a b : World δ), runFrom a os = some b →
            runFrom a (os ++ [.advance p fun x => (f x).getD x]) = step (.advance p fun x => (f x).getD x) b := by
          intro os
          induction os with
          | nil =>
            intro a b hab
            simp only [runFrom, Option.some.injEq] at hab
            subst hab
            simp only [List.nil_append, runFrom]
            cases step (.advance p fun x => (f x).getD x) a <;> rfl
          | cons o os ih =>
            intro a b hab
            simp only [runFrom, List.cons_append] at hab ⊢
            cases ho : step o a with
            | none => rw [ho] at hab; simp at hab
            | some a1 =>
              rw [ho] at hab
              simp only [Option.bind_some] at hab ⊢
              exact ih a1 b hab
        unfold run
        rw [happ ops World.empty w h]
        simp only [step, hp, if_true]
        exact hadv
      · intro m
        obtain ⟨w2, f1, -, f3⟩ := advance_spec hw hp fun x => (f x).getD x
        rw [hadv] at f1
        simp only [Option.some.injEq] at f1
        rw [f1, f3]
        have : (w.view.procs p).isSome := by simp [World.view, hpr]
        simp only [absStep]
        rw [if_pos this]

/-- An update that fails on the value 0 that removed motivators leave behind (`C39_removed_slots_reset`): the frame after
a removal succeeds. -/
example : ∃ w w' : World Int,
    run [.create 0 0 false, .initialize 10 0 [1, 2, 3], .initialize 11 0 [4], .invalidate 10] = some w ∧
    w.advanceM 0 (fun x => if x = 0 then none else some (x + 1)) = some w' ∧ w'.view.vals 11 = some (0, [5]) := by
  obtain ⟨w, h1, h2, h3⟩ := runFrom_spec (δ := Int)
    [.create 0 0 false, .initialize 10 0 [1, 2, 3], .initialize 11 0 [4], .invalidate 10] World.empty winv_empty
  have h11 : w.view.vals 11 = some (0, [4]) := by rw [h3]; decide
  have hp : (w.procs 0).isSome := by
    have : (w.view.procs 0).isSome = true := by rw [h3]; decide
    simpa [World.view] using this
  obtain ⟨hiff, hval⟩ := C39_frame_succeeds_iff (w := w) (p := 0) h1 hp (fun x => if x = 0 then none else some (x + 1))
  have hall : ∀ m l, w.view.vals m = some (0, l) → ∀ x ∈ l,
      ((fun x : Int => if x = 0 then none else some (x + 1)) x).isSome := by
    intro m l hv x hx
    by_cases hm : m = 11
    · subst hm
      rw [h11] at hv
      simp at hv
      subst hv
      simp at hx
      subst hx
      rfl
    · exfalso
      rw [h3] at hv
      by_cases hm' : m = 10 <;> simp [absStep, Abs.set, Abs.empty, World.view, World.empty, hm, hm'] at hv
  obtain ⟨w', hw'⟩ := hiff.mpr hall
  exact ⟨w, w', h1, hw', by rw [(hval w' hw').2 11, h11]; decide⟩

end Motive.Proc
