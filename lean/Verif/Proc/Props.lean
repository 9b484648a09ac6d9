import Verif.Proc.World

/-!
# Properties of motivators and processors (C06-C12, C39)

`run ops` executes an arbitrary list of API calls (any number of motivators and processors) on the model
of the code; `absRun ops` executes it on the specification in `Spec.lean`.  `w.view.vals m` is what is
read through handle `m`: its processor and the values of its dimensions.
-/

namespace Motive.Proc

open Motive.Alloc

variable {δ : Type}

theorem dims_view {w : World δ} (h : WInv w) (m : MotId) :
    w.dimensions m = (w.view.vals m).map fun x => x.2.length := by
  match hm : w.mots m with
  | none => rw [view_none hm]; simp [World.dimensions, hm]
  | some (p, i) =>
    obtain ⟨pr, hpr⟩ := h.mots m p i hm
    have hp := h.procs p pr hpr
    obtain ⟨n, hl, hb⟩ := hp.ref m i hm
    have hle := Live.block_le hl
    have hdl : pr.data.length = pr.alloc.numIndices := hp.dlen
    rw [view_some hm hpr hl]
    simp [World.dimensions, hm, hpr, Proc.dimensions, countFor_block hl.1]
    omega

theorem valid_view {w : World δ} (h : WInv w) (m : MotId) :
    w.valid m = (w.view.vals m).isSome := by
  match hm : w.mots m with
  | none => rw [view_none hm]; simp [World.valid, hm]
  | some (p, i) =>
    obtain ⟨pr, hpr⟩ := h.mots m p i hm
    obtain ⟨n, hl, hb⟩ := (h.procs p pr hpr).ref m i hm
    rw [view_some hm hpr hl]
    simp [World.valid, hm]

/-! ## C06 -/

/-- No history of API calls runs into an assertion or undefined behaviour; afterwards every handle is
`Sane()`, and the back-pointers that name a valid handle are exactly those of its `Dimensions()`
slots. -/
theorem C06_handles_sane (ops : List (Op δ)) :
    ∃ w, run ops = some w ∧ ∀ m, w.sane m = true ∧
      ∀ p i, w.mots m = some (p, i) → ∃ pr n, w.procs p = some pr ∧ w.dimensions m = some n ∧ 0 < n ∧
        ∀ k, pr.back[k]? = some (some m) ↔ i ≤ k ∧ k < i + n := by
  obtain ⟨w, h1, h2, _⟩ := runFrom_spec ops World.empty winv_empty
  refine ⟨w, h1, fun m => ⟨?_, ?_⟩⟩
  · unfold World.sane
    match hm : w.mots m with
    | none => rfl
    | some (p, i) =>
      obtain ⟨pr, hpr⟩ := h2.mots m p i hm
      obtain ⟨n, hl, hb⟩ := (h2.procs p pr hpr).ref m i hm
      have hv := (h2.procs p pr hpr).validIndex hm hl hl.1.1
      have hb0 := hb 0 hl.1.1
      simp only [Nat.add_zero, Proc.pstate] at hv hb0
      simp [hpr, Proc.validMotivator, hv, hb0]
  · intro p i hm
    obtain ⟨pr, hpr⟩ := h2.mots m p i hm
    have hp := h2.procs p pr hpr
    obtain ⟨n, hl, hb⟩ := hp.ref m i hm
    refine ⟨pr, n, hpr, by simp [World.dimensions, hm, hpr, Proc.dimensions, countFor_block hl.1],
      hl.1.1, fun k => ⟨?_, ?_⟩⟩
    · intro hk
      obtain ⟨j, n', q1, q2, q3, q4⟩ := hp.owner (k := k) hk
      simp only [Proc.pstate] at q1
      rw [hm] at q1; simp at q1; subst q1
      have := hl.1.unique q2.1
      omega
    · intro hk
      have := hb (k - i) (by omega)
      rw [show i + (k - i) = k by omega] at this
      exact this

/-- What a processor answers about indices is exact, after every history: `ValidIndex` holds for the slots of its
motivators, `ValidMotivator` tells whose slot it is, and `ValidMotivatorIndex` holds for the first slot of each.  So these
assertions stop every use of a slot that is free, and every use of one motivator's slot for another. -/
theorem C06_checks_exact {ops : List (Op δ)} {w : World δ} (h : run ops = some w) {p : ProcId} {pr : Proc δ}
    (hpr : w.procs p = some pr) (k : Nat) :
    (∀ m, pr.validMotivator p w.mots k m = true ↔
      ∃ i n, w.mots m = some (p, i) ∧ w.dimensions m = some n ∧ i ≤ k ∧ k < i + n) ∧
    (pr.validIndex p w.mots k = true ↔ ∃ m, pr.validMotivator p w.mots k m = true) ∧
    (pr.validMotivatorIndex p w.mots k = true ↔ ∃ m, w.mots m = some (p, k)) := by
  obtain ⟨hw, _⟩ := run_winv h
  have hp := hw.procs p pr hpr
  have hvm : ∀ m, pr.validMotivator p w.mots k m = true ↔
      ∃ i n, w.mots m = some (p, i) ∧ w.dimensions m = some n ∧ i ≤ k ∧ k < i + n := by
    intro m
    constructor
    · intro hv
      simp only [Proc.validMotivator, Bool.and_eq_true, beq_iff_eq] at hv
      obtain ⟨i, n, q1, q2, q3, q4⟩ := hp.owner (k := k) (m := m) hv.2
      simp only [Proc.pstate] at q1
      exact ⟨i, n, q1, by simp [World.dimensions, q1, hpr, Proc.dimensions, countFor_block q2.1], q3, q4⟩
    · rintro ⟨i, n, q1, q2, q3, q4⟩
      obtain ⟨n', hl, hb⟩ := hp.ref m i q1
      simp [World.dimensions, q1, hpr, Proc.dimensions, countFor_block hl.1] at q2
      subst q2
      have hv := hp.validIndex q1 hl (k := k - i) (by omega)
      have hb' := hb (k - i) (by omega)
      rw [show i + (k - i) = k by omega] at hv hb'
      simp only [Proc.pstate] at hb'
      simp [Proc.validMotivator, hv, hb']
  have hvi : pr.validIndex p w.mots k = true → ∃ m, pr.back[k]? = some (some m) := by
    intro hv
    simp only [Proc.validIndex, Bool.and_eq_true] at hv
    have h2 := hv.2
    match hbk : pr.back[k]? with
    | some (some m) => exact ⟨m, rfl⟩
    | some none => rw [hbk] at h2; simp at h2
    | none => rw [hbk] at h2; simp at h2
  refine ⟨hvm, ⟨fun hv => ?_, ?_⟩, ⟨fun hv => ?_, ?_⟩⟩
  · obtain ⟨m, hm⟩ := hvi hv
    exact ⟨m, by simp [Proc.validMotivator, hv, hm]⟩
  · rintro ⟨m, hm⟩
    simp only [Proc.validMotivator, Bool.and_eq_true] at hm
    exact hm.1
  · simp only [Proc.validMotivatorIndex, Bool.and_eq_true] at hv
    obtain ⟨m, hm⟩ := hvi hv.1
    obtain ⟨i, n, q1, q2, q3, q4⟩ := hp.owner (k := k) (m := m) hm
    simp only [Proc.pstate] at q1
    have h2 := hv.2
    simp only [Proc.isMotivatorIndex, hm, Bool.or_eq_true, beq_iff_eq, bne_iff_ne] at h2
    refine ⟨m, ?_⟩
    by_cases hik : i = k
    · rw [q1, hik]
    · exfalso
      rcases h2 with h2 | h2
      · omega
      · apply h2
        obtain ⟨n', hl, hb⟩ := hp.ref m i q1
        have e := hl.1.unique q2.1
        have := hb (k - 1 - i) (by omega)
        rw [show i + (k - 1 - i) = k - 1 by omega] at this
        exact this
  · rintro ⟨m, hm⟩
    exact hp.validMotivatorIndex hm

/-- Two motivators of one processor, one freed and its storage reused, then a frame. -/
def demo : List (Op Int) :=
  [.create 0 0 false, .create 1 0 true, .initialize 10 0 [1, 2, 3], .initialize 11 0 [4],
   .initialize 12 1 [7, 8], .invalidate 10, .initialize 13 0 [5, 6], .moveAssign 14 11,
   .cloneFrom 15 (some 12), .advance 0 (· + 1), .write 14 0 9]

example : ∃ w, run demo = some w ∧ w.valid 14 = true ∧ w.valid 10 = false ∧
    w.dimensions 15 = some 2 := by
  obtain ⟨w, h1, h2, h3⟩ := runFrom_spec demo World.empty winv_empty
  refine ⟨w, h1, ?_, ?_, ?_⟩
  · rw [valid_view h2, h3]; decide
  · rw [valid_view h2, h3]; decide
  · rw [dims_view h2, h3]; decide

example : ∃ w pr k, run demo = some w ∧ w.procs 0 = some pr ∧ pr.validMotivator 0 w.mots k 14 = true := by
  obtain ⟨w, h1, h2, h3⟩ := runFrom_spec demo World.empty winv_empty
  obtain ⟨i, n, pr, q1, q2, q3, _⟩ := (view_iff h2 (m := 14) (p := 0) (l := [9])).mp (by rw [h3]; decide)
  refine ⟨w, pr, i, h1, q2, ((C06_checks_exact h1 q2 i).1 14).mpr ⟨i, n, q1, ?_, le_refl i, ?_⟩⟩
  · simp [World.dimensions, q1, q2, Proc.dimensions, countFor_block q3.1]
  · have := q3.1.1; omega

/-! ## C07 -/

/-- Two different valid handles of one processor never share a slot. -/
theorem C07_disjoint_storage {ops : List (Op δ)} {w : World δ} (h : run ops = some w)
    {a b : MotId} (hab : a ≠ b) {p : ProcId} {i j n n' : Nat}
    (ha : w.mots a = some (p, i)) (hb : w.mots b = some (p, j))
    (hna : w.dimensions a = some n) (hnb : w.dimensions b = some n') :
    i + n ≤ j ∨ j + n' ≤ i := by
  obtain ⟨hw, _⟩ := run_winv h
  obtain ⟨pr, hpr⟩ := hw.mots a p i ha
  have hp := hw.procs p pr hpr
  obtain ⟨na, hla, _⟩ := hp.ref a i ha
  obtain ⟨nb, hlb, _⟩ := hp.ref b j hb
  simp [World.dimensions, ha, hpr, Proc.dimensions, countFor_block hla.1] at hna
  simp [World.dimensions, hb, hpr, Proc.dimensions, countFor_block hlb.1] at hnb
  subst hna; subst hnb
  exact Live.apart hla hlb (by intro hc; simp at hc; exact hab (hp.inj ha (hc.1 ▸ hb)))

/-- No slot leaks: every allocated block of a processor is held by exactly one valid handle. -/
theorem C07_no_leak {ops : List (Op δ)} {w : World δ} (h : run ops = some w) {p : ProcId}
    {pr : Proc δ} (hpr : w.procs p = some pr) (i n : Nat) :
    Live pr.alloc i n ↔ ∃! m, w.mots m = some (p, i) ∧ w.dimensions m = some n := by
  obtain ⟨hw, _⟩ := run_winv h
  have hp := hw.procs p pr hpr
  constructor
  · intro hl
    obtain ⟨m, hm, _⟩ := hp.own i n hl
    refine ⟨m, ⟨hm, ?_⟩, ?_⟩
    · simp only [Proc.pstate] at hm
      simp [World.dimensions, hm, hpr, Proc.dimensions, countFor_block hl.1]
    · rintro m' ⟨hm', _⟩
      exact hp.inj hm' hm
  · rintro ⟨m, ⟨hm, hd⟩, _⟩
    obtain ⟨n', hl, _⟩ := hp.ref m i hm
    simp [World.dimensions, hm, hpr, Proc.dimensions, countFor_block hl.1] at hd
    subst hd; exact hl

example : ∃ w : World Int, run [.create 0 0 false, .initialize 10 0 [1, 2, 3], .initialize 11 0 [4]]
    = some w ∧ w.view.vals 10 = some (0, [1, 2, 3]) ∧ w.view.vals 11 = some (0, [4]) := by
  obtain ⟨w, h1, h2, h3⟩ := runFrom_spec (δ := Int)
    [.create 0 0 false, .initialize 10 0 [1, 2, 3], .initialize 11 0 [4]] World.empty winv_empty
  exact ⟨w, h1, by rw [h3]; decide, by rw [h3]; decide⟩

/-! ## C08 -/

/-- Compaction succeeds in every reachable state, leaves no hole, and changes nothing that can be read
through any handle. -/
theorem C08_compaction_invisible {ops : List (Op δ)} {w : World δ} (h : run ops = some w)
    {p : ProcId} (hp : (w.procs p).isSome) :
    ∃ w', w.defragment p = some w' ∧
      (∀ m, w'.valid m = w.valid m ∧ w'.dimensions m = w.dimensions m ∧
        w'.view.vals m = w.view.vals m) ∧
      ∃ pr', w'.procs p = some pr' ∧ pr'.alloc.unused = [] := by
  obtain ⟨hw, _⟩ := run_winv h
  obtain ⟨pr, hpr⟩ := Option.isSome_iff_exists.mp hp
  obtain ⟨w', pr', e1, e2, e3, e4, e5, _⟩ := defragment_spec' hw hpr
  refine ⟨w', e1, fun m => ⟨?_, ?_, by rw [e3]⟩, pr', e4, e5⟩
  · rw [valid_view e2, valid_view hw, e3]
  · rw [dims_view e2, dims_view hw, e3]

example : ∃ w, run demo = some w ∧ (w.procs 0).isSome := by
  obtain ⟨w, h1, h2, h3⟩ := runFrom_spec demo World.empty winv_empty
  refine ⟨w, h1, ?_⟩
  have : (w.view.procs 0).isSome = true := by rw [h3]; decide
  simpa [World.view] using this

/-! ## C09 -/

/-- The handles a call mentions. -/
def Op.names : Op δ → List MotId
  | .create .. => []
  | .initialize m .. => [m]
  | .invalidate m => [m]
  | .moveAssign dst src => [dst, src]
  | .moveConstruct dst src => [dst, src]
  | .cloneFrom dst _ => [dst]
  | .write m .. => [m]
  | .advance .. => []
  | .destroyProc .. => []

/-- The processor all of whose motivators a call affects. -/
def Op.sweeps : Op δ → Option ProcId
  | .advance p _ => some p
  | .destroyProc p => some p
  | _ => none

/-- A call leaves alone every handle it does not mention (`AdvanceFrame` and destruction of a processor:
every handle of other processors); in particular the source of `CloneFrom` is untouched. -/
theorem C09_non_interference {ops : List (Op δ)} {w w' : World δ} (h : run ops = some w) (op : Op δ)
    (hs : step op w = some w') (m : MotId) (hm : m ∉ op.names)
    (hp : ∀ p l, w.view.vals m = some (p, l) → op.sweeps ≠ some p) :
    w'.view.vals m = w.view.vals m ∧ w'.valid m = w.valid m ∧ w'.dimensions m = w.dimensions m := by
  obtain ⟨hw, _⟩ := run_winv h
  obtain ⟨w1, e1, e2, e3⟩ := step_spec hw op
  rw [hs] at e1; simp at e1; subst e1
  have key : w'.view.vals m = w.view.vals m := by
    rw [e3]
    match op with
    | .create .. => simp only [absStep]; split <;> rfl
    | .initialize .. =>
      simp [Op.names] at hm
      simp only [absStep]; split <;> simp [Abs.set, hm]
    | .invalidate .. => simp [Op.names] at hm; simp [absStep, Abs.set, hm]
    | .moveAssign .. =>
      simp [Op.names] at hm
      simp only [absStep]; split <;> simp [Abs.set, hm]
    | .moveConstruct .. =>
      simp [Op.names] at hm
      simp only [absStep]; split <;> simp [Abs.set, hm]
    | .cloneFrom _ src =>
      simp [Op.names] at hm
      simp only [absStep]
      split
      · simp [Abs.set, hm]
      · split
        · simp [Abs.set, hm]
        · split
          · simp [Abs.set, hm]
          · split <;> simp [Abs.set, hm]
    | .write .. =>
      simp [Op.names] at hm
      simp only [absStep]
      split
      · rfl
      · split <;> simp [Abs.set, hm]
    | .advance p f =>
      simp only [absStep]; split
      · simp only
        match hv : w.view.vals m with
        | none => rfl
        | some (q, l) =>
          have := hp q l hv
          simp [Op.sweeps] at this
          simp [Ne.symm this]
      · rfl
    | .destroyProc p =>
      simp only [absStep]; split
      · simp only
        match hv : w.view.vals m with
        | none => rfl
        | some (q, l) =>
          have := hp q l hv
          simp [Op.sweeps] at this
          rw [Option.filter_some, if_pos (by simp [Ne.symm this])]
      · rfl
  exact ⟨key, by rw [valid_view e2, valid_view hw, key], by rw [dims_view e2, dims_view hw, key]⟩

example : ∃ w w' : World Int, run demo = some w ∧ step (.invalidate 13) w = some w' ∧
    14 ∉ (Op.invalidate 13 : Op Int).names ∧ w.view.vals 14 = some (0, [9]) := by
  obtain ⟨w, h1, h2, h3⟩ := runFrom_spec demo World.empty winv_empty
  obtain ⟨w', e1, _⟩ := step_spec h2 (.invalidate 13)
  exact ⟨w, w', h1, e1, by decide, by rw [h3]; decide⟩

/-! ## C10 -/

/-- Move assignment: the target reads what the source read, the source is invalid; self-move
invalidates.  (By `C07_no_leak` in the resulting state, whatever the target owned has been freed.) -/
theorem C10_move_assign {ops : List (Op δ)} {w : World δ} (h : run ops = some w) (a b : MotId) :
    ∃ w', step (.moveAssign b a) w = some w' ∧ run (ops ++ [.moveAssign b a]) = some w' ∧
      w'.valid a = false ∧
      (a ≠ b → w'.view.vals b = w.view.vals a ∧ w'.valid b = w.valid a ∧
        w'.dimensions b = w.dimensions a) := by
  obtain ⟨hw, _⟩ := run_winv h
  obtain ⟨w', e1, e2, e3⟩ := step_spec hw (.moveAssign b a)
  have hrun : run (ops ++ [.moveAssign b a]) = some w' := by
    have : ∀ (l : List (Op δ)) (x : World δ), runFrom x l = some w →
        runFrom x (l ++ [.moveAssign b a]) = some w' := by
      intro l
      induction l with
      | nil => intro x hx; simp [runFrom] at hx; subst hx; simp [runFrom, e1]
      | cons o l ih =>
        intro x hx
        simp only [runFrom, Option.bind_eq_some_iff] at hx
        obtain ⟨y, hy1, hy2⟩ := hx
        simp [runFrom, hy1, ih y hy2]
    exact this ops _ h
  refine ⟨w', e1, hrun, ?_, ?_⟩
  · rw [valid_view e2, e3]
    simp only [absStep]
    split
    · rename_i hab; subst hab; simp [Abs.set]
    · simp [Abs.set]
  · intro hab
    have key : w'.view.vals b = w.view.vals a := by
      rw [e3]; simp [absStep, Ne.symm hab, Abs.set]
    exact ⟨key, by rw [valid_view e2, valid_view hw, key], by rw [dims_view e2, dims_view hw, key]⟩

/-- Move construction into raw storage `b`. -/
theorem C10_move_construct {ops : List (Op δ)} {w : World δ} (h : run ops = some w) {a b : MotId}
    (hab : b ≠ a) (hb : w.valid b = false) :
    ∃ w', w.moveConstruct b a = some w' ∧ w'.valid a = false ∧
      w'.view.vals b = w.view.vals a ∧ w'.valid b = w.valid a ∧ w'.dimensions b = w.dimensions a := by
  obtain ⟨hw, _⟩ := run_winv h
  obtain ⟨w', e1, e2, e3⟩ := moveConstruct_spec hw (dst := b) (src := a)
    (by simpa [World.valid] using hb)
  have key : w'.view.vals b = w.view.vals a := by
    rw [e3]; simp [hab, Abs.set]
  exact ⟨w', e1, by rw [valid_view e2, e3]; simp [Abs.set], key,
    by rw [valid_view e2, valid_view hw, key], by rw [dims_view e2, dims_view hw, key]⟩

example : ∃ w : World Int, run demo = some w ∧ w.valid 13 = true ∧ w.valid 20 = false := by
  obtain ⟨w, h1, h2, h3⟩ := runFrom_spec demo World.empty winv_empty
  exact ⟨w, h1, by rw [valid_view h2, h3]; decide, by rw [valid_view h2, h3]; decide⟩

/-! ## C11 -/

/-- `b.CloneFrom(a)`: the source is unchanged; with a valid source whose processor clones, the target
reads the same values; otherwise it is invalid.  (`C07_disjoint_storage` applies to the result.) -/
theorem C11_clone {ops : List (Op δ)} {w : World δ} (h : run ops = some w) (b : MotId)
    (src : Option MotId) :
    ∃ w', step (.cloneFrom b src) w = some w' ∧
      (∀ a p l pr, src = some a → a ≠ b → w.view.vals a = some (p, l) → w.procs p = some pr →
        w'.view.vals a = some (p, l) ∧
        (pr.cloning = true → w'.view.vals b = some (p, l)) ∧
        (pr.cloning = false → w'.valid b = false)) ∧
      ((src = none ∨ src = some b ∨ ∃ a, src = some a ∧ w.valid a = false) → w'.valid b = false) := by
  obtain ⟨hw, _⟩ := run_winv h
  obtain ⟨w', e1, e2, e3⟩ := step_spec hw (.cloneFrom b src)
  refine ⟨w', e1, ?_, ?_⟩
  · rintro a p l pr rfl hab hv hpr
    have hc : w.view.procs p = some pr.cloning := by simp [World.view, hpr]
    rw [valid_view e2, e3]
    simp only [absStep, Ne.symm hab, if_false, hv, hc, Option.some.injEq]
    refine ⟨?_, ?_, ?_⟩
    · split <;> simp [Abs.set, hab, hv]
    · intro hcl; simp [hcl, Abs.set]
    · intro hcl; simp [hcl, Abs.set]
  · intro hc
    rw [valid_view e2, e3]
    rcases hc with rfl | rfl | ⟨a, rfl, hva⟩
    · simp [absStep, Abs.set]
    · simp [absStep, Abs.set]
    · rw [valid_view hw] at hva
      simp only [Option.isSome_eq_false_iff, Option.isNone_iff_eq_none] at hva
      simp only [absStep, hva]
      split <;> simp [Abs.set]

example : ∃ (w : World Int) (pr : Proc Int), run demo = some w ∧
    w.view.vals 12 = some (1, [7, 8]) ∧ w.procs 1 = some pr ∧ pr.cloning = true := by
  obtain ⟨w, h1, h2, h3⟩ := runFrom_spec demo World.empty winv_empty
  have : w.view.procs 1 = some true := by rw [h3]; decide
  simp only [World.view, Option.map_eq_some_iff] at this
  obtain ⟨pr, g1, g2⟩ := this
  exact ⟨w, pr, h1, by rw [h3]; decide, g1, g2⟩

/-! ## C12 -/

/-- Destroying a processor never fails its final assertion; all its motivators become invalid, all
others read what they read before. -/
theorem C12_destroy_resets {ops : List (Op δ)} {w : World δ} (h : run ops = some w) {p : ProcId}
    (hp : (w.procs p).isSome) :
    ∃ w', w.destroyProc p = some w' ∧
      (∀ m i, w.mots m = some (p, i) → w'.valid m = false) ∧
      (∀ m q i, w.mots m = some (q, i) → q ≠ p →
        w'.view.vals m = w.view.vals m ∧ w'.valid m = true) := by
  obtain ⟨hw, _⟩ := run_winv h
  obtain ⟨w', e1, e2, e3⟩ := destroyProc_spec hw hp
  have hs : (w.view.procs p).isSome := by simpa [World.view] using hp
  refine ⟨w', e1, ?_, ?_⟩
  · intro m i hm
    obtain ⟨pr, hpr⟩ := hw.mots m p i hm
    obtain ⟨n, hl, _⟩ := (hw.procs p pr hpr).ref m i hm
    rw [valid_view e2, e3]
    simp only [absStep, hs, if_true, view_some hm hpr hl]
    rw [Option.filter_some, if_neg (by simp)]; rfl
  · intro m q i hm hq
    obtain ⟨pr, hpr⟩ := hw.mots m q i hm
    obtain ⟨n, hl, _⟩ := (hw.procs q pr hpr).ref m i hm
    rw [valid_view e2, e3]
    simp only [absStep, hs, if_true, view_some hm hpr hl]
    rw [Option.filter_some, if_pos (by simp [hq])]
    exact ⟨rfl, rfl⟩

example : ∃ w : World Int, run demo = some w ∧ w.view.vals 13 = some (0, [6, 7]) ∧
    w.view.vals 15 = some (1, [7, 8]) := by
  obtain ⟨w, h1, h2, h3⟩ := runFrom_spec demo World.empty winv_empty
  exact ⟨w, h1, by rw [h3]; decide, by rw [h3]; decide⟩

/-! ## C39 -/

/-- Slot-array processors refine private buffers: after any history, what is read through every handle
is what the specification `absRun` says — the values it was initialised with, transformed by every later
`AdvanceFrame` of its processor and every write through it, and nothing else. -/
theorem C39_refines_private_values (ops : List (Op δ)) :
    ∃ w, run ops = some w ∧ w.view = absRun ops :=
  let ⟨w, h1, _, h3⟩ := runFrom_spec ops World.empty winv_empty
  ⟨w, h1, h3⟩

/-- When a handle is invalidated its slots are reset to the default. -/
theorem C39_removed_slots_reset {ops : List (Op δ)} {w : World δ} (h : run ops = some w) {m : MotId}
    {p : ProcId} {i n : Nat} {pr : Proc δ} (hm : w.mots m = some (p, i)) (hpr : w.procs p = some pr)
    (hn : w.dimensions m = some n) :
    ∃ w' pr', w.invalidate m = some w' ∧ w'.procs p = some pr' ∧
      (pr'.data.drop i).take n = List.replicate n pr.dflt := by
  obtain ⟨hw, _⟩ := run_winv h
  obtain ⟨w', e1, _, _, _, pr0, pr', n', g1, g2, g3, _, g5⟩ := removeMotivator_spec hw hm
  rw [hpr] at g1; simp at g1; subst g1
  simp [World.dimensions, hm, hpr, Proc.dimensions, countFor_block g2.1] at hn
  subst hn
  exact ⟨w', pr', by simp [World.invalidate, hm, e1], g3, g5⟩

example : (absRun demo).vals 13 = some (0, [6, 7]) ∧ (absRun demo).vals 14 = some (0, [9]) := by
  decide

end Motive.Proc
