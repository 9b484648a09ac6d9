import Verif.Proc.Props
import Mathlib.Tactic.IntervalCases

/-!
# C113: the checks of `MOTIVE_VERIFY_INTERNAL_STATE`

`MotiveProcessor::VerifyInternalState` (src/motive/processor.cpp:35-61) and the operations that call it (122, 143, 182), when
`MOTIVE_VERIFY_INTERNAL_STATE` and `MOTIVE_INDEX_ALLOCATOR_VERIFY_INTERNAL_STATE` are defined.
-/

namespace Motive.Proc

open Motive.Alloc

variable {δ : Type}

/-! ### Model -/

/-- The loop over the other motivators (processor.cpp:55-57) from `j` on: `true` iff no assertion fails. -/
def othersDiffer (c : List Int) (back : List (Option MotId)) (m : MotId) (j : Nat) : Bool :=
  if j < back.length then
    match _h : countFor c j with
    | none => false
    | some n => (back[j]? != some (some m)) && othersDiffer c back m (j + n)
  else true
termination_by back.length - j
decreasing_by
  have := countFor_some _h
  omega

/-- The loop of `VerifyInternalState` (processor.cpp:41-58) from `i` on. A null pointer for an index that is allocated is followed: that is no
better than a failed assertion. -/
def verifyFrom (a : Alloc) (back : List (Option MotId)) (mots : Mots) (i : Nat) : Bool :=
  if i < back.length then
    match _h : countFor a.counts i with
    | none => false
    | some n =>
      (match back[i]? with
        | some (some m) => (mots m).isSome && ((List.range' 1 (n - 1)).all fun k => back[i + k]? == some (some m)) && othersDiffer a.counts back m (i + n)
        | _ => !validIndex a i) && verifyFrom a back mots (i + n)
  else true
termination_by back.length - i
decreasing_by
  have := countFor_some _h
  omega

/-- `VerifyInternalState` (processor.cpp:35-61). -/
def Proc.verify (pr : Proc δ) (mots : Mots) : Bool := Motive.Alloc.verify pr.alloc.counts 0 && verifyFrom pr.alloc pr.back mots 0

/-- A call of `VerifyInternalState` of the processor `p`. -/
def World.verified (w : World δ) (p : ProcId) : Option (World δ) := (w.procs p).bind fun pr => if pr.verify w.mots then some w else none

/-- `RemoveMotivator` with its last line (processor.cpp:112-123). -/
def World.removeChecked (w : World δ) (p : ProcId) (i : Nat) : Option (World δ) := (w.removeMotivator p i).bind fun w => w.verified p

/-- `Motivator::Invalidate` (motivator.h:82-86). -/
def World.invalidateChecked (w : World δ) (m : MotId) : Option (World δ) :=
  match w.mots m with
  | none => some w
  | some (p, i) => w.removeChecked p i

/-- `AllocateMotivatorIndices` with its check (processor.cpp:167-184). -/
def World.allocateChecked (w : World δ) (p : ProcId) (m : MotId) (n : Nat) : Option (World δ × Nat) :=
  (w.allocate p m n).bind fun r => (r.1.verified p).map fun w => (w, r.2)

/-- `Initialize` (motivator.cpp:20-32, processor.cpp:63-75). -/
def World.initializeChecked (w : World δ) (m : MotId) (p : ProcId) (vals : List δ) : Option (World δ) := do
  let w ← w.invalidateChecked m
  let (w, i) ← w.allocateChecked p m vals.length
  w.initializeIndices p i vals

/-- `TransferMotivator` with its last line (processor.cpp:125-144). -/
def World.transferChecked (w : World δ) (p : ProcId) (i : Nat) (m : MotId) : Option (World δ) := (w.transfer p i m).bind fun w => w.verified p

/-- `operator=(Motivator&&)` (motivator.h:64-70). -/
def World.moveAssignChecked (w : World δ) (dst src : MotId) : Option (World δ) := do
  let w ← w.invalidateChecked dst
  match w.mots src with
  | none => some w
  | some (p, i) => w.transferChecked p i dst

/-- `Motivator(Motivator&&)` (motivator.h:53-60). -/
def World.moveConstructChecked (w : World δ) (dst src : MotId) : Option (World δ) :=
  match w.mots src with
  | none => some { w with mots := setMot w.mots dst none }
  | some (p, i) => w.transferChecked p i dst

/-- `CloneMotivator` (processor.cpp:77-93). -/
def World.cloneMotivatorChecked (w : World δ) (p : ProcId) (dst : MotId) (src : Nat) : Option (World δ) := do
  let pr ← w.procs p
  if pr.cloning then
    let n ← pr.dimensions src
    let (w, i) ← w.allocateChecked p dst n
    let pr ← w.procs p
    let data ← setRange pr.data i ((pr.data.drop src).take n)
    pure (w.setProc p (some { pr with data := data }))
  else
    pure w

/-- `Motivator::CloneFrom` (motivator.h:121-126). -/
def World.cloneFromChecked (w : World δ) (dst : MotId) (src : Option MotId) : Option (World δ) := do
  let w ← w.invalidateChecked dst
  match src with
  | none => some w
  | some src =>
    match w.mots src with
    | none => some w
    | some (p, i) => w.cloneMotivatorChecked p dst i

/-- `step` with all checks. -/
def stepChecked (op : Op δ) (w : World δ) : Option (World δ) :=
  match op with
  | .initialize m p vals =>
    if (w.procs p).isSome ∧ 0 < vals.length then w.initializeChecked m p vals else some w
  | .invalidate m => w.invalidateChecked m
  | .moveAssign dst src => w.moveAssignChecked dst src
  | .moveConstruct dst src => if dst ≠ src ∧ w.valid dst = false then w.moveConstructChecked dst src else some w
  | .cloneFrom dst src => w.cloneFromChecked dst src
  | op => step op w

/-- A sequence of API calls with all checks. -/
def runChecked (ops : List (Op δ)) : Option (World δ) := ops.foldlM (fun w op => stepChecked op w) World.empty

/-! ### Proofs -/

theorem othersDiffer_of {c : List Int} {back : List (Option MotId)} {m : MotId} {j : Nat} (ht : Tiled c j c.length)
    (hb : back.length = c.length) (hne : ∀ k, j ≤ k → back[k]? ≠ some (some m)) : othersDiffer c back m j = true := by
  generalize he : c.length = e at ht hb
  induction ht with
  | nil => unfold othersDiffer; rw [if_neg (by omega)]
  | cons hblk _ ih =>
    rename_i i n b _
    unfold othersDiffer
    split
    · split
      · rename_i h; rw [countFor_block hblk] at h; cases h
      · rename_i n' h
        rw [countFor_block hblk] at h
        cases h
        simp only [Bool.and_eq_true, bne_iff_ne]
        exact ⟨hne i le_rfl, ih (fun k hk => hne k (by omega)) he hb⟩
    · rfl

theorem verifyFrom_of {p : ProcId} {a : Alloc} {s : PState δ} (h : PInv p a s) {i : Nat} (ht : Tiled a.counts i a.counts.length) :
    verifyFrom a s.back s.mots i = true := by
  have hb : s.back.length = a.counts.length := h.blen
  have hd : ∀ j m, Tiled a.counts j a.counts.length → (∀ k, j ≤ k → s.back[k]? ≠ some (some m)) → othersDiffer a.counts s.back m j = true :=
    fun j m h1 h2 => othersDiffer_of h1 hb h2
  generalize he : a.counts.length = e at ht hb hd
  induction ht with
  | nil => unfold verifyFrom; rw [if_neg (by omega)]
  | cons hblk ht ih =>
    rename_i i n b
    unfold verifyFrom
    rw [if_pos (by have := ht.le; have := hblk.1; omega)]
    split
    · rename_i h'; rw [countFor_block hblk] at h'; cases h'
    · rename_i n' h'
      rw [countFor_block hblk] at h'
      cases h'
      rw [ih he hb hd, Bool.and_true]
      by_cases hu : i ∈ a.unused
      · have hn := h.nul i (by have := ht.le; have := hblk.1; show i < a.counts.length; omega)
          (HoleCell.not_live ⟨i, n, hu, hblk, le_rfl, by have := hblk.1; omega⟩)
        rw [hn]
        simp only [Motive.Alloc.validIndex, hblk.2.1, List.contains_iff_mem.mpr hu]
        split <;> rfl
      · obtain ⟨m, m1, m2⟩ := h.own i n ⟨hblk, hu⟩
        rw [show s.back[i]? = some (some m) from m2 0 hblk.1]
        simp only [m1, Option.isSome_some, Bool.true_and, Bool.and_eq_true, List.all_eq_true, beq_iff_eq]
        refine ⟨fun k hk => ?_, ?_⟩
        · rw [List.mem_range'_1] at hk
          exact m2 k (by omega)
        · apply hd _ _ ht
          intro k hk hc
          obtain ⟨i', n', q1, q2, q3, q4⟩ := h.owner hc
          rw [m1] at q1
          cases q1
          have := q2.1.unique hblk
          omega

theorem verified_of {w : World δ} (h : WInv w) {p : ProcId} {pr : Proc δ} (hp : w.procs p = some pr) : w.verified p = some w := by
  have hi := h.procs p pr hp
  have e : pr.verify w.mots = true := by
    unfold Proc.verify
    rw [verify_tiled hi.inv.tiled, Bool.true_and]
    exact verifyFrom_of hi hi.inv.tiled
  unfold World.verified
  rw [hp, Option.bind_some, if_pos e]

theorem invalidate_checked {w : World δ} (h : WInv w) (m : MotId) : w.invalidateChecked m = w.invalidate m := by
  unfold World.invalidateChecked World.invalidate
  match hm : w.mots m with
  | none => rfl
  | some (p, i) =>
    simp only
    obtain ⟨w', h1, h2, -, -, pr, pr', n, -, -, h3, -⟩ := removeMotivator_spec h hm
    unfold World.removeChecked
    rw [h1, Option.bind_some, verified_of h2 h3]

theorem allocate_checked {w : World δ} (h : WInv w) {m : MotId} {p : ProcId} {pr : Proc δ} {n : Nat}
    (hm : w.mots m = none) (hpr : w.procs p = some pr) (h0 : 0 < n) : w.allocateChecked p m n = w.allocate p m n := by
  obtain ⟨w', i, pr', a1, a2, a3, -⟩ := allocate_spec h hm hpr h0
  unfold World.allocateChecked
  rw [a1, Option.bind_some, verified_of a2 a3, Option.map_some]

theorem transfer_checked {w : World δ} (h : WInv w) {src dst : MotId} {p : ProcId} {i : Nat}
    (hs : w.mots src = some (p, i)) (hd : w.mots dst = none) : w.transferChecked p i dst = w.transfer p i dst := by
  obtain ⟨w', t1, t2, -⟩ := transfer_spec h hs hd
  have h3 : ∃ pr, w'.procs p = some pr := by
    unfold World.transfer at t1
    simp only [Option.bind_eq_bind, Option.bind_eq_some_iff] at t1
    obtain ⟨pr, -, -, -, old, -, n, -, back, -, t1⟩ := t1
    cases t1
    exact Option.isSome_iff_exists.mp (by simp [World.setProc])
  obtain ⟨pr, h3⟩ := h3
  unfold World.transferChecked
  rw [t1, Option.bind_some, verified_of t2 h3]

theorem invalidate_keeps_procs {w w' : World δ} {m : MotId} (h : w.invalidate m = some w') {p : ProcId} (hp : (w.procs p).isSome) :
    ∃ pr, w'.procs p = some pr := by
  unfold World.invalidate at h
  split at h
  · cases h; exact Option.isSome_iff_exists.mp hp
  · rename_i q i _
    unfold World.removeMotivator at h
    simp only [Option.bind_eq_bind, Option.bind_eq_some_iff] at h
    obtain ⟨pr, -, -, -, n, -, -, -, data, -, r, -, h⟩ := h
    cases h
    by_cases hq : p = q
    · exact Option.isSome_iff_exists.mp (by simp [World.setProc, hq])
    · obtain ⟨pr', hp'⟩ := Option.isSome_iff_exists.mp hp
      exact ⟨pr', by simp [World.setProc, hq, hp']⟩

theorem step_checked {w : World δ} (h : WInv w) (op : Op δ) : stepChecked op w = step op w := by
  match op with
  | .create p d cl => rfl
  | .initialize m p vals =>
    simp only [stepChecked, step]
    split
    · rename_i hc
      obtain ⟨w1, i1, i2, i3, -⟩ := invalidate_spec h m
      obtain ⟨pr, hpr⟩ := invalidate_keeps_procs i1 hc.1
      unfold World.initializeChecked World.initialize
      rw [invalidate_checked h, i1]
      simp only [Option.bind_eq_bind, Option.bind_some]
      rw [allocate_checked i2 (by rw [i3]; exact setMot_self _ _ _) hpr hc.2]
    · rfl
  | .invalidate m => exact invalidate_checked h m
  | .moveAssign dst src =>
    obtain ⟨w1, i1, i2, i3, -⟩ := invalidate_spec h dst
    show w.moveAssignChecked dst src = w.moveAssign dst src
    unfold World.moveAssignChecked World.moveAssign
    rw [invalidate_checked h, i1]
    simp only [Option.bind_eq_bind, Option.bind_some]
    match hm : w1.mots src with
    | none => rfl
    | some (p, i) => exact transfer_checked i2 hm (by rw [i3]; exact setMot_self _ _ _)
  | .moveConstruct dst src =>
    simp only [stepChecked, step]
    split
    · rename_i hc
      unfold World.moveConstructChecked World.moveConstruct
      match hm : w.mots src with
      | none => rfl
      | some (p, i) => exact transfer_checked h hm (by simpa [World.valid] using hc.2)
    · rfl
  | .cloneFrom dst src =>
    obtain ⟨w1, i1, i2, i3, -⟩ := invalidate_spec h dst
    show w.cloneFromChecked dst src = w.cloneFrom dst src
    unfold World.cloneFromChecked World.cloneFrom
    rw [invalidate_checked h, i1]
    simp only [Option.bind_eq_bind, Option.bind_some]
    match src with
    | none => rfl
    | some src =>
      simp only
      match hm : w1.mots src with
      | none => rfl
      | some (p, i) =>
        simp only
        obtain ⟨pr, hpr⟩ := i2.mots src p i hm
        obtain ⟨n, hl, -⟩ := (i2.procs p pr hpr).ref src i hm
        unfold World.cloneMotivatorChecked World.cloneMotivator
        rw [hpr]
        simp only [Option.bind_eq_bind, Option.bind_some]
        split
        · rw [show pr.dimensions i = some n from countFor_block hl.1]
          simp only [Option.bind_some]
          rw [allocate_checked i2 (by rw [i3]; exact setMot_self _ _ _) hpr hl.1.1]
        · rfl
  | .write m off v => rfl
  | .advance p f => rfl
  | .destroyProc p => rfl

/-! ### C113 -/

/-- C113: with all checks compiled in, every program does what it does without them: no check of the internal state ever fails. -/
theorem C113_checks_never_fail (ops : List (Op δ)) : runChecked ops = run ops := by
  have key : ∀ (ops : List (Op δ)) (w : World δ), WInv w → ops.foldlM (fun w op => stepChecked op w) w = runFrom w ops := by
    intro ops
    induction ops with
    | nil => intro w _; rfl
    | cons op ops ih =>
      intro w h
      obtain ⟨w', h1, h2, -⟩ := step_spec h op
      rw [List.foldlM_cons, step_checked h op, h1]
      simp only [runFrom, h1, Option.bind_eq_bind, Option.bind_some]
      exact ih w' h2
  exact key ops World.empty winv_empty

/-- C113: and they would pass at any time between calls, for all processors. -/
theorem C113_state_verified {ops : List (Op δ)} {w : World δ} (h : run ops = some w) {p : ProcId} {pr : Proc δ} (hp : w.procs p = some pr) :
    pr.verify w.mots = true := by
  have := verified_of (run_winv h).1 hp
  unfold World.verified at this
  rw [hp, Option.bind_some] at this
  by_contra hc
  rw [if_neg hc] at this
  cases this

/-- What the checks find: sizes of blocks that are wrong, motivators that do not know their processor, back pointers that differ within a block, motivators
that have two blocks, and blocks that are allocated but have no motivator. If they pass, all indices are in blocks; each block that is allocated belongs
to one motivator, which is valid, and no other block belongs to it. -/
theorem C113_checks_are_complete {pr : Proc δ} {mots : Mots} (hl : pr.back.length = pr.alloc.numIndices) (h : pr.verify mots = true) :
    Tiled pr.alloc.counts 0 pr.alloc.counts.length ∧
      ∀ i n, Block pr.alloc.counts i n → i ∉ pr.alloc.unused → ∃ m, (mots m).isSome ∧ (∀ k < n, pr.back[i + k]? = some (some m)) ∧
        ∀ j n', Block pr.alloc.counts j n' → j ≠ i → pr.back[j]? ≠ some (some m) := by
  unfold Proc.verify at h
  rw [Bool.and_eq_true] at h
  obtain ⟨h1, h2⟩ := h
  have ht := tiled_of_verify 0 (Nat.zero_le _) h1
  refine ⟨ht, ?_⟩
  have hb : pr.back.length = pr.alloc.counts.length := hl
  -- what the inner loop says
  have hd : ∀ j m, Tiled pr.alloc.counts j pr.alloc.counts.length → othersDiffer pr.alloc.counts pr.back m j = true →
      ∀ i n, Block pr.alloc.counts i n → j ≤ i → pr.back[i]? ≠ some (some m) := by
    intro j m hj
    generalize he : pr.alloc.counts.length = e at hj hb
    induction hj with
    | nil a => intro _ i n hi hle; exfalso; have := hi.lt_length; have := hi.1; omega
    | cons hblk ht' ih =>
      rename_i a n b
      intro ho i n' hi hle
      unfold othersDiffer at ho
      rw [if_pos (by have := ht'.le; have := hblk.1; omega)] at ho
      split at ho
      · cases ho
      · rename_i n2 h'
        rw [countFor_block hblk] at h'
        cases h'
        simp only [Bool.and_eq_true, bne_iff_ne] at ho
        rcases Nat.eq_or_lt_of_le hle with rfl | hlt
        · exact ho.1
        · exact ih he hb ho.2 i n' hi (hblk.disjoint hi hlt)
  -- what the outer loop says
  have ho : ∀ a, Tiled pr.alloc.counts a pr.alloc.counts.length → verifyFrom pr.alloc pr.back mots a = true → ∀ i n, Block pr.alloc.counts i n → a ≤ i →
      (i ∉ pr.alloc.unused → ∃ m, pr.back[i]? = some (some m)) ∧ ∀ m, pr.back[i]? = some (some m) → (mots m).isSome ∧
        (∀ k < n, pr.back[i + k]? = some (some m)) ∧ ∀ j n', Block pr.alloc.counts j n' → i < j → pr.back[j]? ≠ some (some m) := by
    intro a ha
    generalize he : pr.alloc.counts.length = e at ha hb hd
    induction ha with
    | nil a => intro _ i n hi hle; exfalso; have := hi.lt_length; have := hi.1; omega
    | cons hblk ht' ih =>
      rename_i a n b
      intro hv i n' hi hle
      unfold verifyFrom at hv
      rw [if_pos (by have := ht'.le; have := hblk.1; omega)] at hv
      split at hv
      · cases hv
      · rename_i n2 h'
        rw [countFor_block hblk] at h'
        cases h'
        rw [Bool.and_eq_true] at hv
        rcases Nat.eq_or_lt_of_le hle with rfl | hlt
        · have := hi.unique hblk
          subst this
          split at hv
          · rename_i m hm
            simp only [Bool.and_eq_true, List.all_eq_true, beq_iff_eq] at hv
            obtain ⟨⟨⟨v1, v2⟩, v3⟩, -⟩ := hv
            refine ⟨fun _ => ⟨m, hm⟩, fun m' hm' => ?_⟩
            rw [hm] at hm'
            cases hm'
            refine ⟨v1, ?_, fun j n'' hj hlt => hd _ m ht' v3 j n'' hj (hi.disjoint hj hlt)⟩
            intro k hk
            rcases Nat.eq_zero_or_pos k with rfl | hk0
            · exact hm
            · exact v2 k (by rw [List.mem_range'_1]; omega)
          · rename_i hno
            refine ⟨fun hu => ?_, fun m hm => absurd hm (hno m)⟩
            exfalso
            have hc : Motive.Alloc.validIndex pr.alloc a = true := by
              have hne : (n' : Int) ≠ 0 := by have := hi.1; omega
              simp only [Motive.Alloc.validIndex, hi.2.1, if_neg hne]
              simpa using hu
            rw [hc] at hv
            simp at hv
        · exact ih he hb hd hv.2 i n' hi (hblk.disjoint hi hlt)
  intro i n hi hu
  obtain ⟨e1, e2⟩ := ho 0 ht h2 i n hi (Nat.zero_le _)
  obtain ⟨m, hm⟩ := e1 hu
  obtain ⟨m1, m2, m3⟩ := e2 m hm
  refine ⟨m, m1, m2, ?_⟩
  intro j n' hj hne hc
  rcases Nat.lt_or_gt_of_ne hne with hlt | hgt
  · exact ((ho 0 ht h2 j n' hj (Nat.zero_le _)).2 m hc).2.2 i n hi hlt hm
  · exact m3 j n' hj hgt hc

/-! ### Examples -/

example : runChecked demo = run demo := C113_checks_never_fail demo

/-- After the calls of `demo` the checks pass. -/
example : ∃ (w : World Int) (pr : Proc Int), run demo = some w ∧ w.procs 0 = some pr ∧ pr.verify w.mots = true := by
  obtain ⟨w, h1, h2, h3⟩ := runFrom_spec demo World.empty winv_empty
  have hp : (w.view.procs 0).isSome = true := by rw [h3]; decide
  obtain ⟨pr, hpr⟩ := Option.isSome_iff_exists.mp (show (w.procs 0).isSome = true by simpa [World.view] using hp)
  exact ⟨w, pr, h1, hpr, C113_state_verified h1 hpr⟩

/-- A motivator that has two blocks. -/
def twoBlocks : Proc Int := ⟨⟨[2, -1, 1], []⟩, [some 4, some 4, some 4], [0, 0, 0], 0, false⟩

/-- The checks fail. -/
example (mots : Mots) : twoBlocks.verify mots = false := by
  cases h : twoBlocks.verify mots with
  | false => rfl
  | true =>
    obtain ⟨-, h2⟩ := C113_checks_are_complete (pr := twoBlocks) rfl h
    obtain ⟨m, -, m2, m3⟩ := h2 0 2 ⟨by norm_num, rfl, by intro k _ _; interval_cases k; rfl⟩ (by simp [twoBlocks])
    have e := m2 0 (by norm_num)
    have e' : (4 : ℕ) = m := by simpa [twoBlocks] using e
    subst e'
    exact absurd rfl (m3 2 1 ⟨by norm_num, rfl, by intro k _ _; omega⟩ (by norm_num))

end Motive.Proc
