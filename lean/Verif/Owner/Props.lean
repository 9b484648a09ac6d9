import Verif.Owner.Calls
import Verif.Proc.Swap

/-!
# The parts of a matrix live and die with it

C79: whatever calls are made on matrices, on motivators that stand alone and on processors, in whatever order, the state is
the one of a program in which a matrix contains its operations and an operation contains its child, by value.

C80: what a reallocation of the slots of a processor does to them when `std::vector` copies instead of moving.
-/

namespace Motive.Owner

open Motive.Proc

variable {δ ρ κ : Type} {U : MotId → Bool} {cs : List (Call δ ρ κ)} {S S' : Sys δ ρ κ}

/-- After every history of allowed calls, reading matrices, their operations and the values of their children off the
processors gives what the calls mean on values that contain each other. -/
theorem C79_parts_by_value (h : History U cs S) : S.nested U = Nested.run cs := (history_good h).2

/-- No allowed call fails: no assertion, no dangling child. -/
theorem C79_never_fails (h : History U cs S) (c : Call δ ρ κ) (ha : S.Allowed U c) :
    ∃ S', S.step c = some S' ∧ History U (cs ++ [c]) S' := by
  obtain ⟨S', h1, -, -⟩ := step_refines (history_good h).1 c ha
  exact ⟨S', h1, .snoc h ha h1⟩

/-- Every valid motivator stands alone or is the child of exactly one operation of one dimension of one matrix. -/
theorem C79_one_owner (h : History U cs S) (a : MotId) (ha : S.leaves.valid a = true) :
    (U a = true ∧ ∀ m k j, S.addrAt m k j ≠ some a) ∨ (U a = false ∧ ∃! x : MotId × Nat × Nat, S.addrAt x.1 x.2.1 x.2.2 = some a) := by
  have hg := (history_good h).1
  have hat : ∀ {m k j}, S.addrAt m k j = some a → a ∈ addrs S.comps.view m := by
    intro m k j hx
    simp only [Sys.addrAt, Option.bind_eq_some_iff, Option.map_eq_some_iff] at hx
    obtain ⟨c, hc, i, hi, rfl⟩ := hx
    exact mem_addrsOf.mpr ⟨c, List.mem_of_getElem? hc, i, List.mem_of_getElem? hi, rfl⟩
  by_cases hU : U a = true
  · refine Or.inl ⟨hU, fun m k j hx => ?_⟩
    have := hg.owned.inner m a (hat hx)
    simp [hU] at this
  · right
    refine ⟨by simpa using hU, ?_⟩
    rw [valid_isSome hg.leaves] at ha
    obtain ⟨m, hm⟩ := (hg.owned.owned a (fun hc => by simp [hc] at ha)).resolve_left hU
    obtain ⟨c, hc, i, hi, hia⟩ := mem_addrsOf.mp (show a ∈ addrsOf (S.slots m) from hm)
    obtain ⟨k, hk⟩ := List.getElem?_of_mem hc
    obtain ⟨j, hj⟩ := List.getElem?_of_mem hi
    have hx : S.addrAt m k j = some a := by
      simp only [Sys.addrAt, Option.bind_eq_some_iff, Option.map_eq_some_iff]
      exact ⟨c, hk, i, hj, hia⟩
    refine ⟨(m, k, j), hx, ?_⟩
    rintro ⟨m', k', j'⟩ hx'
    have hm' : m' = m := hg.owned.disj m' m a (hat hx') (hat hx)
    subst hm'
    simp only [Sys.addrAt, Option.bind_eq_some_iff, Option.map_eq_some_iff] at hx'
    obtain ⟨c', hk', i', hj', hia'⟩ := hx'
    have hn := hg.owned.nodup m'
    change (addrsOf (S.slots m')).Nodup at hn
    unfold addrsOf at hn
    rw [List.nodup_flatMap] at hn
    have hkk : k' = k := by
      by_contra hne
      obtain ⟨l1, e1⟩ := List.getElem?_eq_some_iff.mp hk
      obtain ⟨l2, e2⟩ := List.getElem?_eq_some_iff.mp hk'
      have key : ∀ (x y : Nat) (hx : x < (S.slots m').length) (hy : y < (S.slots m').length), x < y →
          a ∈ ((S.slots m')[x]).addrs → a ∈ ((S.slots m')[y]).addrs → False := by
        intro x y hx hy hxy h1 h2
        exact (List.pairwise_iff_getElem.mp hn.2 x y hx hy hxy) h1 h2
      have m1 : a ∈ ((S.slots m')[k]).addrs := by rw [e1]; exact List.mem_map.mpr ⟨i, hi, hia⟩
      have m2 : a ∈ ((S.slots m')[k']).addrs := by rw [e2]; exact List.mem_map.mpr ⟨i', List.mem_of_getElem? hj', hia'⟩
      rcases Nat.lt_or_gt_of_ne hne with hlt | hlt
      · exact key k' k l2 l1 hlt m2 m1
      · exact key k k' l1 l2 hlt m1 m2
    subst hkk
    rw [hk] at hk'
    cases hk'
    have hjj : j' = j := by
      have hnd := hn.1 c hc
      unfold Comp.addrs at hnd
      have e1 : (c.items.map Item.addr)[j]? = some a := by rw [List.getElem?_map, hj]; simp [hia]
      have e2 : (c.items.map Item.addr)[j']? = some a := by rw [List.getElem?_map, hj']; simp [hia']
      exact (List.getElem?_inj (List.getElem?_eq_some_iff.mp e2).1 hnd).mp (e2.trans e1.symm)
    subst hjj
    rfl

/-- When no matrix is left, no child is left. -/
theorem C79_nothing_left (h : History U cs S) (hc : ∀ m, S.comps.valid m = false) (a : MotId) (ha : S.leaves.valid a = true) : U a = true := by
  rcases C79_one_owner h a ha with h1 | ⟨-, ⟨m, k, j⟩, hx, -⟩
  · exact h1.1
  · exfalso
    have hv := hc m
    rw [valid_isSome (history_good h).1.comps] at hv
    simp only [Sys.addrAt, Sys.slots] at hx
    cases hm : S.comps.view.vals m with
    | none => rw [hm] at hx; simp at hx
    | some x => rw [hm] at hv; simp at hv

/-- Invalidating a matrix invalidates its children and nothing else. -/
theorem C79_invalidate_children (h : History U cs S) (m : MotId) (hs : S.step (.invalidate m) = some S') (a : MotId) :
    S'.leaves.valid a = true ↔ S.leaves.valid a = true ∧ ∀ k j, S.addrAt m k j ≠ some a := by
  have hg := (history_good h).1
  obtain ⟨l, e1, e2, e3⟩ := runFrom_spec (S.leafOps (.invalidate m)) S.leaves hg.leaves
  have hl : S'.leaves = l := by
    unfold Sys.step at hs
    rw [e1] at hs
    simp only at hs
    split at hs
    · simp at hs
    · cases hs; rfl
  rw [hl, valid_isSome e2, valid_isSome hg.leaves, e3]
  change ((fold S.leaves.view (destroyAll (S.slots m))).vals a).isSome = true ↔ _
  rw [destroyAll_eq]
  have hiff : a ∈ addrsOf (S.slots m) ↔ ∃ k j, S.addrAt m k j = some a := by
    rw [mem_addrsOf]
    simp only [Sys.addrAt, Option.bind_eq_some_iff, Option.map_eq_some_iff]
    constructor
    · rintro ⟨c, hc, i, hi, hia⟩
      obtain ⟨k, hk⟩ := List.getElem?_of_mem hc
      obtain ⟨j, hj⟩ := List.getElem?_of_mem hi
      exact ⟨k, j, c, hk, i, hj, hia⟩
    · rintro ⟨k, j, c, hk, i, hj, hia⟩
      exact ⟨c, List.mem_of_getElem? hk, i, List.mem_of_getElem? hj, hia⟩
  by_cases hx : a ∈ addrsOf (S.slots m)
  · obtain ⟨k, j, hkj⟩ := hiff.mp hx
    simp only [if_pos hx, Option.isSome_none, Bool.false_eq_true, false_iff, not_and]
    exact fun _ hc => hc k j hkj
  · simp only [if_neg hx, iff_self_and]
    exact fun _ k j hkj => hx (hiff.mpr ⟨k, j, hkj⟩)

/-- The matrices a call is about. -/
def Call.about : Call δ ρ κ → List MotId
  | .init m .. | .invalidate m | .child m .. | .relocate m .. | .insert m .. => [m]
  | .moveAssign dst src | .moveConstruct dst src => [dst, src]
  | .clone dst _ _ => [dst]
  | _ => []

/-- A call that is neither a frame nor about a whole processor changes no matrix but those it is about: not their number of
operations, not the values of their children.  A clone does not change the original. -/
theorem C79_others_untouched (h : History U cs S) (c : Call δ ρ κ) (ha : S.Allowed U c) (hs : S.step c = some S')
    (hc : match c with | .leafFrame .. | .compFrame .. | .regrow .. | .destroyLeaf _ | .destroyComp _ => False | _ => True)
    (m : MotId) (hm : m ∉ c.about) : (S'.nested U).comps m = (S.nested U).comps m := by
  obtain ⟨S1, h1, -, h3⟩ := step_refines (history_good h).1 c ha
  rw [hs] at h1
  cases h1
  rw [h3]
  cases c <;> simp only [Call.about, List.mem_cons, List.not_mem_nil, or_false, not_or] at hm
  case createLeaf => simp only [Nested.step]; split <;> rfl
  case createComp => simp only [Nested.step]; split <;> rfl
  case leafFrame => exact absurd hc id
  case compFrame => exact absurd hc id
  case regrow => exact absurd hc id
  case destroyLeaf => exact absurd hc id
  case destroyComp => exact absurd hc id
  case user => rfl
  case init => simp [Nested.step, Nested.set, hm]
  case invalidate => simp [Nested.step, Nested.set, hm]
  case moveAssign => simp only [Nested.step]; split <;> simp [Nested.set, hm]
  case moveConstruct => simp [Nested.step, Nested.set, hm]
  case clone => simp [Nested.step, Nested.set, hm]
  case child => simp [Nested.step, Nested.atSlot, Nested.set, hm]
  case relocate => rfl
  case insert => simp [Nested.step, Nested.atSlot, Nested.set, hm]

/-- Motivators that stand alone change only by calls on them, by frames and by the destruction of their processor. -/
theorem C79_standing_untouched (h : History U cs S) (c : Call δ ρ κ) (ha : S.Allowed U c) (hs : S.step c = some S')
    (hc : match c with | .user _ | .leafFrame .. | .destroyLeaf _ => False | _ => True) (m : MotId) (hm : U m = true) :
    S'.leaves.view.vals m = S.leaves.view.vals m := by
  obtain ⟨S1, h1, -, h3⟩ := step_refines (history_good h).1 c ha
  rw [hs] at h1
  cases h1
  have : (S'.nested U).user m = (S.nested U).user m := by
    rw [h3]
    cases c
    case user => exact absurd hc id
    case leafFrame => exact absurd hc id
    case destroyLeaf => exact absurd hc id
    case createLeaf => simp only [Nested.step]; split <;> rfl
    case createComp => simp only [Nested.step]; split <;> rfl
    case moveAssign => simp only [Nested.step]; split <;> rfl
    all_goals rfl
  simpa [Sys.nested, hm] using this

/-- Defragmentation moves slots of matrices by swapping them, and cuts off the rest.  After every history, for each processor of
matrices, it succeeds, cuts off only empty slots (`callbacksR` fails otherwise), moves no child to another matrix and destroys none. -/
theorem C79_defragment (h : History U cs S) {p : ProcId} (hp : (S.comps.procs p).isSome) :
    ∃ w, S.comps.defragmentR (fun y => y) p = some w ∧ S.comps.defragment p = some w ∧ (Sys.nested U ⟨S.leaves, w⟩) = S.nested U ∧
      ∀ pr, w.procs p = some pr → pr.alloc.unused = [] := by
  obtain ⟨pr, hpr⟩ := Option.isSome_iff_exists.mp hp
  have hg := (history_good h).1
  obtain ⟨w, pr', e1, e2, e3, e4, e5, e6⟩ := defragment_spec' hg.comps hpr
  refine ⟨w, by rw [defragment_swap hg.comps hg.clean hpr rfl, e1], e1, ?_, ?_⟩
  · simp only [Sys.nested, e3]
  · intro pr2 h2
    rw [e4] at h2
    cases h2
    exact e5

theorem map_self_iff {β : Type} {f : β → β} {l : List β} : l.map f = l ↔ ∀ x ∈ l, f x = x := by
  induction l with
  | nil => simp
  | cons x l ih => simp [ih]

/-- C80.  A reallocation that copies changes nothing exactly if every child of a matrix of that processor is driven by a
processor that supports cloning. -/
theorem C80_growth_by_copy (h : History U cs S) (p : ProcId) (σ : MotId → MotId) (ha : S.Allowed U (.regrow p σ))
    (hs : S.step (.regrow p σ) = some S') :
    S'.nested U = S.nested U ↔
      ∀ m l c i q v, (S.nested U).comps m = some (p, l) → c ∈ l → i ∈ c.items → i.value = some (q, v) →
        (S.nested U).leafProcs q = some true := by
  obtain ⟨S1, h1, -, h3⟩ := step_refines (history_good h).1 (.regrow p σ) ha
  rw [hs] at h1
  cases h1
  rw [h3]
  generalize S.nested U = N
  constructor
  · intro he m l c i q v hm hc hi hv
    have hcm := congrFun (congrArg Nested.comps he) m
    simp only [Nested.step, Nested.mapComps, hm, Option.map_some, if_true, Option.some.injEq, Prod.mk.injEq, true_and] at hcm
    have h4 := map_self_iff.mp hcm c hc
    have h5 : c.items.map (fun i => (⟨i.info, copied N.leafProcs i.value⟩ : NItem δ κ)) = c.items := congrArg NComp.items h4
    have h6 := congrArg NItem.value (map_self_iff.mp h5 i hi)
    simp only [hv, copied, Option.filter_some] at h6
    by_contra hq
    rw [if_neg (by simpa using hq)] at h6
    simp at h6
  · intro hall
    ext1
    · rfl
    · rfl
    · rfl
    · funext m
      simp only [Nested.step, Nested.mapComps]
      cases hm : N.comps m with
      | none => rfl
      | some x =>
        obtain ⟨q, l⟩ := x
        simp only [Option.map_some, Option.some.injEq, Prod.mk.injEq, true_and]
        refine map_self_iff.mpr fun c hc => ?_
        split
        · rename_i hq
          subst hq
          obtain ⟨r, items⟩ := c
          simp only [NComp.mapValues]
          congr 1
          refine map_self_iff.mpr fun i hi => ?_
          obtain ⟨info, value⟩ := i
          simp only
          congr 1
          cases value with
          | none => rfl
          | some y =>
            simp only [copied, Option.filter_some]
            rw [if_pos]
            rw [hall m l ⟨r, items⟩ ⟨info, some y⟩ y.1 y.2 hm hc hi rfl]
            rfl
        · rfl

/-- C80.  What such a reallocation loses: the child of an operation is dropped, and only its constant is left. -/
theorem C80_lost_child (h : History U cs S) (p : ProcId) (σ : MotId → MotId) (ha : S.Allowed U (.regrow p σ))
    (hs : S.step (.regrow p σ) = some S') {m : MotId} {l : List (NComp δ ρ κ)} {k j : Nat} {c : NComp δ ρ κ} {i : NItem δ κ} {q : ProcId} {v : List δ}
    (hm : (S.nested U).comps m = some (p, l)) (hk : l[k]? = some c) (hj : c.items[j]? = some i) (hv : i.value = some (q, v))
    (hq : (S.nested U).leafProcs q ≠ some true) :
    ∃ l' c', (S'.nested U).comps m = some (p, l') ∧ l'[k]? = some c' ∧ c'.items[j]? = some ⟨i.info, none⟩ := by
  obtain ⟨S1, h1, -, h3⟩ := step_refines (history_good h).1 (.regrow p σ) ha
  rw [hs] at h1
  cases h1
  rw [h3]
  refine ⟨l.map (NComp.mapValues (copied (S.nested U).leafProcs)), c.mapValues (copied (S.nested U).leafProcs),
    by simp only [Nested.step, Nested.mapComps, hm, Option.map_some, if_true], by rw [List.getElem?_map, hk]; rfl, ?_⟩
  simp only [NComp.mapValues, List.getElem?_map, hj, Option.map_some, hv, copied, Option.filter_some]
  rw [if_neg (by simpa using hq)]

/-! ## Concrete cases -/

/-- A call that is not about `m` does not make it valid. -/
theorem step_none (N : Nested δ ρ κ) (c : Call δ ρ κ) {m : MotId} (hm : m ∉ c.about) (h : N.comps m = none) : (N.step c).comps m = none := by
  cases c <;> simp only [Call.about, List.mem_cons, List.not_mem_nil, or_false, not_or] at hm
  case createLeaf => simp only [Nested.step]; split <;> exact h
  case createComp => simp only [Nested.step]; split <;> exact h
  case leafFrame => simp only [Nested.step]; split <;> simp [Nested.mapComps, h]
  case compFrame => simp [Nested.step, Nested.mapComps, h]
  case regrow => simp [Nested.step, Nested.mapComps, h]
  case destroyLeaf => simp [Nested.step, Nested.mapComps, h]
  case destroyComp => simp [Nested.step, h]
  case user => exact h
  case init => simp [Nested.step, Nested.set, hm, h]
  case invalidate => simp [Nested.step, Nested.set, hm, h]
  case moveAssign => simp only [Nested.step]; split <;> simp [Nested.set, hm, h]
  case moveConstruct => simp [Nested.step, Nested.set, hm, h]
  case clone => simp [Nested.step, Nested.set, hm, h]
  case child => simp [Nested.step, Nested.atSlot, Nested.set, hm, h]
  case relocate => exact h
  case insert => simp [Nested.step, Nested.atSlot, Nested.set, hm, h]

theorem history_comps (h : History U cs S) {m : MotId} (hm : ∀ c ∈ cs, m ∉ c.about) : (S.nested U).comps m = none := by
  induction h with
  | nil => simp [Sys.nested, Sys.init, view_empty, Abs.empty]
  | snoc h0 ha hs ih =>
    obtain ⟨S1, h1, -, h3⟩ := step_refines (history_good h0).1 _ ha
    rw [hs] at h1
    cases h1
    rw [h3]
    exact step_none _ _ (hm _ (by simp)) (ih fun c hc => hm c (by simp [hc]))

theorem history_none (h : History U cs S) {m : MotId} (hm : ∀ c ∈ cs, m ∉ c.about) : S.slots m = [] := by
  have := history_comps h hm
  simp only [Sys.nested, Option.map_eq_none_iff] at this
  simp [Sys.slots, this]

/-- `Sys.Free`, looking at the matrices below `n`. -/
def Sys.freeB (U : MotId → Bool) (n : Nat) (S : Sys δ ρ κ) (a : MotId) : Bool :=
  !U a && (List.range n).all fun m => !(addrsOf (S.slots m)).contains a

def Sys.copiesB (U : MotId → Bool) (n : Nat) (S : Sys δ ρ κ) (as : List MotId) (σ : MotId → MotId) : Bool :=
  as.all (fun a => S.freeB U n (σ a)) && as.all fun a => as.all fun b => !(σ a == σ b) || a == b

def standingB (U : MotId → Bool) : Op δ → Bool
  | .initialize m _ _ | .invalidate m | .write m _ _ => U m
  | .moveAssign dst src | .moveConstruct dst src => U dst && U src
  | .cloneFrom dst src => U dst && src.all U
  | _ => false

/-- `Sys.Allowed`, looking at the matrices below `n`. -/
def Sys.allowedB (U : MotId → Bool) (n : Nat) (S : Sys δ ρ κ) : Call δ ρ κ → Bool
  | .user op => standingB U op
  | .init _ p slots => (S.comps.procs p).isSome && !slots.isEmpty && decide (slots.flatMap fun s => s.2.map Part.addr).Nodup &&
      slots.all fun s => s.2.all fun x => S.freeB U n x.addr
  | .moveConstruct dst src => !(dst == src) && !S.comps.valid dst
  | .clone _ src σ => S.copiesB U n (addrsOf (S.slots src)) σ
  | .child m k j _ _ => (S.addrAt m k j).isSome
  | .relocate m k j addr => (S.addrAt m k j).isSome && S.freeB U n addr
  | .insert m k j new => ((S.slots m)[k]?.any fun c => decide (j ≤ c.items.length)) && S.freeB U n new.addr
  | .regrow p σ => (S.comps.procs p).isSome && S.copiesB U n (addrsOf (S.data p)) σ
  | _ => true

theorem allowedB_spec {n : Nat} (hfar : ∀ m, n ≤ m → S.slots m = []) (c : Call δ ρ κ) (h : S.allowedB U n c = true) : S.Allowed U c := by
  have hf : ∀ a, S.freeB U n a = true → S.Free U a := by
    intro a ha
    simp only [Sys.freeB, Bool.and_eq_true, Bool.not_eq_true', List.all_eq_true, List.mem_range] at ha
    refine ⟨ha.1, fun m hm => ?_⟩
    by_cases hn : m < n
    · have := ha.2 m hn
      rw [List.contains_iff_mem.mpr hm] at this
      simp at this
    · rw [hfar m (Nat.le_of_not_lt hn)] at hm
      simp [addrsOf] at hm
  have hc : ∀ as σ, S.copiesB U n as σ = true → S.Copies U as σ := by
    intro as σ ha
    simp only [Sys.copiesB, Bool.and_eq_true, List.all_eq_true, Bool.or_eq_true, Bool.not_eq_true', beq_eq_false_iff_ne, ne_eq, beq_iff_eq] at ha
    exact ⟨fun a h1 => hf _ (ha.1 a h1), fun a h1 b h2 h3 => (ha.2 a h1 b h2).resolve_left (fun hn => hn h3)⟩
  cases c <;> simp only [Sys.allowedB, Bool.and_eq_true, Bool.not_eq_true', decide_eq_true_eq, beq_eq_false_iff_ne, List.all_eq_true] at h <;>
    simp only [Sys.Allowed]
  case user op =>
    cases op <;> simp_all [standingB, Standing]
    intro m hm
    rw [hm] at h
    exact h.2
  case init => exact ⟨h.1.1.1, by simpa using h.1.1.2, h.1.2, fun s hs x hx => hf _ (h.2 s hs x hx)⟩
  case moveConstruct => exact h
  case clone => exact hc _ _ h
  case child => exact h
  case relocate => exact ⟨h.1, hf _ h.2⟩
  case insert m k j new =>
    refine ⟨?_, hf _ h.2⟩
    cases hs : (S.slots m)[k]? with
    | none => rw [hs] at h; simp at h
    | some c => rw [hs] at h; exact ⟨c, rfl, by simpa using h.1⟩
  case regrow => exact ⟨h.1, hc _ _ h.2⟩

/-- A run of calls on matrices below `n`, with the conditions checked. -/
def Sys.check (U : MotId → Bool) (n : Nat) (S : Sys δ ρ κ) : List (Call δ ρ κ) → Option (Sys δ ρ κ)
  | [] => some S
  | c :: cs => if S.allowedB U n c && c.about.all fun m => decide (m < n) then (S.step c).bind fun S => S.check U n cs else none

theorem history_check {n : Nat} : ∀ (cs : List (Call δ ρ κ)) {S0 S : Sys δ ρ κ} {cs0 : List (Call δ ρ κ)}, History U cs0 S0 →
    (∀ c ∈ cs0, ∀ m ∈ c.about, m < n) → S0.check U n cs = some S → History U (cs0 ++ cs) S := by
  intro cs
  induction cs with
  | nil => intro S0 S cs0 h _ hr; simp only [Sys.check, Option.some.injEq] at hr; subst hr; simpa using h
  | cons c cs ih =>
    intro S0 S cs0 h hb hr
    simp only [Sys.check] at hr
    split at hr
    · rename_i hc
      simp only [Bool.and_eq_true, List.all_eq_true, decide_eq_true_eq] at hc
      simp only [Option.bind_eq_some_iff] at hr
      obtain ⟨S1, h1, h2⟩ := hr
      have hfar : ∀ m, n ≤ m → S0.slots m = [] := fun m hm => history_none h fun c' hc' hx => by
        exact absurd (hb c' hc' m hx) (Nat.not_lt.mpr hm)
      have := ih (.snoc h (allowedB_spec hfar c hc.1) h1) (fun c' hc' m hx => by
        rcases List.mem_append.mp hc' with h3 | h3
        · exact hb c' h3 m hx
        · simp only [List.mem_singleton] at h3; subst h3; exact hc.2 m hx) h2
      simpa using this
    · simp at hr

/-- Even addresses are those of motivators that stand alone. -/
def evens : MotId → Bool := fun a => a % 2 == 0

/-- Splines are processor 0, springs are processor 1, which do not support cloning; a motivator that stands alone; a matrix of
two dimensions with three operations; the second is a constant; a clone of it, of which an operation is changed and to which
one is added. -/
def exampleCalls : List (Call Int Int Nat) :=
  [.createLeaf 0 0 true, .createLeaf 1 0 false, .createComp 0 100 true, .user (.initialize 2 0 [7]),
   .init 0 0 [(0, [⟨10, 1, some (0, [5])⟩, ⟨11, 3, none⟩]), (0, [⟨12, 5, some (0, [6])⟩])],
   .clone 1 0 (fun a => a + 10), .child 1 0 0 20 (.write 0 50), .insert 1 0 1 ⟨21, 21, some (0, [8])⟩, .relocate 1 0 0 23,
   .leafFrame 0 (fun v => v + 1), .compFrame 0 (fun _ l => (l.map fun x => (x.2.map fun y => y.2.sum).getD 0).sum)]

def exampleState : Sys Int Int Nat := (Sys.check evens 4 Sys.init exampleCalls).getD Sys.init

theorem example_history : History evens exampleCalls exampleState := by
  have : Sys.check evens 4 (Sys.init : Sys Int Int Nat) exampleCalls = some exampleState := by rfl
  simpa using history_check exampleCalls .nil (by simp) this

/-- What is there, as lists. -/
def Nested.show (N : Nested Int Int Nat) (m : MotId) : Option (ProcId × List (Int × List (Nat × Option (ProcId × List Int)))) :=
  (N.comps m).map fun x => (x.1, x.2.map fun c => (c.result, c.items.map fun i => (i.info, i.value)))

example : (exampleState.nested evens).show 0 = some (0, [(6, [(10, some (0, [6])), (11, none)]), (7, [(12, some (0, [7]))])]) := by rfl
example : (exampleState.nested evens).show 1 =
    some (0, [(60, [(20, some (0, [51])), (21, some (0, [9])), (11, none)]), (7, [(12, some (0, [7]))])]) := by rfl
example : (exampleState.nested evens).user 2 = some (0, [8]) := by decide +kernel

example : (exampleState.comps.procs 0).isSome := by rfl

/-- The original is moved over the clone, and is invalidated: all children are gone, the other motivator is not. -/
def exampleEnd : List (Call Int Int Nat) := [.moveAssign 1 0, .regrow 0 (fun a => a + 100), .invalidate 1]

def exampleLast : Sys Int Int Nat := (Sys.check evens 4 exampleState exampleEnd).getD Sys.init

theorem example_last : History evens (exampleCalls ++ exampleEnd) exampleLast :=
  history_check (n := 4) exampleEnd example_history (by simp [exampleCalls, Call.about]) (by rfl)

example : (∀ m, exampleLast.comps.valid m = false) ∧ exampleLast.leaves.valid 2 = true ∧ exampleLast.leaves.valid 1 = false := by
  refine ⟨fun m => ?_, by decide +kernel, by decide +kernel⟩
  have hm : (exampleLast.nested evens).comps m = none := by
    by_cases h1 : m = 1
    · subst h1; rfl
    · by_cases h0 : m = 0
      · subst h0; rfl
      · exact history_comps example_last (by simp [exampleCalls, exampleEnd, Call.about, h0, h1])
  rw [valid_isSome (history_good example_last).1.comps]
  simpa [Sys.nested] using hm

/-- C80.  A matrix whose operation is driven by a spring loses the spring when the storage of matrices is reallocated by
copying. -/
def springCalls : List (Call Int Int Nat) :=
  [.createLeaf 0 0 true, .createLeaf 1 0 false, .createComp 0 100 true, .init 0 0 [(0, [⟨10, 1, some (1, [5])⟩, ⟨11, 3, some (0, [6])⟩])]]

def springState : Sys Int Int Nat := (Sys.check evens 4 Sys.init springCalls).getD Sys.init

theorem spring_history : History evens springCalls springState := by
  simpa using history_check (n := 4) springCalls .nil (by simp) (S := springState) (by rfl)

theorem C80_fails_for_springs : ∃ S', springState.Allowed evens (.regrow 0 (fun a => a + 100)) ∧ springState.step (.regrow 0 (fun a => a + 100)) = some S' ∧
    (springState.nested evens).show 0 = some (0, [(0, [(10, some (1, [5])), (11, some (0, [6]))])]) ∧
    (S'.nested evens).show 0 = some (0, [(0, [(10, none), (11, some (0, [6]))])]) := by
  refine ⟨((springState.step (.regrow 0 (fun a => a + 100))).getD springState), ?_, by rfl, by rfl, by rfl⟩
  refine allowedB_spec (n := 4) (fun m hm => history_none spring_history ?_) _ (by decide +kernel)
  have : m ≠ 0 := Nat.ne_of_gt (Nat.lt_of_lt_of_le (by decide) hm)
  simp [springCalls, Call.about, this]

end Motive.Owner
