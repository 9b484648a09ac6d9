import Verif.Owner.Refine

/-! What each call does to both levels, and that every allowed call succeeds and means what `Nested.step` says. -/

namespace Motive.Owner

open Motive.Proc

variable {δ ρ κ : Type} {U : MotId → Bool}

/-- What a call does to both levels. -/
def Means (U : MotId → Bool) (A : Abs δ) (B : Abs (Comp ρ κ)) (A' : Abs δ) (B' : Abs (Comp ρ κ)) (c : Call δ ρ κ) : Prop :=
  Owned U A' B' ∧ nestedOf U A' B' = (nestedOf U A B).step c

theorem set_none_same {A : Abs δ} {B : Abs (Comp ρ κ)} {m : MotId} (h : B.vals m = none) :
    (nestedOf U A B).set m none = nestedOf U A B := by
  ext1
  · rfl
  · rfl
  · rfl
  · funext x
    simp only [Nested.set, nestedOf]
    split
    · rename_i hx; subst hx; rw [h]; rfl
    · rfl

theorem destroyAll_eq (l : List (Comp ρ κ)) (A : Abs δ) :
    fold A (destroyAll l) = ⟨A.procs, fun a => if a ∈ addrsOf l then none else A.vals a⟩ := fold_invalidate _ A

/-- A matrix is invalidated. -/
theorem abs_invalidate {A : Abs δ} {B : Abs (Comp ρ κ)} (h : Owned U A B) (m : MotId) :
    Owned U (fold A (destroyAll (((B.vals m).map Prod.snd).getD []))) (B.set m none) ∧
    nestedOf U (fold A (destroyAll (((B.vals m).map Prod.snd).getD []))) (B.set m none) = (nestedOf U A B).set m none := by
  rw [destroyAll_eq]
  refine h.update (v := none) rfl (by simp [addrsIn, addrsOf]) (fun a ha => by simp [addrsIn, addrsOf] at ha) ?_ ?_
  · intro a ha _; exact if_pos ha
  · intro a ha _; exact if_neg ha

theorem abs_init {S : Sys δ ρ κ} (h : Good U S) {m : MotId} {p : ProcId} {slots : List (ρ × List (Part δ κ))}
    (ha : S.Allowed U (.init m p slots)) :
    Means U S.leaves.view S.comps.view (fold S.leaves.view (S.leafOps (.init m p slots)))
      (fold S.comps.view (S.compOps (.init m p slots))) (.init m p slots) := by
  obtain ⟨h1, h2, h3, h4⟩ := ha
  have hps : (S.comps.view.procs p).isSome := by simpa [World.view] using h1
  have hB : fold S.comps.view (S.compOps (.init m p slots)) = S.comps.view.set m (some (p, newSlots slots)) := by
    simp only [fold, Sys.compOps, List.foldl_cons, List.foldl_nil, absStep]
    rw [if_pos ⟨hps, by simpa [newSlots, List.length_pos_iff] using h2⟩]
  have hnew : addrsIn (some (p, newSlots slots)) = (slots.flatMap Prod.snd).map Part.addr := by
    simp [addrsIn, newSlots, addrsOf, Comp.addrs, List.flatMap_map, List.map_flatMap, Part.item, Function.comp_def]
  have hops : createAll slots = (slots.flatMap Prod.snd).flatMap Part.create := by
    simp [createAll, List.flatMap_assoc]
  have hfree : ∀ x ∈ slots.flatMap Prod.snd, S.Free U x.addr := by
    intro x hx
    obtain ⟨s, hs, hx⟩ := List.mem_flatMap.mp hx
    exact h4 s hs x hx
  have hnd : ((slots.flatMap Prod.snd).map Part.addr).Nodup := by rw [List.map_flatMap]; exact h3
  unfold Means
  rw [hB]
  simp only [Sys.leafOps]
  rw [fold_append, destroyAll_eq, hops]
  obtain ⟨c1, c2, c3⟩ := fold_create (slots.flatMap Prod.snd)
    (⟨S.leaves.view.procs, fun a => if a ∈ addrsOf (S.slots m) then none else S.leaves.view.vals a⟩ : Abs δ) hnd (fun x hx => by
      simp only
      split
      · rfl
      · exact free_none h.owned (hfree x hx))
  generalize hA' : fold (⟨S.leaves.view.procs, fun a => if a ∈ addrsOf (S.slots m) then none else S.leaves.view.vals a⟩ : Abs δ)
    ((slots.flatMap Prod.snd).flatMap Part.create) = A' at c1 c2 c3
  have hu := h.owned.update (A' := A') (m := m) (v := some (p, newSlots slots)) c1 (by rw [hnew]; exact hnd) ?_ ?_ ?_
  · obtain ⟨u1, u2⟩ := hu
    refine ⟨u1, u2.trans ?_⟩
    simp only [Nested.step, Option.map_some]
    congr 3
    simp only [newSlots, nest, List.map_map]
    refine List.map_congr_left fun s hs => ?_
    simp only [Function.comp, List.map_map]
    congr 1
    refine List.map_congr_left fun x hx => ?_
    simp only [Function.comp, Part.item]
    rw [c2 x (List.mem_flatMap.mpr ⟨s, hs, hx⟩)]
    rfl
  · intro a hx
    rw [hnew] at hx
    obtain ⟨x, hy, rfl⟩ := List.mem_map.mp hx
    exact ⟨(hfree x hy).1, fun m' _ => (hfree x hy).2 m'⟩
  · intro a hx hy
    rw [hnew] at hy
    rw [c3 a hy]
    exact if_pos hx
  · intro a hx hy
    rw [hnew] at hy
    rw [c3 a hy]
    exact if_neg hx

theorem abs_moveAssign {S : Sys δ ρ κ} (h : Good U S) (d s : MotId) :
    Means U S.leaves.view S.comps.view (fold S.leaves.view (S.leafOps (.moveAssign d s)))
      (fold S.comps.view (S.compOps (.moveAssign d s))) (.moveAssign d s) := by
  obtain ⟨u1, u2⟩ := abs_invalidate h.owned d
  unfold Means
  simp only [Sys.leafOps, Sys.compOps, Nested.step]
  by_cases hds : d = s
  · rw [if_pos hds, show fold S.comps.view [.moveAssign d s] = S.comps.view.set d none from by simp [fold, absStep, hds]]
    exact ⟨u1, u2⟩
  · rw [if_neg hds]
    obtain ⟨v1, v2⟩ := u1.move hds (by simp [Abs.set])
    have e : fold S.comps.view [.moveAssign d s] =
        ((S.comps.view.set d none).set d ((S.comps.view.set d none).vals s)).set s none := by
      simp only [fold, List.foldl_cons, List.foldl_nil, absStep, if_neg hds, Abs.set_set]
      congr 2
      simp [Abs.set, Ne.symm hds]
    rw [e]
    refine ⟨v1, v2.trans ?_⟩
    rw [u2]
    ext1
    · rfl
    · rfl
    · rfl
    · funext x
      simp only [Nested.set]
      by_cases hx : x = s
      · simp [hx]
      · by_cases hy : x = d <;> simp [hx, hy, Ne.symm hds]

theorem abs_moveConstruct {S : Sys δ ρ κ} (h : Good U S) {d s : MotId} (ha : S.Allowed U (.moveConstruct d s)) :
    Means U S.leaves.view S.comps.view (fold S.leaves.view (S.leafOps (.moveConstruct d s)))
      (fold S.comps.view (S.compOps (.moveConstruct d s))) (.moveConstruct d s) := by
  obtain ⟨h1, h2⟩ := ha
  have hd : S.comps.view.vals d = none := by
    rw [valid_isSome h.comps] at h2
    simpa using h2
  obtain ⟨v1, v2⟩ := h.owned.move h1 hd
  unfold Means
  rw [show fold S.comps.view (S.compOps (.moveConstruct d s)) = (S.comps.view.set d (S.comps.view.vals s)).set s none from by
    simp [fold, Sys.compOps, absStep, h1, hd]]
  exact ⟨v1, v2⟩

theorem abs_clone {S : Sys δ ρ κ} (h : Good U S) {d s : MotId} {σ : MotId → MotId} (ha : S.Allowed U (.clone d s σ)) :
    Means U S.leaves.view S.comps.view (fold S.leaves.view (S.leafOps (.clone d s σ)))
      (fold S.comps.view (S.compOps (.clone d s σ))) (.clone d s σ) := by
  obtain ⟨hfree, hinj⟩ := ha
  obtain ⟨u1, u2⟩ := abs_invalidate h.owned d
  have hfold : ∀ op ops, fold S.comps.view (op :: ops) = fold (absStep op S.comps.view) ops := fun _ _ => rfl
  unfold Means
  simp only [Sys.leafOps, Sys.compOps, Nested.step]
  cases hcl : S.clones d s with
  | false =>
    simp only [Bool.false_eq_true, if_false, List.append_nil]
    rw [hfold]
    have e : absStep (.cloneFrom d (some s)) S.comps.view = S.comps.view.set d none ∧
        (if d = s then none else (((nestedOf U S.leaves.view S.comps.view).comps s).filter fun x =>
          (nestedOf U S.leaves.view S.comps.view).compProcs x.1 == some true).map fun x =>
          (x.1, x.2.map (NComp.mapValues (copied (nestedOf U S.leaves.view S.comps.view).leafProcs)))) = none := by
      simp only [absStep, nestedOf]
      by_cases hds : d = s
      · simp [hds]
      · simp only [if_neg hds]
        simp only [Sys.clones, hds, ne_eq, not_false_eq_true, decide_true, Bool.true_and] at hcl
        cases hv : S.comps.view.vals s with
        | none => simp
        | some x =>
          rw [hv] at hcl
          simp only [Option.any_some, beq_eq_false_iff_ne, ne_eq] at hcl
          simp [hcl]
    rw [e.1, e.2]
    exact ⟨u1, u2⟩
  | true =>
    simp only [Sys.clones, Bool.and_eq_true, decide_eq_true_eq] at hcl
    obtain ⟨hds, hany⟩ := hcl
    cases hv : S.comps.view.vals s with
    | none => rw [hv] at hany; simp at hany
    | some x =>
      obtain ⟨p, l⟩ := x
      rw [hv] at hany
      simp only [Option.any_some, beq_iff_eq] at hany
      have hslots : S.slots s = l := by unfold Sys.slots; rw [hv]; rfl
      rw [hslots] at hfree hinj ⊢
      simp only [if_true]
      -- the matrices
      have hB : fold S.comps.view (.cloneFrom d (some s) :: l.zipIdx.map fun x => .write d x.2 (x.1.rename σ)) =
          S.comps.view.set d (some (p, l.map (Comp.rename σ))) := by
        rw [hfold]
        have e1 : absStep (.cloneFrom d (some s)) S.comps.view = S.comps.view.set d (some (p, l)) := by
          simp [absStep, hds, hv, hany]
        have e2 : (l.zipIdx.map fun x => (.write d x.2 (x.1.rename σ) : Op (Comp ρ κ))) =
            ((l.map (Comp.rename σ)).zipIdx ([] : List (Comp ρ κ)).length).map fun x => .write d x.2 x.1 := by
          rw [List.zipIdx_map, List.map_map]
          rfl
        rw [e1, e2, fold_writes d p (l.map (Comp.rename σ)) [] l _ (by simp) (by simp [Abs.set])]
        rw [Abs.set_set]
        rfl
      rw [hB, fold_append, destroyAll_eq]
      -- the children
      have hnotd : ∀ a ∈ addrsOf l, a ∉ addrsOf (S.slots d) := fun a ha hc =>
        hds (h.owned.disj d s a hc (by rw [addrs_some hv]; exact ha))
      have hσ : ∀ a ∈ addrsOf l, σ a ∉ addrsOf l := fun a ha hc => (hfree a ha).2 s (by rw [hslots]; exact hc)
      obtain ⟨c1, c2, c3⟩ := fold_clone σ S.leaves.valid (addrsOf l)
        (⟨S.leaves.view.procs, fun a => if a ∈ addrsOf (S.slots d) then none else S.leaves.view.vals a⟩ : Abs δ) hinj
        (fun a ha b hb hc => hσ a ha (hc ▸ hb)) (fun a ha => by
          simp only [if_neg (hnotd a ha)]
          exact valid_isSome h.leaves a)
      unfold cloneAll
      generalize hA' : fold (⟨S.leaves.view.procs, fun a => if a ∈ addrsOf (S.slots d) then none else S.leaves.view.vals a⟩ : Abs δ)
        ((addrsOf l).map fun a => .cloneFrom (σ a) (if S.leaves.valid a then some a else none)) = A' at c1 c2 c3
      have hin : addrsIn (some (p, l.map (Comp.rename σ))) = (addrsOf l).map σ := by
        rw [← addrsOf_rename]; rfl
      have hu := h.owned.update (A' := A') (m := d) (v := some (p, l.map (Comp.rename σ))) c1 ?_ ?_ ?_ ?_
      · obtain ⟨w1, w2⟩ := hu
        refine ⟨w1, w2.trans ?_⟩
        simp only [Option.map_some, if_neg hds, nestedOf, hv, Option.filter_some, hany, beq_self_eq_true, if_true]
        congr 3
        rw [nest_rename, ← nest_map]
        refine nest_congr fun a ha => ?_
        rw [c2 a ha]
        simp only [if_neg (hnotd a ha)]
      · rw [hin]
        have := h.owned.nodup s
        rw [addrs_some hv] at this
        exact this.map_on fun a ha b hb => hinj a ha b hb
      · intro a hx
        rw [hin] at hx
        obtain ⟨b, hb, rfl⟩ := List.mem_map.mp hx
        exact ⟨(hfree b hb).1, fun m' _ => (hfree b hb).2 m'⟩
      · intro a hx hy
        rw [hin] at hy
        rw [c3 a (fun b hb hc => hy (hc ▸ List.mem_map_of_mem hb))]
        exact if_pos hx
      · intro a hx hy
        rw [hin] at hy
        rw [c3 a (fun b hb hc => hy (hc ▸ List.mem_map_of_mem hb))]
        exact if_neg hx

/-- One operation is edited, moved or inserted. -/
theorem edit_ops (A : Abs δ) (a : MotId) (e : Edit δ) : fold A (e.ops a) = A.set a (e.apply A.procs (A.vals a)) := by
  cases e with
  | keep => exact (Abs.set_same rfl).symm
  | drop => rfl
  | init p vals =>
    simp only [Edit.ops, Edit.apply, fold, List.foldl_cons, List.foldl_nil, absStep]
    split
    · rfl
    · exact (Abs.set_same rfl).symm
  | write off v =>
    simp only [Edit.ops, Edit.apply, fold, List.foldl_cons, List.foldl_nil, absStep]
    cases hv : A.vals a with
    | none => exact (Abs.set_same hv).symm
    | some x =>
      obtain ⟨p, l⟩ := x
      simp only [Option.map_some]
      split
      · rfl
      · rename_i h
        rw [List.set_eq_of_length_le (by omega)]
        exact (Abs.set_same hv).symm

/-- Where the `j`-th operation of slot `k` of `m` is. -/
theorem addrAt_split {S : Sys δ ρ κ} {m : MotId} {k j : Nat} (h : (S.addrAt m k j).isSome) :
    ∃ p pre r ipre i ipost post, S.comps.view.vals m = some (p, pre ++ ⟨r, ipre ++ [i] ++ ipost⟩ :: post) ∧
      pre.length = k ∧ ipre.length = j ∧ S.addrAt m k j = some i.addr := by
  obtain ⟨a, ha⟩ := Option.isSome_iff_exists.mp h
  have ha0 := ha
  unfold Sys.addrAt Sys.slots at ha
  cases hv : S.comps.view.vals m with
  | none => rw [hv] at ha; simp at ha
  | some x =>
    obtain ⟨p, l⟩ := x
    rw [hv] at ha
    simp only [Option.map_some, Option.getD_some, Option.bind_eq_some_iff, Option.map_eq_some_iff] at ha
    obtain ⟨c, hc, i, hi, rfl⟩ := ha
    obtain ⟨pre, post, rfl, hk⟩ := split_at hc
    obtain ⟨ipre, ipost, hij, hj⟩ := split_at hi
    refine ⟨p, pre, c.result, ipre, i, ipost, post, ?_, hk, hj, ha0⟩
    have : c = ⟨c.result, ipre ++ [i] ++ ipost⟩ := by
      cases c; simp only at hij; simp [hij]
    rw [← this]

theorem rewrite_spec {S : Sys δ ρ κ} {m : MotId} {p : ProcId} {pre post : List (Comp ρ κ)} {c : Comp ρ κ}
    (hm : S.comps.view.vals m = some (p, pre ++ c :: post)) (f : List (Item κ) → List (Item κ)) :
    fold S.comps.view (S.rewrite m pre.length f) = S.comps.view.set m (some (p, pre ++ ⟨c.result, f c.items⟩ :: post)) := by
  have : S.slots m = pre ++ c :: post := by unfold Sys.slots; rw [hm]; rfl
  unfold Sys.rewrite
  rw [this]
  simp [fold, absStep, hm]

theorem atSlot_spec {A : Abs δ} {B : Abs (Comp ρ κ)} {m : MotId} {p : ProcId} {pre post : List (Comp ρ κ)} {c : Comp ρ κ}
    (hm : B.vals m = some (p, pre ++ c :: post)) (f : List (NItem δ κ) → List (NItem δ κ)) :
    (nestedOf U A B).atSlot m pre.length f =
      (nestedOf U A B).set m (some (p, nest A.vals pre ++ ⟨c.result, f (nestItems A.vals c.items)⟩ :: nest A.vals post)) := by
  unfold Nested.atSlot
  have e : (nestedOf U A B).comps m = some (p, nest A.vals pre ++ ⟨c.result, nestItems A.vals c.items⟩ :: nest A.vals post) := by
    simp [nestedOf, hm, nest, nestItems]
  rw [e]
  have hl : pre.length = (nest A.vals pre).length := by simp [nest]
  rw [Option.map_some, hl, modify_mid]

theorem abs_child {S : Sys δ ρ κ} (h : Good U S) {m : MotId} {k j : Nat} {info : κ} {e : Edit δ} (ha : S.Allowed U (.child m k j info e)) :
    Means U S.leaves.view S.comps.view (fold S.leaves.view (S.leafOps (.child m k j info e)))
      (fold S.comps.view (S.compOps (.child m k j info e))) (.child m k j info e) := by
  obtain ⟨p, pre, r, ipre, i, ipost, post, hm, rfl, rfl, hat⟩ := addrAt_split ha
  unfold Means
  simp only [Sys.leafOps, Sys.compOps, Nested.step]
  rw [hat, Option.elim_some, edit_ops, rewrite_spec hm, atSlot_spec hm]
  simp only [List.append_assoc, List.singleton_append, modify_mid]
  have hu := edit_slot (A' := S.leaves.view.set i.addr (e.apply S.leaves.view.procs (S.leaves.view.vals i.addr)))
    (mid' := [⟨info, i.addr⟩]) h.owned hm rfl ?_ ?_ ?_ ?_
  · obtain ⟨u1, u2⟩ := hu
    simp only [List.append_assoc, List.singleton_append] at u1 u2
    refine ⟨u1, u2.trans ?_⟩
    congr 4
    have hl : ipre.length = (nestItems S.leaves.view.vals ipre).length := by simp [nestItems]
    rw [show nestItems S.leaves.view.vals (ipre ++ i :: ipost) = nestItems S.leaves.view.vals ipre ++
      ⟨i.info, S.leaves.view.vals i.addr⟩ :: nestItems S.leaves.view.vals ipost from by simp [nestItems], hl, modify_mid]
    simp [nestItems, Abs.set, nestedOf]
  · intro a h1 _
    simp only [List.map_cons, List.map_nil, List.mem_singleton] at h1
    simp [Abs.set, h1]
  · intro a h1 h2
    exact absurd h1 h2
  · intro a h1
    exact Or.inl h1
  · simp

theorem abs_relocate {S : Sys δ ρ κ} (h : Good U S) {m : MotId} {k j : Nat} {b : MotId} (ha : S.Allowed U (.relocate m k j b)) :
    Means U S.leaves.view S.comps.view (fold S.leaves.view (S.leafOps (.relocate m k j b)))
      (fold S.comps.view (S.compOps (.relocate m k j b))) (.relocate m k j b) := by
  obtain ⟨ha, hf⟩ := ha
  obtain ⟨p, pre, r, ipre, i, ipost, post, hm, rfl, rfl, hat⟩ := addrAt_split ha
  have hb := free_none h.owned hf
  have hmem : i.addr ∈ addrs S.comps.view m := by
    rw [addrs_some hm]
    exact mem_addrsOf.mpr ⟨⟨r, ipre ++ [i] ++ ipost⟩, by simp, i, by simp, rfl⟩
  have hne : b ≠ i.addr := fun hc => hf.2 m (hc ▸ hmem)
  unfold Means
  simp only [Sys.leafOps, Sys.compOps, Nested.step]
  rw [hat, Option.elim_some, rewrite_spec hm]
  rw [show fold S.leaves.view [.moveConstruct b i.addr] = (S.leaves.view.set b (S.leaves.view.vals i.addr)).set i.addr none from by
    simp [fold, absStep, hne, hb]]
  simp only [List.append_assoc, List.singleton_append, modify_mid]
  have hu := edit_slot (A' := (S.leaves.view.set b (S.leaves.view.vals i.addr)).set i.addr none)
    (mid' := [⟨i.info, b⟩]) h.owned hm rfl ?_ ?_ ?_ ?_
  · obtain ⟨u1, u2⟩ := hu
    simp only [List.append_assoc, List.singleton_append] at u1 u2
    refine ⟨u1, u2.trans ?_⟩
    ext1
    · rfl
    · rfl
    · rfl
    · funext x
      simp only [Nested.set]
      split
      · rename_i hx
        subst hx
        simp [nestedOf, hm, nest, nestItems, Abs.set, hne]
      · rfl
  · intro a h1 h2
    simp only [List.map_cons, List.map_nil, List.mem_singleton] at h1 h2
    simp [Abs.set, h1, h2]
  · intro a h1 h2
    simp only [List.map_cons, List.map_nil, List.mem_singleton] at h1
    simp [Abs.set, h1]
  · intro a h1
    simp only [List.map_cons, List.map_nil, List.mem_singleton] at h1
    subst h1
    exact Or.inr ⟨hf.1, hf.2⟩
  · simp

theorem abs_insert {S : Sys δ ρ κ} (h : Good U S) {m : MotId} {k j : Nat} {new : Part δ κ} (ha : S.Allowed U (.insert m k j new)) :
    Means U S.leaves.view S.comps.view (fold S.leaves.view (S.leafOps (.insert m k j new)))
      (fold S.comps.view (S.compOps (.insert m k j new))) (.insert m k j new) := by
  obtain ⟨⟨c, hc, hj⟩, hf⟩ := ha
  have hb := free_none h.owned hf
  cases hv : S.comps.view.vals m with
  | none => simp [Sys.slots, hv] at hc
  | some x =>
    obtain ⟨p, l⟩ := x
    simp only [Sys.slots, hv, Option.map_some, Option.getD_some] at hc
    obtain ⟨pre, post, rfl, rfl⟩ := split_at hc
    obtain ⟨r, items⟩ := c
    simp only at hj
    obtain ⟨ipre, ipost, rfl, rfl⟩ : ∃ a b, items = a ++ b ∧ a.length = j := ⟨items.take j, items.drop j, by simp, by simp [hj]⟩
    obtain ⟨c1, c2, c3⟩ := fold_create [new] S.leaves.view (by simp) (by simpa using hb)
    simp only [List.flatMap_cons, List.flatMap_nil, List.append_nil, List.mem_singleton, forall_eq, List.map_cons, List.map_nil] at c1 c2 c3
    unfold Means
    simp only [Sys.leafOps, Sys.compOps, Nested.step]
    rw [rewrite_spec hv, atSlot_spec hv]
    simp only [insert_mid]
    have hu := edit_slot (A' := fold S.leaves.view new.create) (ipre := ipre) (ipost := ipost) (mid := [])
      (mid' := [new.item]) h.owned (by simpa using hv) c1 ?_ ?_ ?_ ?_
    · obtain ⟨u1, u2⟩ := hu
      simp only [List.append_assoc, List.singleton_append] at u1 u2
      refine ⟨u1, u2.trans ?_⟩
      congr 4
      have hl : ipre.length = (nestItems S.leaves.view.vals ipre).length := by simp [nestItems]
      rw [show nestItems S.leaves.view.vals (ipre ++ ipost) = nestItems S.leaves.view.vals ipre ++
        nestItems S.leaves.view.vals ipost from by simp [nestItems], hl, insert_mid]
      simp [nestItems, nestedOf, Part.item, c2]
    · intro a _ h2
      exact c3 a (by simpa [Part.item] using h2)
    · intro a h1
      simp at h1
    · intro a h1
      simp only [List.map_cons, List.map_nil, List.mem_singleton, Part.item] at h1
      subst h1
      exact Or.inr ⟨hf.1, hf.2⟩
    · simp

/-- The children of a processor of matrices, and the others. -/
theorem not_data {S : Sys δ ρ κ} (h : Good U S) {p q : ProcId} {m : MotId} {l : List (Comp ρ κ)} (hm : S.comps.view.vals m = some (q, l))
    (hq : q ≠ p) : ∀ a ∈ addrsOf l, a ∉ addrsOf (S.data p) := by
  intro a ha hc
  obtain ⟨m', l', h1, h2⟩ := h.mem_data.mp hc
  have := h.owned.disj m m' a (by rw [addrs_some hm]; exact ha) (by rw [addrs_some h1]; exact h2)
  subst this
  rw [hm] at h1
  exact hq (congrArg Prod.fst (Option.some.inj h1))

theorem abs_destroyComp {S : Sys δ ρ κ} (h : Good U S) (p : ProcId) :
    Means U S.leaves.view S.comps.view (fold S.leaves.view (S.leafOps (.destroyComp p)))
      (fold S.comps.view (S.compOps (.destroyComp p))) (.destroyComp p) := by
  unfold Means
  simp only [Sys.leafOps, Sys.compOps, Nested.step]
  rw [destroyAll_eq]
  have hB : ∀ m, (fold S.comps.view [.destroyProc p]).vals m = (S.comps.view.vals m).filter fun x => decide (x.1 ≠ p) := by
    intro m
    simp only [fold, List.foldl_cons, List.foldl_nil, absStep]
    split
    · rfl
    · rename_i hp
      cases hv : S.comps.view.vals m with
      | none => rfl
      | some x =>
        rw [Option.filter_some, if_pos]
        exact decide_eq_true fun hc => hp (hc ▸ procs_of_vals h.comps (p := x.1) (l := x.2) hv)
  have hB1 : (fold S.comps.view [.destroyProc p]).procs = fun q => if q = p then none else S.comps.view.procs q := by
    simp only [fold, List.foldl_cons, List.foldl_nil, absStep]
    split
    · rfl
    · rename_i hp
      funext q
      split
      · rename_i hq; subst hq; simpa using hp
      · rfl
  have hadd : ∀ m a, a ∈ addrs (fold S.comps.view [.destroyProc p]) m → a ∈ addrs S.comps.view m ∧ a ∉ addrsOf (S.data p) := by
    intro m a ha
    unfold addrs at ha
    rw [hB] at ha
    cases hv : S.comps.view.vals m with
    | none => rw [hv] at ha; simp [addrsOf] at ha
    | some x =>
      obtain ⟨q, l⟩ := x
      rw [hv] at ha
      by_cases hq : q = p
      · rw [Option.filter_some, if_neg (by simp [hq])] at ha
        simp [addrsOf] at ha
      · simp only [Option.filter_some, hq, ne_eq, not_false_eq_true, decide_true, if_true, Option.map_some, Option.getD_some] at ha
        exact ⟨by rw [addrs_some hv]; exact ha, not_data h hv hq a ha⟩
  refine ⟨⟨?_, ?_, ?_, ?_⟩, ?_⟩
  · intro m
    unfold addrs
    rw [hB]
    have := h.owned.nodup m
    cases hv : S.comps.view.vals m with
    | none => simp [addrsOf]
    | some x =>
      rw [addrs_some hv] at this
      rw [Option.filter_some]
      split
      · exact this
      · simp [addrsOf]
  · intro m m' a h1 h2
    exact h.owned.disj m m' a (hadd m a h1).1 (hadd m' a h2).1
  · intro m a h1
    exact h.owned.inner m a (hadd m a h1).1
  · intro a h1
    simp only at h1
    split at h1
    · simp at h1
    · rename_i hd
      rcases h.owned.owned a h1 with h2 | ⟨m, hm⟩
      · exact Or.inl h2
      · right
        refine ⟨m, ?_⟩
        unfold addrs at hm ⊢
        rw [hB]
        cases hv : S.comps.view.vals m with
        | none => rw [hv] at hm; simp [addrsOf] at hm
        | some x =>
          obtain ⟨q, l⟩ := x
          rw [hv] at hm
          simp only [Option.map_some, Option.getD_some] at hm
          by_cases hq : q = p
          · subst hq; exact absurd (h.mem_data.mpr ⟨m, l, hv, hm⟩) hd
          · rw [Option.filter_some, if_pos (by simp [hq])]
            exact hm
  · ext1
    · rfl
    · exact hB1
    · funext a
      simp only [nestedOf]
      by_cases hU : U a
      · simp only [hU, if_true]
        refine if_neg fun hc => ?_
        obtain ⟨m, l, h1, h2⟩ := h.mem_data.mp hc
        have := h.owned.inner m a (by rw [addrs_some h1]; exact h2)
        simp [hU] at this
      · simp [hU]
    · funext m
      simp only [nestedOf, hB]
      cases hv : S.comps.view.vals m with
      | none => rfl
      | some x =>
        obtain ⟨q, l⟩ := x
        by_cases hq : q = p
        · rw [Option.map_some, Option.filter_some, Option.filter_some, if_neg (by simp [hq]), if_neg (by simp [hq])]; rfl
        · simp only [Option.filter_some, hq, ne_eq, not_false_eq_true, decide_true, if_true, Option.map_some, Option.some.injEq, Prod.mk.injEq, true_and]
          exact nest_congr fun a ha => if_neg (not_data h hv hq a ha)

theorem abs_regrow {S : Sys δ ρ κ} (h : Good U S) {p : ProcId} {σ : MotId → MotId} (hc : S.Copies U (addrsOf (S.data p)) σ)
    {B' : Abs (Comp ρ κ)} (hB1 : B'.procs = S.comps.view.procs)
    (hB : ∀ m, B'.vals m = (S.comps.view.vals m).map fun x => if x.1 = p then (x.1, x.2.map (Comp.rename σ)) else x) :
    Means U S.leaves.view S.comps.view (fold S.leaves.view (S.leafOps (.regrow p σ))) B' (.regrow p σ) := by
  obtain ⟨hfree, hinj⟩ := hc
  have hmem : ∀ a ∈ addrsOf (S.data p), ∃ m, a ∈ addrs S.comps.view m := by
    intro a ha
    obtain ⟨m, l, h1, h2⟩ := h.mem_data.mp ha
    exact ⟨m, by rw [addrs_some h1]; exact h2⟩
  have hσ : ∀ a ∈ addrsOf (S.data p), ∀ b ∈ addrsOf (S.data p), σ a ≠ b := by
    intro a ha b hb hc
    obtain ⟨m, hm⟩ := hmem b hb
    exact (hfree a ha).2 m (hc ▸ hm)
  obtain ⟨c1, c2, c3⟩ := fold_clone σ S.leaves.valid (addrsOf (S.data p)) S.leaves.view hinj hσ (fun a _ => valid_isSome h.leaves a)
  unfold Means
  simp only [Sys.leafOps, Nested.step]
  rw [fold_append, destroyAll_eq]
  unfold cloneAll
  generalize fold S.leaves.view ((addrsOf (S.data p)).map fun a => .cloneFrom (σ a) (if S.leaves.valid a then some a else none)) = A1 at c1 c2 c3
  -- the addresses after the call
  have hadd : ∀ m, addrs B' m = if (S.comps.view.vals m).any (fun x => decide (x.1 = p)) then (addrs S.comps.view m).map σ else addrs S.comps.view m := by
    intro m
    unfold addrs
    rw [hB]
    cases hv : S.comps.view.vals m with
    | none => simp
    | some x =>
      obtain ⟨q, l⟩ := x
      by_cases hq : q = p
      · simp [hq, addrsOf_rename]
      · simp [hq]
  have hin : ∀ m, (S.comps.view.vals m).any (fun x => decide (x.1 = p)) = true → ∀ a ∈ addrs S.comps.view m, a ∈ addrsOf (S.data p) := by
    intro m hm a ha
    cases hv : S.comps.view.vals m with
    | none => rw [hv] at hm; simp at hm
    | some x =>
      obtain ⟨q, l⟩ := x
      rw [hv] at hm
      simp only [Option.any_some, decide_eq_true_eq] at hm
      subst hm
      rw [addrs_some hv] at ha
      exact h.mem_data.mpr ⟨m, l, hv, ha⟩
  have hout : ∀ m, (S.comps.view.vals m).any (fun x => decide (x.1 = p)) ≠ true → ∀ a ∈ addrs S.comps.view m, a ∉ addrsOf (S.data p) := by
    intro m hm a ha
    cases hv : S.comps.view.vals m with
    | none => simp [addrs, hv, addrsOf] at ha
    | some x =>
      obtain ⟨q, l⟩ := x
      rw [hv] at hm
      simp only [Option.any_some, ne_eq, decide_eq_true_eq] at hm
      rw [addrs_some hv] at ha
      exact not_data h hv hm a ha
  have hkeep : ∀ a, a ∉ addrsOf (S.data p) → (∀ b ∈ addrsOf (S.data p), σ b ≠ a) →
      (if a ∈ addrsOf (S.data p) then none else A1.vals a) = S.leaves.view.vals a := fun a h1 h2 => by rw [if_neg h1, c3 a h2]
  have hcopy : ∀ a ∈ addrsOf (S.data p), (if σ a ∈ addrsOf (S.data p) then none else A1.vals (σ a)) =
      copied S.leaves.view.procs (S.leaves.view.vals a) := fun a ha => by
    rw [if_neg (fun hc => hσ a ha _ hc rfl), c2 a ha]
  refine ⟨⟨?_, ?_, ?_, ?_⟩, ?_⟩
  · intro m
    rw [hadd]
    split
    · rename_i hm
      exact (h.owned.nodup m).map_on fun a ha b hb => hinj a (hin m hm a ha) b (hin m hm b hb)
    · exact h.owned.nodup m
  · intro m m' a h1 h2
    rw [hadd] at h1 h2
    split at h1 <;> split at h2
    · rename_i hm hm'
      obtain ⟨b, hb, rfl⟩ := List.mem_map.mp h1
      obtain ⟨b', hb', he⟩ := List.mem_map.mp h2
      have := hinj b' (hin m' hm' b' hb') b (hin m hm b hb) he
      subst this
      exact h.owned.disj m m' b' hb hb'
    · rename_i hm hm'
      obtain ⟨b, hb, rfl⟩ := List.mem_map.mp h1
      exact absurd h2 ((hfree b (hin m hm b hb)).2 m')
    · rename_i hm hm'
      obtain ⟨b, hb, rfl⟩ := List.mem_map.mp h2
      exact absurd h1 ((hfree b (hin m' hm' b hb)).2 m)
    · exact h.owned.disj m m' a h1 h2
  · intro m a h1
    rw [hadd] at h1
    split at h1
    · rename_i hm
      obtain ⟨b, hb, rfl⟩ := List.mem_map.mp h1
      exact (hfree b (hin m hm b hb)).1
    · exact h.owned.inner m a h1
  · intro a h1
    simp only at h1
    by_cases hb : ∃ b ∈ addrsOf (S.data p), σ b = a
    · obtain ⟨b, hb, rfl⟩ := hb
      obtain ⟨m, l, h2, h3⟩ := h.mem_data.mp hb
      right
      refine ⟨m, ?_⟩
      rw [hadd, if_pos (by rw [h2]; simp)]
      exact List.mem_map_of_mem (by rw [addrs_some h2]; exact h3)
    · push Not at hb
      by_cases ha : a ∈ addrsOf (S.data p)
      · rw [if_pos ha] at h1; exact absurd rfl h1
      · rw [hkeep a ha hb] at h1
        rcases h.owned.owned a h1 with h2 | ⟨m, hm⟩
        · exact Or.inl h2
        · right
          refine ⟨m, ?_⟩
          rw [hadd, if_neg fun hc => ha (hin m hc a hm)]
          exact hm
  · ext1
    · exact c1
    · exact hB1
    · funext a
      simp only [nestedOf, Nested.mapComps]
      by_cases hU : U a
      · simp only [hU, if_true]
        refine hkeep a (fun hc => ?_) fun b hb hc => ?_
        · obtain ⟨m, hm⟩ := hmem a hc
          have := h.owned.inner m a hm
          simp [hU] at this
        · have := (hfree b hb).1
          rw [hc, hU] at this
          simp at this
      · simp [hU]
    · funext m
      simp only [nestedOf, Nested.mapComps, hB, Option.map_map]
      cases hv : S.comps.view.vals m with
      | none => rfl
      | some x =>
        obtain ⟨q, l⟩ := x
        by_cases hq : q = p
        · subst hq
          simp only [Option.map_some, Function.comp, if_true, Option.some.injEq, Prod.mk.injEq, true_and]
          rw [nest_rename, ← nest_map]
          exact nest_congr fun a ha => hcopy a (h.mem_data.mpr ⟨m, l, hv, ha⟩)
        · simp only [Option.map_some, Function.comp, hq, if_false, Option.some.injEq, Prod.mk.injEq, true_and, List.map_id']
          refine nest_congr fun a ha => hkeep a (not_data h hv hq a ha) fun b hb hc => ?_
          exact (hfree b hb).2 m (by rw [hc, show S.slots m = l from by unfold Sys.slots; rw [hv]; rfl]; exact ha)

theorem abs_createLeaf {S : Sys δ ρ κ} (h : Good U S) (p : ProcId) (d : δ) (cl : Bool) :
    Means U S.leaves.view S.comps.view (fold S.leaves.view (S.leafOps (.createLeaf p d cl)))
      (fold S.comps.view (S.compOps (.createLeaf p d cl))) (.createLeaf p d cl) := by
  unfold Means
  simp only [Sys.leafOps, Sys.compOps, Nested.step, fold, List.foldl_cons, List.foldl_nil, absStep]
  split
  · rename_i hp
    rw [if_pos (by exact hp)]
    exact ⟨h.owned, rfl⟩
  · rename_i hp
    rw [if_neg (by exact hp)]
    exact ⟨h.owned.mono (fun _ ha => ha) fun _ => rfl, rfl⟩

theorem abs_createComp {S : Sys δ ρ κ} (h : Good U S) (p : ProcId) (r : ρ) (cl : Bool) :
    Means U S.leaves.view S.comps.view (fold S.leaves.view (S.leafOps (.createComp p r cl)))
      (fold S.comps.view (S.compOps (.createComp p r cl))) (.createComp p r cl) := by
  unfold Means
  simp only [Sys.leafOps, Sys.compOps, Nested.step, fold, List.foldl_cons, List.foldl_nil, absStep]
  split
  · rename_i hp
    rw [if_pos (by exact hp)]
    exact ⟨h.owned, rfl⟩
  · rename_i hp
    rw [if_neg (by exact hp)]
    exact ⟨h.owned.mono (fun _ ha => ha) fun _ => rfl, rfl⟩

theorem abs_leafFrame {S : Sys δ ρ κ} (h : Good U S) (p : ProcId) (f : δ → δ) :
    Means U S.leaves.view S.comps.view (fold S.leaves.view (S.leafOps (.leafFrame p f)))
      (fold S.comps.view (S.compOps (.leafFrame p f))) (.leafFrame p f) := by
  unfold Means
  simp only [Sys.leafOps, Sys.compOps, Nested.step, fold, List.foldl_cons, List.foldl_nil, absStep]
  split
  · rename_i hp
    rw [if_pos (by exact hp)]
    refine ⟨h.owned.mono (fun a ha => by simp [ha]) fun _ => rfl, ?_⟩
    ext1
    · rfl
    · rfl
    · funext a
      simp only [nestedOf, frameOf]
      split <;> rfl
    · funext m
      simp only [nestedOf, Nested.mapComps, Option.map_map]
      refine congrFun (congrArg Option.map ?_) _
      funext x
      exact congrArg (Prod.mk x.1) (nest_map (frameOf p f) S.leaves.view.vals x.2)
  · rename_i hp
    rw [if_neg (by exact hp)]
    exact ⟨h.owned, rfl⟩

theorem abs_compFrame {S : Sys δ ρ κ} (h : Good U S) (p : ProcId) (g : ρ → List (κ × Option (ProcId × List δ)) → ρ) :
    Means U S.leaves.view S.comps.view (fold S.leaves.view (S.leafOps (.compFrame p g)))
      (fold S.comps.view (S.compOps (.compFrame p g))) (.compFrame p g) := by
  have hB : ∀ m, (fold S.comps.view (S.compOps (.compFrame p g))).vals m =
      (S.comps.view.vals m).map fun x => if x.1 = p then (x.1, x.2.map (Comp.update S.leaves g)) else x := by
    intro m
    simp only [Sys.compOps, fold, List.foldl_cons, List.foldl_nil, absStep]
    split
    · rfl
    · rename_i hp
      cases hv : S.comps.view.vals m with
      | none => rfl
      | some x =>
        rw [Option.map_some, if_neg]
        exact fun hc => hp (hc ▸ procs_of_vals h.comps (p := x.1) (l := x.2) hv)
  have hB1 : (fold S.comps.view (S.compOps (.compFrame p g))).procs = S.comps.view.procs := by
    simp only [Sys.compOps, fold, List.foldl_cons, List.foldl_nil, absStep]
    split <;> rfl
  refine ⟨h.owned.mono (fun a ha => ha) fun m => ?_, ?_⟩
  · unfold addrs
    rw [hB]
    cases hv : S.comps.view.vals m with
    | none => rfl
    | some x =>
      simp only [Option.map_some, Option.getD_some]
      split
      · simp only [addrsOf, List.flatMap_map]; rfl
      · rfl
  · ext1
    · rfl
    · exact hB1
    · rfl
    · funext m
      simp only [nestedOf, Nested.step, Nested.mapComps, Option.map_map, hB]
      cases hv : S.comps.view.vals m with
      | none => rfl
      | some x =>
        obtain ⟨q, l⟩ := x
        by_cases hq : q = p
        · simp [hq, nest, Comp.update, Sys.leafOps, fold, Function.comp_def]
        · simp [hq, Sys.leafOps, fold]

theorem abs_user {S : Sys δ ρ κ} (h : Good U S) {op : Op δ} (ha : Standing U op) :
    Means U S.leaves.view S.comps.view (fold S.leaves.view (S.leafOps (.user op)))
      (fold S.comps.view (S.compOps (.user op))) (.user op) := by
  obtain ⟨h1, h2, h3⟩ := standing_spec ha S.leaves.view
  refine ⟨?_, ?_⟩
  · simp only [Sys.leafOps, Sys.compOps, fold, List.foldl_cons, List.foldl_nil]
    refine ⟨h.owned.nodup, h.owned.disj, h.owned.inner, fun a hx => ?_⟩
    by_cases hU : U a = true
    · exact Or.inl hU
    · rw [h2 a (by simpa using hU)] at hx
      exact h.owned.owned a hx
  · simp only [Sys.leafOps, Sys.compOps, Nested.step, fold, List.foldl_cons, List.foldl_nil]
    ext1
    · exact h1
    · rfl
    · exact h3.symm
    · funext m
      simp only [nestedOf]
      cases hv : S.comps.view.vals m with
      | none => rfl
      | some x =>
        simp only [Option.map_some, Option.some.injEq, Prod.mk.injEq, true_and]
        exact nest_congr fun a ha => h2 a (h.owned.inner m a (by rw [addrs_some (p := x.1) (l := x.2) hv]; exact ha))

theorem abs_destroyLeaf {S : Sys δ ρ κ} (h : Good U S) (p : ProcId) :
    Means U S.leaves.view S.comps.view (fold S.leaves.view (S.leafOps (.destroyLeaf p)))
      (fold S.comps.view (S.compOps (.destroyLeaf p))) (.destroyLeaf p) := by
  have hA : (fold S.leaves.view [.destroyProc p]).vals = fun a => without p (S.leaves.view.vals a) := by
    funext a
    simp only [fold, List.foldl_cons, List.foldl_nil, absStep]
    split
    · rfl
    · rename_i hp
      unfold without
      cases hv : S.leaves.view.vals a with
      | none => rfl
      | some x =>
        rw [Option.filter_some, if_pos]
        exact decide_eq_true fun hc => hp (hc ▸ procs_of_vals h.leaves (p := x.1) (l := x.2) hv)
  have hA1 : (fold S.leaves.view [.destroyProc p]).procs = fun q => if q = p then none else S.leaves.view.procs q := by
    simp only [fold, List.foldl_cons, List.foldl_nil, absStep]
    split
    · rfl
    · rename_i hp
      funext q
      split
      · rename_i hq; subst hq; simpa using hp
      · rfl
  simp only [Means, Sys.leafOps, Sys.compOps, Nested.step]
  refine ⟨h.owned.mono (fun a ha => by rw [hA]; simp [ha, without]) fun m => rfl, ?_⟩
  ext1
  · exact hA1
  · rfl
  · funext a
    simp only [nestedOf, hA]
    split <;> rfl
  · funext m
    simp only [nestedOf, Nested.mapComps, Option.map_map, hA]
    refine congrFun (congrArg Option.map ?_) _
    funext x
    exact congrArg (Prod.mk x.1) (nest_map (without p) S.leaves.view.vals x.2)

/-! ### Every call -/

theorem no_create {S : Sys δ ρ κ} (c : Call δ ρ κ) : ∀ op ∈ S.compOps c, ∀ p d cl, op = .create p d cl → d.items = [] := by
  intro op hop p d cl he
  subst he
  cases c <;> simp [Sys.compOps, Sys.rewrite] at hop
  · rw [hop.2.1]

theorem step_refines {S : Sys δ ρ κ} (h : Good U S) (c : Call δ ρ κ) (ha : S.Allowed U c) :
    ∃ S', S.step c = some S' ∧ Good U S' ∧ S'.nested U = (S.nested U).step c := by
  obtain ⟨l, e1, e2, e3⟩ := runFrom_spec (S.leafOps c) S.leaves h.leaves
  have main : (∀ p σ, c ≠ .regrow p σ) → Means U S.leaves.view S.comps.view (fold S.leaves.view (S.leafOps c))
      (fold S.comps.view (S.compOps c)) c → ∃ S', S.step c = some S' ∧ Good U S' ∧ S'.nested U = (S.nested U).step c := by
    intro hc hm
    obtain ⟨w, g1, g2, g3, g4, g5⟩ := runFrom_clean (P := fun c => c.items = []) (S.compOps c) (no_create c) S.comps h.comps h.clean h.dflt
    refine ⟨⟨l, w⟩, ?_, ⟨e2, g2, g3, g4, ?_⟩, ?_⟩
    · unfold Sys.step
      rw [e1]
      cases c <;> first | (exact absurd rfl (hc _ _)) | simp only [g1]
    · rw [e3, g5]; exact hm.1
    · rw [nested_eq, nested_eq, e3, g5]; exact hm.2
  cases c with
  | createLeaf p d cl => exact main (fun _ _ hc => by simp at hc) (abs_createLeaf h p d cl)
  | createComp p r cl => exact main (fun _ _ hc => by simp at hc) (abs_createComp h p r cl)
  | leafFrame p f => exact main (fun _ _ hc => by simp at hc) (abs_leafFrame h p f)
  | compFrame p g => exact main (fun _ _ hc => by simp at hc) (abs_compFrame h p g)
  | user op => exact main (fun _ _ hc => by simp at hc) (abs_user h ha)
  | init m p slots => exact main (fun _ _ hc => by simp at hc) (abs_init h ha)
  | invalidate m => exact main (fun _ _ hc => by simp at hc) (abs_invalidate h.owned m)
  | moveAssign d s => exact main (fun _ _ hc => by simp at hc) (abs_moveAssign h d s)
  | moveConstruct d s => exact main (fun _ _ hc => by simp at hc) (abs_moveConstruct h ha)
  | clone d s σ => exact main (fun _ _ hc => by simp at hc) (abs_clone h ha)
  | child m k j info e => exact main (fun _ _ hc => by simp at hc) (abs_child h ha)
  | relocate m k j b => exact main (fun _ _ hc => by simp at hc) (abs_relocate h ha)
  | insert m k j new => exact main (fun _ _ hc => by simp at hc) (abs_insert h ha)
  | destroyLeaf p => exact main (fun _ _ hc => by simp at hc) (abs_destroyLeaf h p)
  | destroyComp p => exact main (fun _ _ hc => by simp at hc) (abs_destroyComp h p)
  | regrow p σ =>
    obtain ⟨h1, h2⟩ := ha
    obtain ⟨w, g1, g2, g3, g4, g5, g6⟩ := mapData_spec h.comps h.clean h.dflt h1 σ
    have hm := abs_regrow h h2 (B' := w.view) g5 g6
    refine ⟨⟨l, w⟩, ?_, ⟨e2, g2, g3, g4, ?_⟩, ?_⟩
    · unfold Sys.step
      rw [e1]
      simp only [g1]
    · rw [e3]; exact hm.1
    · rw [nested_eq, nested_eq, e3]; exact hm.2

theorem history_good {cs : List (Call δ ρ κ)} {S : Sys δ ρ κ} (h : History U cs S) : Good U S ∧ S.nested U = Nested.run cs := by
  induction h with
  | nil => exact ⟨good_init, by simp [nested_eq, nestedOf, Sys.init, view_empty, Abs.empty, Nested.run, Nested.empty]⟩
  | snoc _ ha hs ih =>
    obtain ⟨S', e1, e2, e3⟩ := step_refines ih.1 _ ha
    rw [hs] at e1
    cases e1
    refine ⟨e2, ?_⟩
    rw [e3, ih.2, Nested.run, Nested.run, List.foldl_append]
    rfl

end Motive.Owner
