import Verif.Pipeline.Timing
/-!
# Model of the import of the nodes of a scene (src/anim_pipeline/anim_pipeline.cpp), and C74

A node of the FBX scene is a tree.  `ptr` is the address of the node, by which the map from nodes to bones is keyed; the other data of a node
(its transforms and curves) is not part of this file.  The map is a function to `Option`.  `int` and `unsigned int` are `ℤ`.
-/

namespace Motive.Pipeline

noncomputable section
open Classical

/-- `FbxNode`, as far as `GetName`, `GetSkeleton() || GetMesh()` and `GetChild` show it. -/
inductive FNode where
  | mk (ptr : ℕ) (name : String) (skin : Bool) (children : List FNode)

namespace FNode
def ptr : FNode → ℕ | mk p _ _ _ => p
def name : FNode → String | mk _ n _ _ => n
def skin : FNode → Bool | mk _ _ s _ => s
def children : FNode → List FNode | mk _ _ _ cs => cs
end FNode

/-- `NodeToBoneMap` (anim_pipeline.cpp:175). -/
abbrev BoneMap := ℕ → Option ℤ

/-- `std::unordered_map::insert`: it leaves a value that is there. -/
def BoneMap.insert (m : BoneMap) (p : ℕ) (v : ℤ) : BoneMap := fun q => if q = p then some ((m q).getD v) else m q
/-- Assignment to the value that an iterator points to. -/
def BoneMap.set (m : BoneMap) (p : ℕ) (v : ℤ) : BoneMap := fun q => if q = p then some v else m q

mutual
/-- `MarkBoneNodesRecursive` (anim_pipeline.cpp:194-213): the map, and what the function returns. -/
def mark (m : BoneMap) : FNode → BoneMap × Bool
  | .mk p _ s cs =>
    let r := markAll m cs
    let need := s || r.2
    (if need then r.1.insert p (-1) else r.1, need)
/-- The loop over the children (anim_pipeline.cpp:200-206; also 238-241): the map, and whether a child needs a bone. -/
def markAll (m : BoneMap) : List FNode → BoneMap × Bool
  | [] => (m, false)
  | c :: cs =>
    let r := mark m c
    let r' := markAll r.1 cs
    (r'.1, r.2 || r'.2)
end

mutual
/-- `GatherBonesRecursive` with `AddBoneForNode` and `AllocBone` (anim_pipeline.cpp:177-192, 216-228; anim_data.cpp:25-29). -/
def gatherBones (st : BoneMap × List Bone) (parent : ℤ) : FNode → BoneMap × List Bone
  | .mk p name _ cs =>
    match st.1 p with
    | none => st
    | some _ =>
      let index : ℤ := st.2.length
      gatherAllBones (st.1.set p index, st.2 ++ [⟨name, parent, []⟩]) index cs
/-- The loop over the children (anim_pipeline.cpp:222-226; also 245-248). -/
def gatherAllBones (st : BoneMap × List Bone) (parent : ℤ) : List FNode → BoneMap × List Bone
  | [] => st
  | c :: cs => gatherAllBones (gatherBones st parent c) parent cs
end

/-- The first two passes of `GatherFlatAnim` (anim_pipeline.cpp:230-248), for the children of the root node. -/
def sceneBones (cs : List FNode) : BoneMap × List Bone := gatherAllBones ((markAll (fun _ => none) cs).1, []) (-1) cs

/-- `GatherFlatAnimForNode` for the bone `i` (anim_pipeline.cpp:409-489, 321-323) in terms of the channels it adds (see `Verif.Pipeline.Fbx`)
and `PruneChannels`, which goes over all bones (anim_data.cpp:181-182). -/
def gatherNode (chans : FNode → Option (List Channel)) (prune : List Channel → Option (List Channel)) (n : FNode) (i : ℤ) (bones : List Bone) :
    Option (List Bone) :=
  if 0 ≤ i ∧ i < bones.length then
    match chans n with
    | none => none
    | some chs => (bones.modify i.toNat fun b => { b with channels := b.channels ++ chs }).mapM fun b =>
        (prune b.channels).map fun c => { b with channels := c }
  else none

/-- `ShouldRecurse` (anim_data.cpp:45-49). -/
def shouldRecurse (rootOnly : Bool) (bones : List Bone) (i : ℤ) : Option Bool :=
  match bones[i.toNat]? with
  | none => none
  | some b => some (!rootOnly || b.channels.isEmpty)

mutual
/-- `GatherFlatAnimRecursive` for a node that is not the root (anim_pipeline.cpp:304-333). -/
def gatherAnim (chans : FNode → Option (List Channel)) (prune : List Channel → Option (List Channel)) (rootOnly : Bool) (m : BoneMap)
    (bones : List Bone) : FNode → Option (List Bone)
  | .mk p name s cs =>
    match m p with
    | none => some bones
    | some i =>
      match gatherNode chans prune (.mk p name s cs) i bones with
      | none => none
      | some bones' =>
        match (if i < 0 then some true else shouldRecurse rootOnly bones' i) with
        | none => none
        | some false => some bones'
        | some true => gatherAllAnim chans prune rootOnly m bones' cs
/-- The loop over the children (anim_pipeline.cpp:328-331). -/
def gatherAllAnim (chans : FNode → Option (List Channel)) (prune : List Channel → Option (List Channel)) (rootOnly : Bool) (m : BoneMap)
    (bones : List Bone) : List FNode → Option (List Bone)
  | [] => some bones
  | c :: cs =>
    match gatherAnim chans prune rootOnly m bones c with
    | none => none
    | some bones' => gatherAllAnim chans prune rootOnly m bones' cs
end

/-- `GatherFlatAnim` (anim_pipeline.cpp:229-260), for the children of the root node. -/
def gatherFlatAnim (chans : FNode → Option (List Channel)) (prune : List Channel → Option (List Channel)) (rootOnly : Bool) (cs : List FNode) :
    Option (List Bone) :=
  gatherAllAnim chans prune rootOnly (sceneBones cs).1 (sceneBones cs).2 cs

/-! ### Specification -/

mutual
/-- A node and everything below it, depth first, parents before children. -/
def FNode.walk : FNode → List FNode
  | .mk p n s cs => .mk p n s cs :: walkAll cs
def walkAll : List FNode → List FNode
  | [] => []
  | c :: cs => c.walk ++ walkAll cs
end

/-- The node, or a node below it, is part of a skeleton or has a mesh. -/
def FNode.Needs (n : FNode) : Prop := ∃ d ∈ n.walk, d.skin = true

/-- The nodes that become bones, in order. -/
def boneNodes (cs : List FNode) : List FNode := (walkAll cs).filter fun n => n.Needs

/-- The nodes whose animation is imported: with `rootOnly`, only down to the first that has channels. -/
inductive Reached (rootOnly : Bool) (result : FNode → List Channel) (cs : List FNode) : FNode → Prop
  | top {n : FNode} : n ∈ cs → Reached rootOnly result cs n
  | child {p n : FNode} : Reached rootOnly result cs p → rootOnly = false ∨ result p = [] → n ∈ p.children → Reached rootOnly result cs n

/-- The addresses of the nodes differ. -/
def Addressed (cs : List FNode) : Prop := ((walkAll cs).map FNode.ptr).Nodup

/-! ### Walks -/

theorem FNode.walk_eq (n : FNode) : n.walk = n :: walkAll n.children := by
  obtain ⟨p, nm, s, cs⟩ := n
  rw [FNode.walk]; rfl

theorem FNode.self_mem_walk (n : FNode) : n ∈ n.walk := by rw [n.walk_eq]; simp

theorem mem_walkAll {cs : List FNode} {d : FNode} : d ∈ walkAll cs ↔ ∃ c ∈ cs, d ∈ c.walk := by
  induction cs with
  | nil => simp [walkAll]
  | cons c cs ih => rw [walkAll]; simp [ih]

theorem FNode.needs_iff (n : FNode) : n.Needs ↔ n.skin = true ∨ ∃ c ∈ n.children, c.Needs := by
  unfold FNode.Needs
  rw [n.walk_eq]
  simp only [List.mem_cons, exists_eq_or_imp, mem_walkAll]
  constructor
  · rintro (h | ⟨d, ⟨c, hc, hd⟩, h⟩)
    · exact Or.inl h
    · exact Or.inr ⟨c, hc, d, hd, h⟩
  · rintro (h | ⟨c, hc, d, hd, h⟩)
    · exact Or.inl h
    · exact Or.inr ⟨d, ⟨c, hc, hd⟩, h⟩

mutual
theorem walk_trans : ∀ (n d e : FNode), d ∈ n.walk → e ∈ d.walk → e ∈ n.walk
  | .mk p nm s cs, d, e, h1, h2 => by
    rw [FNode.walk, List.mem_cons] at h1
    rcases h1 with rfl | h1
    · exact h2
    · rw [FNode.walk]; exact List.mem_cons_of_mem _ (walkAll_trans cs d e h1 h2)
theorem walkAll_trans : ∀ (cs : List FNode) (d e : FNode), d ∈ walkAll cs → e ∈ d.walk → e ∈ walkAll cs
  | [], d, e, h1, _ => by simp [walkAll] at h1
  | c :: cs, d, e, h1, h2 => by
    rw [walkAll, List.mem_append] at h1 ⊢
    rcases h1 with h1 | h1
    · exact Or.inl (walk_trans c d e h1 h2)
    · exact Or.inr (walkAll_trans cs d e h1 h2)
end

theorem needs_of_walk {n d : FNode} (h : d ∈ n.walk) (hd : d.Needs) : n.Needs := by
  obtain ⟨e, he, hs⟩ := hd
  exact ⟨e, walk_trans n d e h he, hs⟩

theorem boneNodes_cons (c : FNode) (cs : List FNode) : boneNodes (c :: cs) = boneNodes [c] ++ boneNodes cs := by
  unfold boneNodes
  rw [walkAll, List.filter_append]
  simp [walkAll]

theorem boneNodes_needs {n : FNode} (h : n.Needs) : boneNodes [n] = n :: boneNodes n.children := by
  unfold boneNodes
  simp only [walkAll, List.append_nil]
  rw [n.walk_eq, List.filter_cons_of_pos (by simpa using h)]

theorem boneNodes_not {n : FNode} (h : ¬ n.Needs) : boneNodes [n] = [] := by
  unfold boneNodes
  simp only [walkAll, List.append_nil, List.filter_eq_nil_iff, decide_eq_true_eq]
  exact fun d hd hn => h (needs_of_walk hd hn)

/-! ### The first pass -/

mutual
theorem mark_spec : ∀ (n : FNode) (m : BoneMap), ((mark m n).2 = true ↔ n.Needs) ∧
    ∀ q, (((mark m n).1 q).isSome ↔ (m q).isSome ∨ ∃ d ∈ boneNodes [n], d.ptr = q)
  | .mk p nm s cs, m => by
    obtain ⟨h1, h2⟩ := markAll_spec cs m
    rw [mark]
    have hn : (s || (markAll m cs).2) = true ↔ (FNode.mk p nm s cs).Needs := by
      rw [Bool.or_eq_true, h1, FNode.needs_iff]; rfl
    refine ⟨hn, fun q => ?_⟩
    by_cases h : (FNode.mk p nm s cs).Needs
    · simp only [hn.mpr h, if_true]
      rw [boneNodes_needs h]
      unfold BoneMap.insert
      by_cases hq : q = p
      · subst hq
        simp [FNode.ptr]
      · rw [if_neg hq, h2]
        have : p ≠ q := fun e => hq e.symm
        simp only [List.mem_cons, exists_eq_or_imp, FNode.ptr, this, false_or]
        rfl
    · simp only [(Bool.eq_false_iff.mpr fun e => h (hn.mp e))]
      rw [boneNodes_not h]
      have hc : boneNodes cs = [] := by
        unfold boneNodes
        rw [List.filter_eq_nil_iff]
        intro d hd hn
        refine h (needs_of_walk (d := d) ?_ (by simpa using hn))
        rw [FNode.walk]; exact List.mem_cons_of_mem _ hd
      have := h2 q
      rw [hc] at this
      simpa using this
theorem markAll_spec : ∀ (cs : List FNode) (m : BoneMap), ((markAll m cs).2 = true ↔ ∃ c ∈ cs, c.Needs) ∧
    ∀ q, (((markAll m cs).1 q).isSome ↔ (m q).isSome ∨ ∃ d ∈ boneNodes cs, d.ptr = q)
  | [], m => by simp [markAll, boneNodes, walkAll]
  | c :: cs, m => by
    obtain ⟨h1, h2⟩ := mark_spec c m
    obtain ⟨h3, h4⟩ := markAll_spec cs (mark m c).1
    rw [markAll]
    refine ⟨?_, fun q => ?_⟩
    · rw [Bool.or_eq_true, h1, h3]; simp
    · rw [h4, h2, boneNodes_cons c cs]
      simp only [List.mem_append]
      constructor
      · rintro ((h | ⟨d, hd, e⟩) | ⟨d, hd, e⟩)
        · exact Or.inl h
        · exact Or.inr ⟨d, Or.inl hd, e⟩
        · exact Or.inr ⟨d, Or.inr hd, e⟩
      · rintro (h | ⟨d, hd | hd, e⟩)
        · exact Or.inl (Or.inl h)
        · exact Or.inl (Or.inr ⟨d, hd, e⟩)
        · exact Or.inr ⟨d, hd, e⟩
end

/-! ### The second pass -/

/-- What the second pass adds for the nodes `cs` below the bone `parent`: the bones of `rows`, from the index `base` on. -/
def Gathers (cs : List FNode) (parent : ℤ) (st st' : BoneMap × List Bone) : Prop :=
  ∃ rows : List (FNode × ℤ), rows.map Prod.fst = boneNodes cs ∧
    st'.2 = st.2 ++ rows.map (fun r => ⟨r.1.name, r.2, []⟩) ∧
    (∀ k r, rows[k]? = some r → (r.2 = parent ∧ r.1 ∈ cs) ∨
      ∃ j p, j < k ∧ r.2 = ((st.2.length + j : ℕ) : ℤ) ∧ (boneNodes cs)[j]? = some p ∧ r.1 ∈ p.children) ∧
    (∀ k n, (boneNodes cs)[k]? = some n → st'.1 n.ptr = some ((st.2.length + k : ℕ) : ℤ)) ∧
    (∀ q, (∀ n ∈ boneNodes cs, n.ptr ≠ q) → st'.1 q = st.1 q)

theorem boneNodes_sub (cs : List FNode) : (boneNodes cs).Sublist (walkAll cs) := List.filter_sublist

mutual
theorem gatherBones_spec : ∀ (n : FNode) (st : BoneMap × List Bone) (parent : ℤ), (n.walk.map FNode.ptr).Nodup →
    (∀ d ∈ n.walk, (st.1 d.ptr).isSome ↔ d.Needs) → Gathers [n] parent st (gatherBones st parent n)
  | .mk p nm s cs, st, parent, hnd, hm => by
    have h0 := hm _ (FNode.self_mem_walk _)
    rw [gatherBones]
    by_cases hn : (FNode.mk p nm s cs).Needs
    · obtain ⟨v, hv⟩ := Option.isSome_iff_exists.mp (h0.mpr hn)
      have hv' : st.1 p = some v := hv
      rw [hv']
      rw [FNode.walk, List.map_cons, List.nodup_cons] at hnd
      have hp : ∀ d ∈ walkAll cs, d.ptr ≠ p := fun d hd e => hnd.1 (by rw [List.mem_map]; exact ⟨d, hd, e⟩)
      obtain ⟨rows, r1, r2, r3, r4, r5⟩ := gatherAllBones_spec cs (st.1.set p st.2.length, st.2 ++ [⟨nm, parent, []⟩]) st.2.length hnd.2
        (by
          intro d hd
          have : (st.1.set p st.2.length) d.ptr = st.1 d.ptr := if_neg (hp d hd)
          dsimp only
          rw [this]
          exact hm d (by rw [FNode.walk]; exact List.mem_cons_of_mem _ hd))
      simp only [List.length_append, List.length_cons, List.length_nil] at r3 r4
      have hb : boneNodes [FNode.mk p nm s cs] = FNode.mk p nm s cs :: boneNodes cs := boneNodes_needs hn
      refine ⟨(FNode.mk p nm s cs, parent) :: rows, ?_, ?_, ?_, ?_, ?_⟩
      · rw [List.map_cons, r1, hb]
      · dsimp only
        rw [r2]; simp [FNode.name]
      · intro k r hr
        rcases k with _ | k
        · simp only [List.getElem?_cons_zero, Option.some.injEq] at hr
          subst hr
          exact Or.inl ⟨rfl, by simp⟩
        · rw [List.getElem?_cons_succ] at hr
          right
          rw [hb]
          rcases r3 k r hr with ⟨e1, e2⟩ | ⟨j, q, e1, e2, e3, e4⟩
          · exact ⟨0, FNode.mk p nm s cs, by omega, by simpa using e1, by simp, e2⟩
          · exact ⟨j + 1, q, by omega, by rw [e2]; push_cast; ring, by simpa using e3, e4⟩
      · intro k n hk
        rw [hb] at hk
        dsimp only
        rcases k with _ | k
        · simp only [List.getElem?_cons_zero, Option.some.injEq] at hk
          subst hk
          change (gatherAllBones _ _ cs).1 p = _
          rw [r5 p (fun d hd => hp d ((boneNodes_sub cs).subset hd))]
          simp [BoneMap.set]
        · rw [List.getElem?_cons_succ] at hk
          rw [r4 k n hk]; congr 2; omega
      · intro q hq
        dsimp only
        rw [hb] at hq
        rw [r5 q (fun n hn => hq n (List.mem_cons_of_mem _ hn))]
        exact if_neg fun e => hq (FNode.mk p nm s cs) (by simp) e.symm
    · have hv : st.1 p = none := by
        rcases h : st.1 p with _ | v
        · rfl
        · exact absurd (h0.mp (by change (st.1 p).isSome = true; rw [h]; rfl)) hn
      rw [hv]
      exact ⟨[], by rw [boneNodes_not hn]; rfl, by simp, by simp, by rw [boneNodes_not hn]; simp, fun _ _ => rfl⟩
theorem gatherAllBones_spec : ∀ (cs : List FNode) (st : BoneMap × List Bone) (parent : ℤ), ((walkAll cs).map FNode.ptr).Nodup →
    (∀ d ∈ walkAll cs, (st.1 d.ptr).isSome ↔ d.Needs) → Gathers cs parent st (gatherAllBones st parent cs)
  | [], st, parent, _, _ => by
    rw [gatherAllBones]
    exact ⟨[], by simp [boneNodes, walkAll], by simp, by simp, by simp [boneNodes, walkAll], fun _ _ => rfl⟩
  | c :: cs, st, parent, hnd, hm => by
    rw [walkAll, List.map_append, List.nodup_append] at hnd
    obtain ⟨n1, n2, n3⟩ := hnd
    have hdisj : ∀ d ∈ walkAll cs, ∀ n ∈ c.walk, n.ptr ≠ d.ptr := fun d hd n hn =>
      n3 _ (List.mem_map_of_mem hn) _ (List.mem_map_of_mem hd)
    obtain ⟨rows, r1, r2, r3, r4, r5⟩ := gatherBones_spec c st parent n1 (fun d hd => hm d (by rw [walkAll]; exact List.mem_append_left _ hd))
    have hsub1 : ∀ n ∈ boneNodes [c], n ∈ c.walk := fun n hn => by
      have := (boneNodes_sub [c]).subset hn
      simpa [walkAll] using this
    obtain ⟨rows', s1, s2, s3, s4, s5⟩ := gatherAllBones_spec cs (gatherBones st parent c) parent n2 (by
      intro d hd
      rw [r5 _ (fun n hn => hdisj d hd n (hsub1 n hn))]
      exact hm d (by rw [walkAll]; exact List.mem_append_right _ hd))
    rw [gatherAllBones]
    have hlen : rows.length = (boneNodes [c]).length := by rw [← r1, List.length_map]
    have hl2 : (gatherBones st parent c).2.length = st.2.length + rows.length := by rw [r2]; simp
    refine ⟨rows ++ rows', ?_, ?_, ?_, ?_, ?_⟩
    · rw [List.map_append, r1, s1, ← boneNodes_cons c cs]
    · rw [s2, r2, List.map_append, List.append_assoc]
    · intro k r hr
      rw [boneNodes_cons c cs]
      by_cases hk : k < rows.length
      · rw [List.getElem?_append_left hk] at hr
        rcases r3 k r hr with ⟨e1, e2⟩ | ⟨j, q, e1, e2, e3, e4⟩
        · left; exact ⟨e1, by simp at e2; simp [e2]⟩
        · right; exact ⟨j, q, e1, e2, by rw [List.getElem?_append_left (by omega)]; exact e3, e4⟩
      · rw [List.getElem?_append_right (by omega)] at hr
        rcases s3 _ r hr with ⟨e1, e2⟩ | ⟨j, q, e1, e2, e3, e4⟩
        · left; exact ⟨e1, by simp [e2]⟩
        · right
          refine ⟨rows.length + j, q, by omega, by rw [e2, hl2]; congr 1; omega, ?_, e4⟩
          rw [List.getElem?_append_right (by omega), hlen]
          simpa using e3
    · intro k n hk
      rw [boneNodes_cons c cs] at hk
      by_cases hk' : k < (boneNodes [c]).length
      · rw [List.getElem?_append_left hk'] at hk
        rw [s5, r4 k n hk]
        intro d hd
        exact (hdisj d ((boneNodes_sub cs).subset hd) n (hsub1 n (List.mem_of_getElem? hk))).symm
      · rw [List.getElem?_append_right (by omega)] at hk
        rw [s4 _ n hk, hl2]; congr 2; omega
    · intro q hq
      rw [boneNodes_cons c cs] at hq
      rw [s5 q fun n hn => hq n (List.mem_append_right _ hn), r5 q fun n hn => hq n (List.mem_append_left _ hn)]
end

theorem sceneBones_spec {cs : List FNode} (h : Addressed cs) :
    Gathers cs (-1) ((markAll (fun _ => none) cs).1, []) (sceneBones cs) := by
  refine gatherAllBones_spec cs _ (-1) h fun d hd => ?_
  rw [(markAll_spec cs _).2]
  simp only [Option.isSome_none, Bool.false_eq_true, false_or]
  constructor
  · rintro ⟨e, he, hp⟩
    have he' := (boneNodes_sub cs).subset he
    have : e = d := List.inj_on_of_nodup_map h he' hd hp
    rw [← this]
    have := List.mem_filter.mp he
    simpa using this.2
  · intro hn
    exact ⟨d, List.mem_filter.mpr ⟨hd, by simpa using hn⟩, rfl⟩

/-! ### The third pass -/

theorem reached_walk {ro : Bool} {result : FNode → List Channel} {cs : List FNode} {d : FNode} (h : Reached ro result cs d) :
    d ∈ walkAll cs := by
  induction h with
  | top h => exact mem_walkAll.mpr ⟨_, h, FNode.self_mem_walk _⟩
  | child _ _ h ih =>
    refine walkAll_trans cs _ _ ih ?_
    rw [FNode.walk_eq]
    exact List.mem_cons_of_mem _ (mem_walkAll.mpr ⟨_, h, FNode.self_mem_walk _⟩)

theorem reached_cons {ro : Bool} {result : FNode → List Channel} {c d : FNode} {cs : List FNode} :
    Reached ro result (c :: cs) d ↔ Reached ro result [c] d ∨ Reached ro result cs d := by
  constructor
  · intro h
    induction h with
    | top h =>
      rcases List.mem_cons.mp h with rfl | h
      · exact Or.inl (.top (by simp))
      · exact Or.inr (.top h)
    | child _ h1 h2 ih =>
      rcases ih with h | h
      · exact Or.inl (.child h h1 h2)
      · exact Or.inr (.child h h1 h2)
  · rintro (h | h)
    · induction h with
      | top h => rw [List.mem_singleton.mp h]; exact .top (by simp)
      | child _ h1 h2 ih => exact .child ih h1 h2
    · induction h with
      | top h => exact .top (List.mem_cons_of_mem _ h)
      | child _ h1 h2 ih => exact .child ih h1 h2

theorem reached_single {ro : Bool} {result : FNode → List Channel} {n d : FNode} :
    Reached ro result [n] d ↔ d = n ∨ ((ro = false ∨ result n = []) ∧ Reached ro result n.children d) := by
  constructor
  · intro h
    induction h with
    | top h => exact Or.inl (List.mem_singleton.mp h)
    | child _ h1 h2 ih =>
      rcases ih with rfl | ⟨h3, h4⟩
      · exact Or.inr ⟨h1, .top h2⟩
      · exact Or.inr ⟨h3, .child h4 h1 h2⟩
  · rintro (rfl | ⟨h1, h2⟩)
    · exact .top (by simp)
    · induction h2 with
      | top h => exact .child (.top (by simp)) h1 h
      | child _ h3 h4 ih => exact .child ih h3 h4

/-- Pruning changes no bone. -/
def Settled (prune : List Channel → Option (List Channel)) (bones : List Bone) : Prop := ∀ b ∈ bones, prune b.channels = some b.channels

theorem mapM_prune {prune : List Channel → Option (List Channel)} : ∀ {bones : List Bone}, Settled prune bones →
    bones.mapM (fun b => (prune b.channels).map fun c => { b with channels := c }) = some bones
  | [], _ => rfl
  | b :: bs, h => by
    rw [List.mapM_cons, h b (by simp)]
    have := mapM_prune (bones := bs) fun x hx => h x (by simp [hx])
    simp [this]

theorem mapM_prune_modify {prune : List Channel → Option (List Channel)} {g r : List Channel} (hg : prune g = some r) :
    ∀ {bones : List Bone} {i : ℕ}, Settled prune bones → (∀ b, bones[i]? = some b → b.channels = []) →
    (bones.modify i fun b => { b with channels := b.channels ++ g }).mapM
      (fun b => (prune b.channels).map fun c => { b with channels := c }) = some (bones.modify i fun b => { b with channels := r })
  | [], i, _, _ => by simp
  | b :: bs, 0, h, h0 => by
    have := mapM_prune (bones := bs) fun x hx => h x (by simp [hx])
    have hb := h0 b (by simp)
    simp [List.mapM_cons, hb, hg, this]
  | b :: bs, i + 1, h, h0 => by
    have := mapM_prune_modify hg (bones := bs) (i := i) (fun x hx => h x (by simp [hx])) (fun x hx => h0 x (by simpa using hx))
    rw [List.modify_succ_cons, List.mapM_cons, h b (by simp)]
    simp [this]

/-- What is assumed of the channels of the nodes. -/
def ChansOk (chans : FNode → Option (List Channel)) (prune : List Channel → Option (List Channel)) (result : FNode → List Channel)
    (cs : List FNode) : Prop :=
  ∀ n ∈ boneNodes cs, ∃ g, chans n = some g ∧ prune g = some (result n) ∧ prune (result n) = some (result n)

/-- What is assumed of the map before the third pass. -/
def Mapped (m : BoneMap) (bones : List Bone) (cs : List FNode) : Prop :=
  (∀ d ∈ boneNodes cs, ∃ i : ℕ, m d.ptr = some (i : ℤ) ∧ i < bones.length) ∧ (∀ d ∈ walkAll cs, ¬ d.Needs → m d.ptr = none) ∧
  (∀ d ∈ boneNodes cs, ∀ e ∈ boneNodes cs, m d.ptr = m e.ptr → d = e)

/-- The bones of these nodes have no channels yet. -/
def Fresh (m : BoneMap) (bones : List Bone) (cs : List FNode) : Prop :=
  ∀ d ∈ boneNodes cs, ∀ (i : ℕ) (b : Bone), m d.ptr = some (i : ℤ) → bones[i]? = some b → b.channels = []

/-- What the third pass does to the bones. -/
def Animates (prune : List Channel → Option (List Channel)) (ro : Bool) (result : FNode → List Channel) (m : BoneMap) (cs : List FNode)
    (bones bones' : List Bone) : Prop :=
  bones'.length = bones.length ∧ Settled prune bones' ∧
  (∀ d ∈ boneNodes cs, ∀ i : ℕ, m d.ptr = some (i : ℤ) → Reached ro result cs d →
    bones'[i]? = bones[i]?.map fun b => { b with channels := result d }) ∧
  (∀ k : ℕ, (∀ d ∈ boneNodes cs, m d.ptr = some (k : ℤ) → ¬ Reached ro result cs d) → bones'[k]? = bones[k]?)

theorem mem_boneNodes {cs : List FNode} {d : FNode} : d ∈ boneNodes cs ↔ d ∈ walkAll cs ∧ d.Needs := by
  unfold boneNodes; rw [List.mem_filter]; simp

mutual
theorem gatherAnim_spec {chans : FNode → Option (List Channel)} {prune : List Channel → Option (List Channel)} {ro : Bool}
    {result : FNode → List Channel} {m : BoneMap} : ∀ (n : FNode) (bones : List Bone), (n.walk.map FNode.ptr).Nodup →
    ChansOk chans prune result [n] → Mapped m bones [n] → Fresh m bones [n] → Settled prune bones →
    ∃ bones', gatherAnim chans prune ro m bones n = some bones' ∧ Animates prune ro result m [n] bones bones'
  | .mk p nm s cs, bones, hnd, hc, hm, hf, hs => by
    rw [gatherAnim]
    by_cases hn : (FNode.mk p nm s cs).Needs
    · have hb : boneNodes [FNode.mk p nm s cs] = FNode.mk p nm s cs :: boneNodes cs := boneNodes_needs hn
      have hw : walkAll [FNode.mk p nm s cs] = FNode.mk p nm s cs :: walkAll cs := by simp [walkAll, FNode.walk]
      obtain ⟨i, hi, hil⟩ := hm.1 (FNode.mk p nm s cs) (by rw [hb]; simp)
      have hi' : m p = some (i : ℤ) := hi
      rw [hi']
      obtain ⟨g, g1, g2, g3⟩ := hc (FNode.mk p nm s cs) (by rw [hb]; simp)
      have hnode : gatherNode chans prune (.mk p nm s cs) (i : ℤ) bones =
          some (bones.modify i fun b => { b with channels := result (.mk p nm s cs) }) := by
        unfold gatherNode
        rw [if_pos ⟨by omega, by exact_mod_cast hil⟩, g1]
        exact mapM_prune_modify g2 hs fun b hb' => hf (FNode.mk p nm s cs) (by rw [hb]; simp) i b hi hb'
      dsimp only
      rw [hnode]
      dsimp only
      rw [if_neg (by omega)]
      set B := bones.modify i fun b => { b with channels := result (.mk p nm s cs) } with hB
      have hBi : B[i]? = bones[i]?.map fun b => { b with channels := result (.mk p nm s cs) } := by
        rw [hB, List.getElem?_modify]; simp
      have hBk : ∀ k, k ≠ i → B[k]? = bones[k]? := by
        intro k hk
        rw [hB, List.getElem?_modify]
        have : i ≠ k := fun e => hk e.symm
        simp [this]
      have hBl : B.length = bones.length := by rw [hB, List.length_modify]
      have hBs : Settled prune B := by
        intro b hb'
        obtain ⟨k, hk⟩ := List.mem_iff_getElem?.mp hb'
        by_cases hki : k = i
        · subst hki
          rw [hBi] at hk
          obtain ⟨b0, -, rfl⟩ := Option.map_eq_some_iff.mp hk
          exact g3
        · rw [hBk k hki] at hk
          exact hs b (List.mem_of_getElem? hk)
      obtain ⟨b0, hb0⟩ : ∃ b0, bones[i]? = some b0 := ⟨_, List.getElem?_eq_getElem hil⟩
      have hsr : shouldRecurse ro B (i : ℤ) = some (!ro || (result (.mk p nm s cs)).isEmpty) := by
        unfold shouldRecurse
        rw [Int.toNat_natCast, hBi, hb0]; rfl
      rw [hsr]
      rw [FNode.walk, List.map_cons, List.nodup_cons] at hnd
      have hne : ∀ d ∈ boneNodes cs, d ≠ FNode.mk p nm s cs := by
        rintro d hd rfl
        exact hnd.1 (List.mem_map_of_mem ((boneNodes_sub cs).subset hd))
      have hidx : ∀ d ∈ boneNodes cs, m d.ptr ≠ some (i : ℤ) := fun d hd e =>
        hne d hd (hm.2.2 d (by rw [hb]; simp [hd]) _ (by rw [hb]; simp) (e.trans hi.symm))
      by_cases hro : ro = false ∨ result (.mk p nm s cs) = []
      · have : (!ro || (result (.mk p nm s cs)).isEmpty) = true := by
          rcases hro with h | h <;> simp [h]
        rw [this]
        dsimp only
        obtain ⟨B', a1, a2, a3, a4, a5⟩ := gatherAllAnim_spec (chans := chans) (prune := prune) (ro := ro) (result := result) (m := m) cs B hnd.2
          (fun d hd => hc d (by rw [hb]; simp [hd]))
          ⟨fun d hd => by
            obtain ⟨j, h1, h2⟩ := hm.1 d (by rw [hb]; simp [hd])
            exact ⟨j, h1, hBl ▸ h2⟩, fun d hd => hm.2.1 d (by rw [hw]; simp [hd]),
            fun d hd e he => hm.2.2 d (by rw [hb]; simp [hd]) e (by rw [hb]; simp [he])⟩
          (fun d hd j b h1 h2 => by
            refine hf d (by rw [hb]; simp [hd]) j b h1 ?_
            rw [← hBk j (by rintro rfl; exact hidx d hd h1)]; exact h2)
          hBs
        refine ⟨B', a1, a2.trans hBl, a3, ?_, ?_⟩
        · intro d hd j hj hr
          rw [hb, List.mem_cons] at hd
          rcases hd with rfl | hd
          · obtain rfl : j = i := by
              have := hj.symm.trans hi
              simpa using this
            rw [a5 j fun e he h => absurd h (hidx e he)]
            exact hBi
          · rw [reached_single] at hr
            rcases hr with rfl | ⟨-, hr⟩
            · exact absurd rfl (hne _ hd)
            · rw [a4 d hd j hj hr, hBk j (by rintro rfl; exact hidx d hd hj)]
        · intro k hk
          have hki : k ≠ i := by
            rintro rfl
            exact hk (FNode.mk p nm s cs) (by rw [hb]; simp) hi (.top (by simp))
          rw [a5 k fun d hd h hr => hk d (by rw [hb]; simp [hd]) h (reached_single.mpr (Or.inr ⟨hro, hr⟩)), hBk k hki]
      · have : (!ro || (result (.mk p nm s cs)).isEmpty) = false := by
          push Not at hro
          have h1 : ro = true := by simpa using hro.1
          simp [h1, hro.2]
        rw [this]
        refine ⟨B, rfl, hBl, hBs, ?_, ?_⟩
        · intro d hd j hj hr
          rw [reached_single] at hr
          rcases hr with rfl | ⟨h, -⟩
          · obtain rfl : j = i := by
              have := hj.symm.trans hi
              simpa using this
            exact hBi
          · exact absurd h hro
        · intro k hk
          refine hBk k ?_
          rintro rfl
          exact hk (FNode.mk p nm s cs) (by rw [hb]; simp) hi (.top (by simp))
    · have : m p = none := hm.2.1 (FNode.mk p nm s cs) (by simp [walkAll, FNode.walk]) hn
      rw [this]
      refine ⟨bones, rfl, rfl, hs, ?_, fun _ _ => rfl⟩
      intro d hd
      rw [boneNodes_not hn] at hd
      simp at hd
theorem gatherAllAnim_spec {chans : FNode → Option (List Channel)} {prune : List Channel → Option (List Channel)} {ro : Bool}
    {result : FNode → List Channel} {m : BoneMap} : ∀ (cs : List FNode) (bones : List Bone), ((walkAll cs).map FNode.ptr).Nodup →
    ChansOk chans prune result cs → Mapped m bones cs → Fresh m bones cs → Settled prune bones →
    ∃ bones', gatherAllAnim chans prune ro m bones cs = some bones' ∧ Animates prune ro result m cs bones bones'
  | [], bones, _, _, _, _, hs => by
    rw [gatherAllAnim]
    exact ⟨bones, rfl, rfl, hs, by simp [boneNodes, walkAll], fun _ _ => rfl⟩
  | c :: cs, bones, hnd, hc, hm, hf, hs => by
    have hw : walkAll (c :: cs) = c.walk ++ walkAll cs := by rw [walkAll]
    have hw1 : walkAll [c] = c.walk := by simp [walkAll]
    have hb := boneNodes_cons c cs
    rw [hw, List.map_append, List.nodup_append] at hnd
    obtain ⟨n1, n2, n3⟩ := hnd
    have hdisj : ∀ d ∈ boneNodes [c], d ∉ walkAll cs := by
      intro d hd h
      have := (boneNodes_sub [c]).subset hd
      rw [hw1] at this
      exact n3 _ (List.mem_map_of_mem this) _ (List.mem_map_of_mem h) rfl
    have hdisj' : ∀ d ∈ boneNodes cs, d ∉ walkAll [c] := by
      intro d hd h
      rw [hw1] at h
      exact n3 _ (List.mem_map_of_mem h) _ (List.mem_map_of_mem ((boneNodes_sub cs).subset hd)) rfl
    have hne : ∀ d ∈ boneNodes [c], ∀ e ∈ boneNodes cs, m d.ptr ≠ m e.ptr := by
      intro d hd e he h
      have := hm.2.2 d (by rw [hb]; simp [hd]) e (by rw [hb]; simp [he]) h
      subst this
      exact hdisj d hd ((boneNodes_sub cs).subset he)
    obtain ⟨B, a1, a2, a3, a4, a5⟩ := gatherAnim_spec (chans := chans) (prune := prune) (ro := ro) (result := result) (m := m) c bones n1
      (fun d hd => hc d (by rw [hb]; simp [hd]))
      ⟨fun d hd => hm.1 d (by rw [hb]; simp [hd]), fun d hd => hm.2.1 d (by rw [hw]; rw [hw1] at hd; simp [hd]),
        fun d hd e he => hm.2.2 d (by rw [hb]; simp [hd]) e (by rw [hb]; simp [he])⟩
      (fun d hd => hf d (by rw [hb]; simp [hd])) hs
    obtain ⟨B', b1, b2, b3, b4, b5⟩ := gatherAllAnim_spec (chans := chans) (prune := prune) (ro := ro) (result := result) (m := m) cs B n2
      (fun d hd => hc d (by rw [hb]; simp [hd]))
      ⟨fun d hd => by
          obtain ⟨j, h1, h2⟩ := hm.1 d (by rw [hb]; simp [hd])
          exact ⟨j, h1, a2 ▸ h2⟩, fun d hd => hm.2.1 d (by rw [hw]; simp [hd]),
        fun d hd e he => hm.2.2 d (by rw [hb]; simp [hd]) e (by rw [hb]; simp [he])⟩
      (fun d hd j b h1 h2 => by
        refine hf d (by rw [hb]; simp [hd]) j b h1 ?_
        rw [← a5 j fun e he h => absurd (h.trans h1.symm) (hne e he d hd)]; exact h2)
      a3
    rw [gatherAllAnim, a1]
    refine ⟨B', b1, b2.trans a2, b3, ?_, ?_⟩
    · intro d hd j hj hr
      rw [hb, List.mem_append] at hd
      rw [reached_cons] at hr
      rcases hd with hd | hd
      · rw [b5 j fun e he h => absurd (hj.trans h.symm) (hne d hd e he)]
        exact a4 d hd j hj (hr.resolve_right fun h => hdisj d hd (reached_walk h))
      · rw [b4 d hd j hj (hr.resolve_left fun h => hdisj' d hd (reached_walk h)),
          a5 j fun e he h => absurd (h.trans hj.symm) (hne e he d hd)]
    · intro k hk
      rw [b5 k fun d hd h hr => hk d (by rw [hb]; simp [hd]) h (reached_cons.mpr (Or.inr hr)),
        a5 k fun d hd h hr => hk d (by rw [hb]; simp [hd]) h (reached_cons.mpr (Or.inl hr))]
end

/-! ### C74 -/

/-- C74: the bones are the nodes that are, or have below them, part of a skeleton or a mesh; in depth-first order, with the name of the node and
no channels.  The parent of a bone is -1 for a child of the root of the scene, and otherwise an earlier bone: that of the node it is a child of.
Every such node is mapped to its bone, and no other node to any. -/
theorem C74_bones (cs : List FNode) (h : Addressed cs) :
    (sceneBones cs).2.length = (boneNodes cs).length ∧
    ∀ (k : ℕ) (n : FNode), (boneNodes cs)[k]? = some n → ∃ b, (sceneBones cs).2[k]? = some b ∧ b.name = n.name ∧ b.channels = [] ∧
      (sceneBones cs).1 n.ptr = some (k : ℤ) ∧
      ((b.parent = -1 ∧ n ∈ cs) ∨ ∃ j p, j < k ∧ b.parent = (j : ℕ) ∧ (boneNodes cs)[j]? = some p ∧ n ∈ p.children) := by
  obtain ⟨rows, r1, r2, r3, r4, r5⟩ := sceneBones_spec h
  have hl : rows.length = (boneNodes cs).length := by rw [← r1, List.length_map]
  refine ⟨by rw [r2]; simp [hl], fun k n hk => ?_⟩
  have hk' : (rows.map Prod.fst)[k]? = some n := by rw [r1]; exact hk
  rw [List.getElem?_map] at hk'
  obtain ⟨r, hr, rfl⟩ := Option.map_eq_some_iff.mp hk'
  refine ⟨⟨r.1.name, r.2, []⟩, by rw [r2]; simp [hr], rfl, rfl, by simpa using r4 k r.1 hk, ?_⟩
  rcases r3 k r hr with h | ⟨j, p, h1, h2, h3, h4⟩
  · exact Or.inl h
  · exact Or.inr ⟨j, p, h1, by simpa using h2, h3, h4⟩

/-- C74: nodes without a bone are not in the map. -/
theorem C74_others (cs : List FNode) (h : Addressed cs) (n : FNode) (hn : n ∈ walkAll cs) (hb : ¬ n.Needs) : (sceneBones cs).1 n.ptr = none := by
  obtain ⟨rows, r1, r2, r3, r4, r5⟩ := sceneBones_spec h
  have hne : ∀ d ∈ boneNodes cs, d.ptr ≠ n.ptr := by
    intro d hd e
    obtain ⟨h1, h2⟩ := mem_boneNodes.mp hd
    exact hb (List.inj_on_of_nodup_map h h1 hn e ▸ h2)
  rw [r5 _ hne, ← Option.not_isSome_iff_eq_none, (markAll_spec cs _).2]
  rintro (h | ⟨d, hd, e⟩)
  · simp at h
  · exact hne d hd e

/-- C74: if the channels of each bone node can be gathered and pruned, and pruning them again changes nothing (C77), then the import of a scene
succeeds, with the bones of `C74_bones`.  The channels of a bone are those gathered for its node, pruned; with `rootOnly`, a bone below one
that has channels gets none.  The bones do not affect each other. -/
theorem C74_animation {chans : FNode → Option (List Channel)} {prune : List Channel → Option (List Channel)} {rootOnly : Bool}
    {result : FNode → List Channel} (cs : List FNode) (h : Addressed cs) (h0 : prune [] = some [])
    (hc : ∀ n ∈ boneNodes cs, ∃ g, chans n = some g ∧ prune g = some (result n) ∧ prune (result n) = some (result n)) :
    ∃ bones, gatherFlatAnim chans prune rootOnly cs = some bones ∧ bones.length = (boneNodes cs).length ∧
      ∀ (k : ℕ) (n : FNode) (b : Bone), (boneNodes cs)[k]? = some n → (sceneBones cs).2[k]? = some b →
        (Reached rootOnly result cs n → bones[k]? = some { b with channels := result n }) ∧
        (¬ Reached rootOnly result cs n → bones[k]? = some b) := by
  obtain ⟨l, hb⟩ := C74_bones cs h
  have hidx : ∀ d ∈ boneNodes cs, ∃ i : ℕ, (sceneBones cs).1 d.ptr = some (i : ℤ) ∧ (boneNodes cs)[i]? = some d := by
    intro d hd
    obtain ⟨i, hi⟩ := List.mem_iff_getElem?.mp hd
    obtain ⟨b, -, -, -, hm, -⟩ := hb i d hi
    exact ⟨i, hm, hi⟩
  have hinj : ∀ d ∈ boneNodes cs, ∀ e ∈ boneNodes cs, (sceneBones cs).1 d.ptr = (sceneBones cs).1 e.ptr → d = e := by
    intro d hd e he hde
    obtain ⟨i, i1, i2⟩ := hidx d hd
    obtain ⟨j, j1, j2⟩ := hidx e he
    have : i = j := by
      have := i1.symm.trans (hde.trans j1)
      simpa using this
    subst this
    rw [i2] at j2
    simpa using j2
  have hempty : ∀ b ∈ (sceneBones cs).2, b.channels = [] := by
    intro b hb'
    obtain ⟨i, hi⟩ := List.mem_iff_getElem?.mp hb'
    have hi' : i < (boneNodes cs).length := l ▸ (List.getElem?_eq_some_iff.mp hi).1
    obtain ⟨b', h1, -, h2, -⟩ := hb i _ (List.getElem?_eq_getElem hi')
    rw [hi] at h1
    obtain rfl : b = b' := by simpa using h1
    exact h2
  obtain ⟨bones, g1, g2, g3, g4, g5⟩ := gatherAllAnim_spec (chans := chans) (prune := prune) (ro := rootOnly) (result := result)
    (m := (sceneBones cs).1) cs (sceneBones cs).2 h hc
    ⟨fun d hd => by
        obtain ⟨i, i1, i2⟩ := hidx d hd
        exact ⟨i, i1, l ▸ (List.getElem?_eq_some_iff.mp i2).1⟩, fun d hd hn => C74_others cs h d hd hn, hinj⟩
    (fun d hd i b _ h2 => hempty b (List.mem_of_getElem? h2)) (fun b hb' => by rw [hempty b hb', h0])
  refine ⟨bones, g1, g2.trans l, fun k n b hk hbk => ?_⟩
  obtain ⟨b', -, -, -, hm, -⟩ := hb k n hk
  have hn : n ∈ boneNodes cs := List.mem_of_getElem? hk
  constructor
  · intro hr
    rw [g4 n hn k hm hr, hbk]; rfl
  · intro hr
    rw [g5 k ?_, hbk]
    intro d hd hdk hr'
    rw [hinj d hd n hn (hdk.trans hm.symm)] at hr'
    exact hr hr'

/-- A scene: a light, and a group with a body, whose arm is a bone with a hand without a mesh, and a camera. -/
def demoScene : List FNode :=
  [.mk 1 "light" false [], .mk 2 "group" false [.mk 3 "camera" false [], .mk 4 "body" true [.mk 5 "arm" true [.mk 6 "hand" false []]]]]

example : Addressed demoScene := by
  unfold Addressed
  simp [demoScene, walkAll, FNode.walk, FNode.ptr]

example : (boneNodes demoScene).map FNode.name = ["group", "body", "arm"] := by
  have w : ∀ (p : ℕ) (n : String) (s : Bool) (cs : List FNode), (FNode.mk p n s cs).Needs ↔ s = true ∨ ∃ c ∈ cs, c.Needs := fun p n s cs =>
    FNode.needs_iff _
  simp [boneNodes, demoScene, walkAll, FNode.walk, FNode.name, w]

/-- Each bone of the scene has one channel, except the group. -/
example : ∃ result : FNode → List Channel, result (.mk 2 "group" false (demoScene[1].children)) = [] ∧
    (∀ n ∈ boneNodes demoScene, ∃ g, (fun n => some (result n)) n = some g ∧ some g = some (result n) ∧ some (result n) = some (result n)) ∧
    Reached true result demoScene (.mk 4 "body" true [.mk 5 "arm" true [.mk 6 "hand" false []]]) ∧
    ¬ Reached true result demoScene (.mk 5 "arm" true [.mk 6 "hand" false []]) := by
  refine ⟨fun n => if n.name = "group" then [] else [⟨.rotateX, 0, []⟩], ?_, ?_, ?_, ?_⟩
  · simp [FNode.name]
  · intro n _; exact ⟨_, rfl, rfl, rfl⟩
  · exact .child (p := .mk 2 "group" false [.mk 3 "camera" false [], .mk 4 "body" true [.mk 5 "arm" true [.mk 6 "hand" false []]]])
      (.top (by simp [demoScene])) (by simp [FNode.name]) (by simp [FNode.children])
  · intro h
    rw [show demoScene = [FNode.mk 1 "light" false [], FNode.mk 2 "group" false [FNode.mk 3 "camera" false [],
      FNode.mk 4 "body" true [FNode.mk 5 "arm" true [FNode.mk 6 "hand" false []]]]] from rfl, reached_cons, reached_single, reached_single] at h
    simp only [FNode.children, FNode.name] at h
    rw [reached_cons, reached_single, reached_single] at h
    simp only [FNode.children] at h
    have hnil : ∀ {ro : Bool} {r : FNode → List Channel} {d : FNode}, ¬ Reached ro r [] d := fun h => by
      have := reached_walk h; simp [walkAll] at this
    simp [hnil] at h

end
end Motive.Pipeline
