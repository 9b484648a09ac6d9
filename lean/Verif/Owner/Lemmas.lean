import Verif.Owner.Model
import Verif.Proc.Clean

/-! What calls on children do, read on the abstract states of both levels. -/

namespace Motive.Owner

open Motive.Proc

variable {δ ρ κ : Type}

/-- The addresses of the operations of matrix `m`. -/
def addrs (B : Abs (Comp ρ κ)) (m : MotId) : List MotId := addrsOf (((B.vals m).map Prod.snd).getD [])

def addrsIn (v : Option (ProcId × List (Comp ρ κ))) : List MotId := addrsOf ((v.map Prod.snd).getD [])

/-- Children belong to exactly one matrix, and every valid motivator is a child or stands alone. -/
structure Owned (U : MotId → Bool) (A : Abs δ) (B : Abs (Comp ρ κ)) : Prop where
  nodup : ∀ m, (addrs B m).Nodup
  disj : ∀ m m' a, a ∈ addrs B m → a ∈ addrs B m' → m = m'
  inner : ∀ m a, a ∈ addrs B m → U a = false
  owned : ∀ a, A.vals a ≠ none → U a = true ∨ ∃ m, a ∈ addrs B m

def nest (v : MotId → Option (ProcId × List δ)) (l : List (Comp ρ κ)) : List (NComp δ ρ κ) :=
  l.map fun c => ⟨c.result, c.items.map fun i => ⟨i.info, v i.addr⟩⟩

def nestedOf (U : MotId → Bool) (A : Abs δ) (B : Abs (Comp ρ κ)) : Nested δ ρ κ :=
  ⟨A.procs, B.procs, fun m => if U m then A.vals m else none, fun m => (B.vals m).map fun x => (x.1, nest A.vals x.2)⟩

theorem nested_eq (U : MotId → Bool) (S : Sys δ ρ κ) : S.nested U = nestedOf U S.leaves.view S.comps.view := rfl

def fold (A : Abs δ) (ops : List (Op δ)) : Abs δ := ops.foldl (fun s op => absStep op s) A

theorem fold_append (A : Abs δ) (l l' : List (Op δ)) : fold A (l ++ l') = fold (fold A l) l' := List.foldl_append

theorem mem_addrsOf {l : List (Comp ρ κ)} {a : MotId} : a ∈ addrsOf l ↔ ∃ c ∈ l, ∃ i ∈ c.items, i.addr = a := by
  simp [addrsOf, Comp.addrs]

theorem nest_congr {v v' : MotId → Option (ProcId × List δ)} {l : List (Comp ρ κ)} (h : ∀ a ∈ addrsOf l, v a = v' a) :
    nest v l = nest v' l := by
  refine List.map_congr_left fun c hc => ?_
  congr 1
  refine List.map_congr_left fun i hi => ?_
  rw [h i.addr (mem_addrsOf.mpr ⟨c, hc, i, hi, rfl⟩)]

theorem addrs_set {B : Abs (Comp ρ κ)} {m x : MotId} {v : Option (ProcId × List (Comp ρ κ))} :
    addrs (B.set m v) x = if x = m then addrsIn v else addrs B x := by
  unfold addrs addrsIn Abs.set
  by_cases h : x = m <;> simp [h]

/-- A call that changes one matrix and its children only. -/
theorem Owned.update {U : MotId → Bool} {A A' : Abs δ} {B : Abs (Comp ρ κ)} (h : Owned U A B) {m : MotId}
    {v : Option (ProcId × List (Comp ρ κ))} (hp : A'.procs = A.procs) (hn : (addrsIn v).Nodup)
    (hf : ∀ a ∈ addrsIn v, U a = false ∧ ∀ m', m' ≠ m → a ∉ addrs B m')
    (ho : ∀ a ∈ addrs B m, a ∉ addrsIn v → A'.vals a = none)
    (hk : ∀ a, a ∉ addrs B m → a ∉ addrsIn v → A'.vals a = A.vals a) :
    Owned U A' (B.set m v) ∧
      nestedOf U A' (B.set m v) = (nestedOf U A B).set m (v.map fun x => (x.1, nest A'.vals x.2)) := by
  have hout : ∀ m', m' ≠ m → ∀ a ∈ addrs B m', A'.vals a = A.vals a := fun m' hm a ha =>
    hk a (fun hc => hm (h.disj m' m a ha hc)) (fun hc => (hf a hc).2 m' hm ha)
  have huser : ∀ a, U a = true → A'.vals a = A.vals a := fun a ha =>
    hk a (fun hc => by simpa [ha] using h.inner m a hc) (fun hc => by simpa [ha] using (hf a hc).1)
  refine ⟨⟨?_, ?_, ?_, ?_⟩, ?_⟩
  · intro x
    rw [addrs_set]
    split
    · exact hn
    · exact h.nodup x
  · intro x y a hx hy
    rw [addrs_set] at hx hy
    split at hx <;> split at hy
    · simp [*]
    · rename_i h1 h2; exact absurd hy ((hf a hx).2 y h2)
    · rename_i h1 h2; exact absurd hx ((hf a hy).2 x h1)
    · exact h.disj x y a hx hy
  · intro x a hx
    rw [addrs_set] at hx
    split at hx
    · exact (hf a hx).1
    · exact h.inner x a hx
  · intro a ha
    by_cases h1 : a ∈ addrsIn v
    · exact Or.inr ⟨m, by rw [addrs_set, if_pos rfl]; exact h1⟩
    · by_cases h2 : a ∈ addrs B m
      · exact absurd (ho a h2 h1) ha
      · rw [hk a h2 h1] at ha
        rcases h.owned a ha with h3 | ⟨x, hx⟩
        · exact Or.inl h3
        · refine Or.inr ⟨x, ?_⟩
          rw [addrs_set, if_neg (by rintro rfl; exact h2 hx)]
          exact hx
  · ext1
    · exact hp
    · rfl
    · funext a
      simp only [nestedOf, Nested.set]
      split
      · rename_i hU; exact huser a hU
      · rfl
    · funext x
      simp only [nestedOf, Nested.set, Abs.set]
      by_cases hx : x = m
      · simp [hx]
      · simp only [if_neg hx]
        cases hv : B.vals x with
        | none => rfl
        | some y =>
          simp only [Option.map_some]
          rw [nest_congr fun a ha => hout x hx a (by unfold addrs; rw [hv]; exact ha)]

/-- The slots of a matrix go to another one. -/
theorem Owned.move {U : MotId → Bool} {A : Abs δ} {B : Abs (Comp ρ κ)} (h : Owned U A B) {d s : MotId} (hds : d ≠ s)
    (hd : B.vals d = none) :
    Owned U A ((B.set d (B.vals s)).set s none) ∧
      nestedOf U A ((B.set d (B.vals s)).set s none) = ((nestedOf U A B).set d ((nestedOf U A B).comps s)).set s none := by
  have key : ∀ x, addrs ((B.set d (B.vals s)).set s none) x = if x = s then [] else if x = d then addrs B s else addrs B x := by
    intro x
    rw [addrs_set, addrs_set]
    rfl
  have hd' : addrs B d = [] := by unfold addrs; rw [hd]; rfl
  refine ⟨⟨?_, ?_, ?_, ?_⟩, ?_⟩
  · intro x
    rw [key]
    split
    · exact List.nodup_nil
    · split
      · exact h.nodup s
      · exact h.nodup x
  · intro x y a hx hy
    rw [key] at hx hy
    split at hx
    · simp at hx
    split at hy
    · simp at hy
    rename_i hxs hys
    split at hx <;> split at hy
    · simp [*]
    · exact absurd (h.disj s y a hx hy).symm hys
    · exact absurd (h.disj x s a hx hy) hxs
    · exact h.disj x y a hx hy
  · intro x a hx
    rw [key] at hx
    split at hx
    · simp at hx
    · split at hx
      · exact h.inner s a hx
      · exact h.inner x a hx
  · intro a ha
    rcases h.owned a ha with h3 | ⟨x, hx⟩
    · exact Or.inl h3
    · by_cases hxs : x = s
      · subst hxs
        exact Or.inr ⟨d, by rw [key, if_neg hds, if_pos rfl]; exact hx⟩
      · refine Or.inr ⟨x, ?_⟩
        rw [key, if_neg hxs]
        split
        · rename_i hxd; subst hxd; rw [hd'] at hx; simp at hx
        · exact hx
  · ext1
    · rfl
    · rfl
    · rfl
    · funext x
      simp only [nestedOf, Nested.set, Abs.set]
      by_cases h1 : x = s
      · simp [h1]
      · by_cases h2 : x = d <;> simp [h1, h2, hds]

/-! ### Lists of calls on children -/

theorem fold_invalidate (l : List MotId) (A : Abs δ) :
    fold A (l.map .invalidate) = ⟨A.procs, fun a => if a ∈ l then none else A.vals a⟩ := by
  induction l generalizing A with
  | nil => simp [fold]
  | cons b l ih =>
    rw [List.map_cons, show fold A (.invalidate b :: l.map .invalidate) = fold (A.set b none) (l.map .invalidate) from rfl, ih]
    ext1
    · rfl
    · funext a
      simp only [Abs.set, List.mem_cons]
      by_cases h1 : a ∈ l <;> by_cases h2 : a = b <;> simp [h1, h2]

theorem fold_create (l : List (Part δ κ)) (A : Abs δ) (hn : (l.map Part.addr).Nodup) (hf : ∀ x ∈ l, A.vals x.addr = none) :
    (fold A (l.flatMap Part.create)).procs = A.procs ∧
    (∀ x ∈ l, (fold A (l.flatMap Part.create)).vals x.addr = made A.procs x.value) ∧
    ∀ a, a ∉ l.map Part.addr → (fold A (l.flatMap Part.create)).vals a = A.vals a := by
  induction l generalizing A with
  | nil => simp [fold]
  | cons b l ih =>
    simp only [List.map_cons, List.nodup_cons] at hn
    rw [List.flatMap_cons, fold_append]
    have hb : (fold A b.create).procs = A.procs ∧ (fold A b.create).vals b.addr = made A.procs b.value ∧
        ∀ a, a ≠ b.addr → (fold A b.create).vals a = A.vals a := by
      cases hv : b.value with
      | none => simp [Part.create, hv, fold, made, hf b List.mem_cons_self]
      | some v =>
        simp only [Part.create, hv, Option.map_some, Option.toList_some, fold, List.foldl_cons, List.foldl_nil, absStep, made,
          Option.filter_some]
        by_cases hg : (A.procs v.1).isSome ∧ 0 < v.2.length
        · rw [if_pos hg, if_pos (by simpa using hg)]
          refine ⟨rfl, by simp [Abs.set], fun a ha => by simp [Abs.set, ha]⟩
        · rw [if_neg hg, if_neg (by simpa using hg)]
          exact ⟨rfl, hf b List.mem_cons_self, fun _ _ => rfl⟩
    obtain ⟨b1, b2, b3⟩ := hb
    obtain ⟨c1, c2, c3⟩ := ih (fold A b.create) hn.2 (fun x hx => by
      rw [b3 _ (fun hc => hn.1 (hc ▸ List.mem_map_of_mem hx))]; exact hf x (List.mem_cons_of_mem _ hx))
    refine ⟨c1.trans b1, ?_, ?_⟩
    · intro x hx
      rcases List.mem_cons.mp hx with rfl | hx
      · rw [c3 _ hn.1, b2]
      · rw [c2 x hx, b1]
    · intro a ha
      simp only [List.map_cons, List.mem_cons, not_or] at ha
      rw [c3 a ha.2, b3 a ha.1]

theorem clone_one (A : Abs δ) {a b : MotId} (hab : b ≠ a) (P : Bool) (hP : P = (A.vals a).isSome) :
    absStep (.cloneFrom b (if P then some a else none)) A = A.set b (copied A.procs (A.vals a)) := by
  cases hv : A.vals a with
  | none => simp [hP, hv, absStep, copied]
  | some x =>
    simp only [hP, hv, Option.isSome_some, if_true, absStep, if_neg hab, copied, Option.filter_some, beq_iff_eq]
    split <;> rfl

theorem fold_clone (σ : MotId → MotId) (P : MotId → Bool) (l : List MotId) (A : Abs δ)
    (hinj : ∀ a ∈ l, ∀ b ∈ l, σ a = σ b → a = b) (hout : ∀ a ∈ l, ∀ b ∈ l, σ a ≠ b) (hP : ∀ a ∈ l, P a = (A.vals a).isSome) :
    (fold A (l.map fun a => .cloneFrom (σ a) (if P a then some a else none))).procs = A.procs ∧
    (∀ a ∈ l, (fold A (l.map fun a => .cloneFrom (σ a) (if P a then some a else none))).vals (σ a) = copied A.procs (A.vals a)) ∧
    ∀ x, (∀ a ∈ l, σ a ≠ x) → (fold A (l.map fun a => .cloneFrom (σ a) (if P a then some a else none))).vals x = A.vals x := by
  induction l generalizing A with
  | nil => simp [fold]
  | cons b l ih =>
    have e : fold A ((b :: l).map fun a => .cloneFrom (σ a) (if P a then some a else none)) =
        fold (A.set (σ b) (copied A.procs (A.vals b))) (l.map fun a => .cloneFrom (σ a) (if P a then some a else none)) := by
      rw [List.map_cons, ← clone_one A (hout b List.mem_cons_self b List.mem_cons_self) (P b) (hP b List.mem_cons_self)]
      rfl
    rw [e]
    have hsame : ∀ a ∈ l, (A.set (σ b) (copied A.procs (A.vals b))).vals a = A.vals a := fun a ha => by
      simp only [Abs.set]
      rw [if_neg (fun hc => hout b List.mem_cons_self a (List.mem_cons_of_mem _ ha) hc.symm)]
    obtain ⟨c1, c2, c3⟩ := ih (A.set (σ b) (copied A.procs (A.vals b)))
      (fun a ha c hc => hinj a (List.mem_cons_of_mem _ ha) c (List.mem_cons_of_mem _ hc))
      (fun a ha c hc => hout a (List.mem_cons_of_mem _ ha) c (List.mem_cons_of_mem _ hc))
      (fun a ha => by rw [hsame a ha]; exact hP a (List.mem_cons_of_mem _ ha))
    refine ⟨c1, ?_, ?_⟩
    · intro a ha
      by_cases hal : a ∈ l
      · rw [c2 a hal, hsame a hal]; rfl
      · have : a = b := by simpa [hal] using ha
        subst this
        rw [c3 (σ a) (fun c hc hcc => hal (hinj c (List.mem_cons_of_mem _ hc) a ha hcc ▸ hc))]
        simp [Abs.set]
    · intro x hx
      rw [c3 x (fun a ha => hx a (List.mem_cons_of_mem _ ha))]
      simp only [Abs.set]
      rw [if_neg (fun hc => hx b List.mem_cons_self hc.symm)]

theorem fold_writes {δ : Type} (m : MotId) (p : ProcId) (new : List δ) : ∀ (pre l : List δ) (B : Abs δ), new.length = l.length →
    B.vals m = some (p, pre ++ l) →
    fold B ((new.zipIdx pre.length).map fun x => .write m x.2 x.1) = B.set m (some (p, pre ++ new)) := by
  induction new with
  | nil =>
    intro pre l B hl hB
    have : l = [] := List.length_eq_zero_iff.mp hl.symm
    subst this
    exact (Abs.set_same hB).symm
  | cons c new ih =>
    intro pre l B hl hB
    match l, hl with
    | x :: l, hl =>
      rw [List.zipIdx_cons, List.map_cons]
      have e : absStep (.write m pre.length c) B = B.set m (some (p, (pre ++ [c]) ++ l)) := by
        simp only [absStep, hB]
        rw [if_pos (by simp)]
        congr 3
        rw [List.append_assoc, List.set_append_right _ _ (le_refl _)]
        simp
      have := ih (pre ++ [c]) l (B.set m (some (p, (pre ++ [c]) ++ l))) (by simpa using hl) (by simp [Abs.set])
      rw [List.length_append, List.length_singleton, Abs.set_set] at this
      rw [show fold B (.write m pre.length c :: (new.zipIdx (pre.length + 1)).map fun x => .write m x.2 x.1) =
        fold (absStep (.write m pre.length c) B) ((new.zipIdx (pre.length + 1)).map fun x => .write m x.2 x.1) from rfl, e, this]
      simp

end Motive.Owner
