import Verif.SplineProc.Ownership
import Verif.Proc.Clean
/-!
# C40: local spline ownership is linear
-/

namespace Motive.SplineProc

open Motive.Proc

/-! ### Specification -/

/-- Dimension `k` of motivator `m` is the slot `x`. -/
def State.At (st : State) (m : MotId) (k : Nat) (x : SSlot) : Prop :=
  ∃ l, st.w.view.vals m = some (sp, l) ∧ l[k]? = some x

/-- Dimension `k` of motivator `m` owns spline `s`. -/
def State.Owns (st : State) (m : MotId) (k s : Nat) : Prop := ∃ x, st.At m k x ∧ x.loc = some s

/-- Dimension `k` of motivator `m` plays `e`. -/
def State.Plays (st : State) (m : MotId) (k : Nat) (e : Source) : Prop := ∃ x, st.At m k x ∧ x.src = some e

/-! ### The invariant, on the abstract state -/

def AtA (v : Abs SSlot) (m : MotId) (k : Nat) (x : SSlot) : Prop := ∃ l, v.vals m = some (sp, l) ∧ l[k]? = some x

structure Lin (v : Abs SSlot) (pool : List Nat) (objs : List Obj) : Prop where
  nodup : pool.Nodup
  free : ∀ s ∈ pool, ∀ m k x, AtA v m k x → x.loc ≠ some s
  inj : ∀ s m k x m' k' x', AtA v m k x → AtA v m' k' x' → x.loc = some s → x'.loc = some s → m = m' ∧ k = k'
  made : ∀ s, s < objs.length ↔ s ∈ pool ∨ ∃ m k x, AtA v m k x ∧ x.loc = some s
  plays : ∀ m k x s, AtA v m k x → (x.loc = some s ↔ x.src = some (.own s))
  ext : ∀ m k x i c n, AtA v m k x → x.src = some (.ext i c n) → n ≤ c
  fits : ∀ o ∈ objs, o.nodes ≤ o.cap
  only : ∀ m p l, v.vals m = some (p, l) → p = sp

theorem AtA.inj {v : Abs SSlot} {m : MotId} {k : Nat} {x y : SSlot} (h : AtA v m k x) (h' : AtA v m k y) : x = y := by
  obtain ⟨l, h1, h2⟩ := h
  obtain ⟨l', h3, h4⟩ := h'
  rw [h1] at h3; simp at h3; subst h3
  rw [h2] at h4; simpa using h4

theorem atA_set_none {v : Abs SSlot} {m m' : MotId} {k : Nat} {x : SSlot} :
    AtA (v.set m none) m' k x ↔ m' ≠ m ∧ AtA v m' k x := by
  unfold AtA Abs.set
  by_cases h : m' = m <;> simp [h]

theorem atA_set_some {v : Abs SSlot} {m m' : MotId} {k : Nat} {x : SSlot} {l : List SSlot} :
    AtA (v.set m (some (sp, l))) m' k x ↔ (m' = m ∧ l[k]? = some x) ∨ (m' ≠ m ∧ AtA v m' k x) := by
  unfold AtA Abs.set
  by_cases h : m' = m <;> simp [h]

theorem atA_set_slot {v : Abs SSlot} {m m' : MotId} {k k' : Nat} {x y : SSlot} {l : List SSlot}
    (hv : v.vals m = some (sp, l)) (hk : k < l.length) :
    AtA (v.set m (some (sp, l.set k y))) m' k' x ↔
      (m' = m ∧ k' = k ∧ x = y) ∨ (¬ (m' = m ∧ k' = k) ∧ AtA v m' k' x) := by
  rw [atA_set_some]
  by_cases hm : m' = m
  · subst hm
    by_cases hkk : k' = k
    · subst hkk
      simp [hk, eq_comm]
    · simp only [hkk, and_false, not_false_eq_true, true_and, ne_eq, not_true_eq_false, false_and, or_false, false_or]
      rw [List.getElem?_set_ne (by omega)]
      constructor
      · intro h; exact ⟨l, hv, h⟩
      · rintro ⟨l', h1, h2⟩; rw [hv] at h1; simp at h1; subst h1; exact h2
  · simp [hm]

theorem filterMap_nodup {l : List SSlot}
    (h : ∀ (i j : Nat) (x y : SSlot) (s : Nat), l[i]? = some x → l[j]? = some y → x.loc = some s → y.loc = some s → i = j) :
    (l.filterMap SSlot.loc).Nodup := by
  induction l with
  | nil => simp
  | cons a l ih =>
    have ih' := ih fun i j x y s h1 h2 h3 h4 => by
      have := h (i + 1) (j + 1) x y s (by simpa using h1) (by simpa using h2) h3 h4
      omega
    rw [List.filterMap_cons]
    cases ha : a.loc with
    | none => simpa using ih'
    | some s =>
      simp only [List.nodup_cons]
      refine ⟨fun hm => ?_, ih'⟩
      rw [List.mem_filterMap] at hm
      obtain ⟨y, hy, hys⟩ := hm
      obtain ⟨j, hj⟩ := List.mem_iff_getElem?.mp hy
      have := h 0 (j + 1) a y s (by simp) (by simpa using hj) ha hys
      omega

/-- Removing a motivator. -/
theorem Lin.remove {v : Abs SSlot} {pool : List Nat} {objs : List Obj} (h : Lin v pool objs) (m : MotId) {l : List SSlot}
    (hl : v.vals m = some (sp, l) ∨ (v.vals m = none ∧ l = [])) :
    Lin (v.set m none) (pool ++ l.filterMap SSlot.loc) objs := by
  have hat : ∀ k x, l[k]? = some x → AtA v m k x := by
    intro k x hx
    rcases hl with hl | ⟨-, rfl⟩
    · exact ⟨l, hl, hx⟩
    · simp at hx
  have hmem : ∀ s, s ∈ l.filterMap SSlot.loc ↔ ∃ k x, AtA v m k x ∧ x.loc = some s := by
    intro s
    rw [List.mem_filterMap]
    constructor
    · rintro ⟨x, hx, hs⟩
      obtain ⟨k, hk⟩ := List.mem_iff_getElem?.mp hx
      exact ⟨k, x, hat k x hk, hs⟩
    · rintro ⟨k, x, ⟨l', h1, h2⟩, hs⟩
      rcases hl with hl | ⟨hl, rfl⟩
      · rw [hl] at h1; simp at h1; subst h1
        exact ⟨x, List.mem_of_getElem? h2, hs⟩
      · rw [hl] at h1; simp at h1
  refine ⟨?_, ?_, ?_, ?_, ?_, ?_, h.fits, ?_⟩
  · rw [List.nodup_append]
    refine ⟨h.nodup, filterMap_nodup fun i j x y s h1 h2 h3 h4 => (h.inj s m i x m j y (hat _ _ h1) (hat _ _ h2) h3 h4).2, ?_⟩
    rintro a ha b hb rfl
    obtain ⟨k, x, h1, h2⟩ := (hmem a).mp hb
    exact h.free a ha m k x h1 h2
  · intro s hs m' k x hx
    rw [atA_set_none] at hx
    rcases List.mem_append.mp hs with hs | hs
    · exact h.free s hs m' k x hx.2
    · intro hc
      obtain ⟨k', y, h1, h2⟩ := (hmem s).mp hs
      exact hx.1 (h.inj s m' k x m k' y hx.2 h1 hc h2).1
  · intro s m1 k1 x1 m2 k2 x2 h1 h2
    rw [atA_set_none] at h1 h2
    exact h.inj s m1 k1 x1 m2 k2 x2 h1.2 h2.2
  · intro s
    rw [h.made, List.mem_append, hmem]
    constructor
    · rintro (hs | ⟨m', k, x, hx, hs⟩)
      · exact Or.inl (Or.inl hs)
      · by_cases hm : m' = m
        · subst hm; exact Or.inl (Or.inr ⟨k, x, hx, hs⟩)
        · exact Or.inr ⟨m', k, x, atA_set_none.mpr ⟨hm, hx⟩, hs⟩
    · rintro ((hs | ⟨k, x, hx, hs⟩) | ⟨m', k, x, hx, hs⟩)
      · exact Or.inl hs
      · exact Or.inr ⟨m, k, x, hx, hs⟩
      · exact Or.inr ⟨m', k, x, (atA_set_none.mp hx).2, hs⟩
  · intro m' k x s hx
    exact h.plays m' k x s (atA_set_none.mp hx).2
  · intro m' k x i c n hx
    exact h.ext m' k x i c n (atA_set_none.mp hx).2
  · intro m' p l' hv
    simp only [Abs.set] at hv
    split at hv
    · simp at hv
    · exact h.only m' p l' hv

/-- A new motivator with null slots. -/
theorem Lin.fresh {v : Abs SSlot} {pool : List Nat} {objs : List Obj} (h : Lin v pool objs) {m : MotId} (n : Nat)
    (hm : v.vals m = none) : Lin (v.set m (some (sp, List.replicate n SSlot.null))) pool objs := by
  have hat : ∀ (m' : MotId) (k : Nat) (x : SSlot), AtA (v.set m (some (sp, List.replicate n SSlot.null))) m' k x ↔
      (m' = m ∧ (List.replicate n SSlot.null)[k]? = some x) ∨ AtA v m' k x := by
    intro m' k x
    rw [atA_set_some]
    constructor
    · rintro (h | h)
      · exact Or.inl h
      · exact Or.inr h.2
    · rintro (h | h)
      · exact Or.inl h
      · refine Or.inr ⟨?_, h⟩
        rintro rfl
        obtain ⟨l, h1, -⟩ := h
        rw [hm] at h1; simp at h1
  have hnull : ∀ (k : Nat) (x : SSlot), (List.replicate n SSlot.null)[k]? = some x → x = SSlot.null := by
    intro k x hx
    exact List.eq_of_mem_replicate (List.mem_of_getElem? hx)
  refine ⟨h.nodup, ?_, ?_, ?_, ?_, ?_, h.fits, ?_⟩
  · intro s hs m' k x hx
    rcases (hat _ _ _).mp hx with ⟨-, hx⟩ | hx
    · rw [hnull k x hx]; simp [SSlot.null]
    · exact h.free s hs m' k x hx
  · intro s m1 k1 x1 m2 k2 x2 h1 h2 e1 e2
    rcases (hat _ _ _).mp h1 with ⟨-, h1⟩ | h1
    · rw [hnull _ _ h1] at e1; simp [SSlot.null] at e1
    · rcases (hat _ _ _).mp h2 with ⟨-, h2⟩ | h2
      · rw [hnull _ _ h2] at e2; simp [SSlot.null] at e2
      · exact h.inj s m1 k1 x1 m2 k2 x2 h1 h2 e1 e2
  · intro s
    rw [h.made]
    constructor
    · rintro (hs | ⟨m', k, x, hx, hs⟩)
      · exact Or.inl hs
      · exact Or.inr ⟨m', k, x, (hat _ _ _).mpr (Or.inr hx), hs⟩
    · rintro (hs | ⟨m', k, x, hx, hs⟩)
      · exact Or.inl hs
      · rcases (hat _ _ _).mp hx with ⟨-, hx⟩ | hx
        · rw [hnull _ _ hx] at hs; simp [SSlot.null] at hs
        · exact Or.inr ⟨m', k, x, hx, hs⟩
  · intro m' k x s hx
    rcases (hat _ _ _).mp hx with ⟨-, hx⟩ | hx
    · rw [hnull _ _ hx]; simp [SSlot.null]
    · exact h.plays m' k x s hx
  · intro m' k x i c nn hx hs
    rcases (hat _ _ _).mp hx with ⟨-, hx⟩ | hx
    · rw [hnull _ _ hx] at hs; simp [SSlot.null] at hs
    · exact h.ext m' k x i c nn hx hs
  · intro m' p l hv
    simp only [Abs.set] at hv
    split at hv
    · simp at hv; exact hv.1.symm
    · exact h.only m' p l hv

/-- Moving a motivator to a handle that is not in use. -/
theorem Lin.move {v : Abs SSlot} {pool : List Nat} {objs : List Obj} (h : Lin v pool objs) {dst src : MotId} (hne : dst ≠ src)
    (hd : v.vals dst = none) : Lin ((v.set dst (v.vals src)).set src none) pool objs := by
  -- the renaming
  have hat : ∀ m k x, AtA ((v.set dst (v.vals src)).set src none) m k x ↔
      (m = dst ∧ AtA v src k x) ∨ (m ≠ dst ∧ m ≠ src ∧ AtA v m k x) := by
    intro m k x
    unfold AtA Abs.set
    by_cases h1 : m = src
    · simp [h1, Ne.symm hne]
    · by_cases h2 : m = dst
      · simp [h2, hne]
      · simp [h1, h2]
  have hsrc : ∀ m k x, AtA v m k x → m ≠ dst := by
    rintro m k x ⟨l, h1, -⟩ rfl
    rw [hd] at h1; simp at h1
  refine ⟨h.nodup, ?_, ?_, ?_, ?_, ?_, h.fits, ?_⟩
  · intro s hs m k x hx
    rcases (hat _ _ _).mp hx with ⟨-, hx⟩ | ⟨-, -, hx⟩ <;> exact h.free s hs _ k x hx
  · intro s m1 k1 x1 m2 k2 x2 h1 h2 e1 e2
    rcases (hat _ _ _).mp h1 with ⟨c1, g1⟩ | ⟨a1, a2, g1⟩
    · rcases (hat _ _ _).mp h2 with ⟨c2, g2⟩ | ⟨b1, b2, g2⟩
      · exact ⟨c1.trans c2.symm, (h.inj s _ k1 x1 _ k2 x2 g1 g2 e1 e2).2⟩
      · exact absurd (h.inj s _ k1 x1 _ k2 x2 g1 g2 e1 e2).1.symm b2
    · rcases (hat _ _ _).mp h2 with ⟨c2, g2⟩ | ⟨b1, b2, g2⟩
      · exact absurd (h.inj s _ k1 x1 _ k2 x2 g1 g2 e1 e2).1 a2
      · exact h.inj s _ k1 x1 _ k2 x2 g1 g2 e1 e2
  · intro s
    rw [h.made]
    constructor
    · rintro (hs | ⟨m, k, x, hx, hs⟩)
      · exact Or.inl hs
      · by_cases hm : m = src
        · subst hm; exact Or.inr ⟨dst, k, x, (hat _ _ _).mpr (Or.inl ⟨rfl, hx⟩), hs⟩
        · exact Or.inr ⟨m, k, x, (hat _ _ _).mpr (Or.inr ⟨hsrc _ _ _ hx, hm, hx⟩), hs⟩
    · rintro (hs | ⟨m, k, x, hx, hs⟩)
      · exact Or.inl hs
      · rcases (hat _ _ _).mp hx with ⟨-, hx⟩ | ⟨-, -, hx⟩ <;> exact Or.inr ⟨_, k, x, hx, hs⟩
  · intro m k x s hx
    rcases (hat _ _ _).mp hx with ⟨-, hx⟩ | ⟨-, -, hx⟩ <;> exact h.plays _ k x s hx
  · intro m k x i c n hx
    rcases (hat _ _ _).mp hx with ⟨-, hx⟩ | ⟨-, -, hx⟩ <;> exact h.ext _ k x i c n hx
  · intro m p l hv
    simp only [Abs.set] at hv
    split at hv
    · simp at hv
    · split at hv
      · exact h.only src p l hv
      · exact h.only m p l hv

/-- Giving up the spline of one dimension and playing another one. -/
theorem Lin.external {v : Abs SSlot} {pool : List Nat} {objs : List Obj} (h : Lin v pool objs) {m : MotId} {l : List SSlot}
    {k : Nat} {x : SSlot} (hv : v.vals m = some (sp, l)) (hx : l[k]? = some x) (e : Option (Nat × Nat × Nat))
    (he : ∀ y ∈ e, y.2.2 ≤ y.2.1) :
    Lin (v.set m (some (sp, l.set k ⟨none, e.map fun e => .ext e.1 e.2.1 e.2.2⟩))) (pool ++ x.loc.toList) objs := by
  have hk : k < l.length := (List.getElem?_eq_some_iff.mp hx).1
  have hxa : AtA v m k x := ⟨l, hv, hx⟩
  have hat := fun m' k' y => atA_set_slot (m' := m') (k' := k') (x := y)
    (y := ⟨none, e.map fun e => .ext e.1 e.2.1 e.2.2⟩) hv hk
  refine ⟨?_, ?_, ?_, ?_, ?_, ?_, h.fits, ?_⟩
  · rw [List.nodup_append]
    refine ⟨h.nodup, by cases x.loc <;> simp, ?_⟩
    rintro a ha b hb rfl
    have : x.loc = some a := by simpa using hb
    exact h.free a ha m k x hxa this
  · intro s hs m' k' y hy
    rcases (hat _ _ _).mp hy with ⟨rfl, rfl, rfl⟩ | ⟨hn, hy⟩
    · simp
    · rcases List.mem_append.mp hs with hs | hs
      · exact h.free s hs m' k' y hy
      · intro hc
        have : x.loc = some s := by simpa using hs
        exact hn (h.inj s m' k' y m k x hy hxa hc this)
  · intro s m1 k1 x1 m2 k2 x2 h1 h2 e1 e2
    rcases (hat _ _ _).mp h1 with ⟨rfl, rfl, rfl⟩ | ⟨-, h1⟩
    · simp at e1
    · rcases (hat _ _ _).mp h2 with ⟨rfl, rfl, rfl⟩ | ⟨-, h2⟩
      · simp at e2
      · exact h.inj s m1 k1 x1 m2 k2 x2 h1 h2 e1 e2
  · intro s
    rw [h.made, List.mem_append]
    constructor
    · rintro (hs | ⟨m', k', y, hy, hs⟩)
      · exact Or.inl (Or.inl hs)
      · by_cases hc : m' = m ∧ k' = k
        · obtain ⟨rfl, rfl⟩ := hc
          rw [hy.inj hxa] at hs
          exact Or.inl (Or.inr (by simp [hs]))
        · exact Or.inr ⟨m', k', y, (hat _ _ _).mpr (Or.inr ⟨hc, hy⟩), hs⟩
    · rintro ((hs | hs) | ⟨m', k', y, hy, hs⟩)
      · exact Or.inl hs
      · exact Or.inr ⟨m, k, x, hxa, by simpa using hs⟩
      · rcases (hat _ _ _).mp hy with ⟨rfl, rfl, rfl⟩ | ⟨-, hy⟩
        · simp at hs
        · exact Or.inr ⟨m', k', y, hy, hs⟩
  · intro m' k' y s hy
    rcases (hat _ _ _).mp hy with ⟨rfl, rfl, rfl⟩ | ⟨-, hy⟩
    · cases e <;> simp
    · exact h.plays m' k' y s hy
  · intro m' k' y i c n hy hs
    rcases (hat _ _ _).mp hy with ⟨rfl, rfl, rfl⟩ | ⟨-, hy⟩
    · cases e with
      | none => simp at hs
      | some e =>
        have := he e rfl
        simp at hs
        obtain ⟨-, rfl, rfl⟩ := hs
        exact this
    · exact h.ext m' k' y i c n hy hs
  · intro m' p l' hv'
    simp only [Abs.set] at hv'
    split at hv'
    · simp at hv'; exact hv'.1.symm
    · exact h.only m' p l' hv'

/-- A dimension without its own spline gets one from outside the owned ones. -/
theorem Lin.adopt {v : Abs SSlot} {pool pool' : List Nat} {objs objs' : List Obj} (h : Lin v pool objs) {m : MotId}
    {l : List SSlot} {k s : Nat} {x : SSlot} (hv : v.vals m = some (sp, l)) (hx : l[k]? = some x) (hn : x.loc = none)
    (hp : (s :: pool').Nodup) (hlt : ∀ t, t < objs'.length ↔ t = s ∨ t < objs.length)
    (hmem : ∀ t, t ∈ pool' ∨ t = s ↔ t ∈ pool ∨ (t = s))
    (hs : ∀ m k x, AtA v m k x → x.loc ≠ some s) (hf : ∀ o ∈ objs', o.nodes ≤ o.cap) :
    Lin (v.set m (some (sp, l.set k ⟨some s, some (.own s)⟩))) pool' objs' := by
  have hk : k < l.length := (List.getElem?_eq_some_iff.mp hx).1
  have hxa : AtA v m k x := ⟨l, hv, hx⟩
  have hat := fun m' k' y => atA_set_slot (m' := m') (k' := k') (x := y) (y := ⟨some s, some (.own s)⟩) hv hk
  rw [List.nodup_cons] at hp
  have hsub : ∀ t ∈ pool', t ∈ pool := by
    intro t ht
    rcases (hmem t).mp (Or.inl ht) with h1 | rfl
    · exact h1
    · exact absurd ht hp.1
  refine ⟨hp.2, ?_, ?_, ?_, ?_, ?_, hf, ?_⟩
  · intro t ht m' k' y hy
    rcases (hat _ _ _).mp hy with ⟨rfl, rfl, rfl⟩ | ⟨-, hy⟩
    · intro hc; simp at hc; subst hc; exact hp.1 ht
    · exact h.free t (hsub t ht) m' k' y hy
  · intro t m1 k1 x1 m2 k2 x2 h1 h2 e1 e2
    rcases (hat _ _ _).mp h1 with ⟨rfl, rfl, rfl⟩ | ⟨-, h1⟩
    · rcases (hat _ _ _).mp h2 with ⟨rfl, rfl, rfl⟩ | ⟨-, h2⟩
      · exact ⟨rfl, rfl⟩
      · simp at e1; subst e1; exact absurd e2 (hs _ _ _ h2)
    · rcases (hat _ _ _).mp h2 with ⟨-, -, c3⟩ | ⟨-, h2⟩
      · rw [c3] at e2; simp at e2; subst e2; exact absurd e1 (hs _ _ _ h1)
      · exact h.inj t m1 k1 x1 m2 k2 x2 h1 h2 e1 e2
  · intro t
    rw [hlt, h.made]
    constructor
    · rintro (rfl | ht | ⟨m', k', y, hy, ht⟩)
      · exact Or.inr ⟨m, k, _, (hat _ _ _).mpr (Or.inl ⟨rfl, rfl, rfl⟩), rfl⟩
      · rcases (hmem t).mpr (Or.inl ht) with h1 | rfl
        · exact Or.inl h1
        · exact Or.inr ⟨m, k, _, (hat _ _ _).mpr (Or.inl ⟨rfl, rfl, rfl⟩), rfl⟩
      · refine Or.inr ⟨m', k', y, (hat _ _ _).mpr (Or.inr ⟨?_, hy⟩), ht⟩
        rintro ⟨rfl, rfl⟩
        rw [hy.inj hxa, hn] at ht; simp at ht
    · rintro (ht | ⟨m', k', y, hy, ht⟩)
      · exact Or.inr (Or.inl (hsub t ht))
      · rcases (hat _ _ _).mp hy with ⟨rfl, rfl, rfl⟩ | ⟨-, hy⟩
        · simp at ht; exact Or.inl ht.symm
        · exact Or.inr (Or.inr ⟨m', k', y, hy, ht⟩)
  · intro m' k' y t hy
    rcases (hat _ _ _).mp hy with ⟨rfl, rfl, rfl⟩ | ⟨-, hy⟩
    · simp
    · exact h.plays m' k' y t hy
  · intro m' k' y i c n hy hs'
    rcases (hat _ _ _).mp hy with ⟨rfl, rfl, rfl⟩ | ⟨-, hy⟩
    · simp at hs'
    · exact h.ext m' k' y i c n hy hs'
  · intro m' p l' hv'
    simp only [Abs.set] at hv'
    split at hv'
    · simp at hv'; exact hv'.1.symm
    · exact h.only m' p l' hv'

/-- Refilling a spline. -/
theorem Lin.refill {v : Abs SSlot} {pool : List Nat} {objs : List Obj} (h : Lin v pool objs) {s n : Nat}
    (hn : ∀ o, objs[s]? = some o → n ≤ o.cap) : Lin v pool (objs.modify s fun o => { o with nodes := n }) := by
  refine ⟨h.nodup, h.free, h.inj, by simpa using h.made, h.plays, h.ext, ?_, h.only⟩
  intro o ho
  obtain ⟨i, hi⟩ := List.mem_iff_getElem?.mp ho
  rw [List.getElem?_modify] at hi
  cases ho' : objs[i]? with
  | none => rw [ho'] at hi; simp at hi
  | some o' =>
    rw [ho'] at hi
    by_cases hsi : s = i
    · subst hsi
      simp at hi
      subst hi
      exact hn o' ho'
    · simp [hsi] at hi
      subst hi
      exact h.fits _ (List.mem_of_getElem? ho')

/-! ### AllocateSpline -/

theorem swapPop_perm {l : List Nat} {i s : Nat} (h : l[i]? = some s) : l.Perm (s :: (l.set i (l.getLastD 0)).dropLast) := by
  have hne : l ≠ [] := by rintro rfl; simp at h
  obtain ⟨init, last, rfl⟩ : ∃ init last, l = init ++ [last] :=
    ⟨l.dropLast, l.getLast hne, (List.dropLast_append_getLast hne).symm⟩
  have hl : (init ++ [last]).getLastD 0 = last := by simp
  rw [hl]
  by_cases hi : i < init.length
  · rw [List.getElem?_append_left hi] at h
    rw [List.set_append_left _ _ hi, List.dropLast_concat]
    obtain ⟨hlt, hs⟩ := List.getElem?_eq_some_iff.mp h
    have e1 : init = init.take i ++ s :: init.drop (i + 1) := by
      rw [← hs]; simp
    have e2 : init.set i last = init.take i ++ last :: init.drop (i + 1) := by
      rw [List.set_eq_take_append_cons_drop, if_pos hlt]
    rw [e2]
    conv => lhs; rw [e1]
    have p1 : (init.take i ++ s :: init.drop (i + 1) ++ [last]).Perm (s :: (init.take i ++ init.drop (i + 1) ++ [last])) := by
      rw [List.append_assoc, List.append_assoc, List.cons_append]
      exact List.perm_middle
    refine p1.trans (List.Perm.cons s ?_)
    rw [List.append_assoc]
    refine (List.Perm.append_left _ (List.perm_append_comm)).trans ?_
    simp
  · have hil : i = init.length := by
      have := (List.getElem?_eq_some_iff.mp h).1
      simp at this; omega
    subst hil
    simp at h
    subst h
    simp only [List.set_append_right _ _ (le_refl _), Nat.sub_self, List.set_cons_zero, List.dropLast_concat]
    exact List.perm_append_comm

theorem allocateSpline_spec {st : State} (h : Lin st.w.view st.pool st.objs) (c : Nat) :
    let r := st.allocateSpline c
    r.2.w = st.w ∧ c ≤ r.2.cap r.1 ∧ (r.1 :: r.2.pool).Nodup ∧
    (∀ t, t < r.2.objs.length ↔ t = r.1 ∨ t < st.objs.length) ∧ (∀ t, t ∈ r.2.pool ∨ t = r.1 ↔ t ∈ st.pool ∨ t = r.1) ∧
    (∀ m k x, AtA st.w.view m k x → x.loc ≠ some r.1) ∧ (∀ o ∈ r.2.objs, o.nodes ≤ o.cap) ∧
    (∀ t, t < st.objs.length → r.2.cap t = st.cap t) := by
  intro r
  have hr : st.allocateSpline c = r := rfl
  unfold State.allocateSpline at hr
  split at hr
  · rename_i i hi
    obtain ⟨hlt, hc⟩ := List.findIdx?_eq_some_iff_findIdx_eq.mp hi
    have hget : st.pool[i]? = some (st.pool.getD i 0) := by
      rw [List.getD_eq_getElem?_getD, List.getElem?_eq_getElem hlt]; simp
    have hp := swapPop_perm hget
    have hprop : c ≤ st.cap (st.pool.getD i 0) := by
      rw [List.findIdx?_eq_some_iff_getElem] at hi
      obtain ⟨h1, h2, -⟩ := hi
      rw [List.getD_eq_getElem?_getD, List.getElem?_eq_getElem h1]
      simpa using h2
    have hmemp := List.mem_of_getElem? hget
    rw [← hr]
    refine ⟨rfl, hprop, hp.nodup_iff.mp h.nodup, ?_, ?_, ?_, h.fits, fun _ _ => rfl⟩
    · intro t
      simp only
      constructor
      · exact Or.inr
      · rintro (rfl | ht)
        · exact (h.made _).mpr (Or.inl hmemp)
        · exact ht
    · intro t
      simp only
      rw [hp.mem_iff (a := t), List.mem_cons]
      tauto
    · intro m k x hx
      exact h.free _ hmemp m k x hx
  · rename_i hi
    rw [← hr]
    have hnot : ∀ t, t ∈ st.pool → t < st.objs.length := fun t ht => (h.made t).mpr (Or.inl ht)
    refine ⟨rfl, by simp [State.cap], ?_, ?_, fun _ => Iff.rfl, ?_, ?_, ?_⟩
    · rw [List.nodup_cons]
      exact ⟨fun hc => absurd (hnot _ hc) (lt_irrefl _), h.nodup⟩
    · intro t; simp; omega
    · intro m k x hx hc
      exact absurd ((h.made _).mpr (Or.inr ⟨m, k, x, hx, hc⟩)) (lt_irrefl _)
    · intro o ho
      simp only [List.mem_append, List.mem_singleton] at ho
      rcases ho with ho | rfl
      · exact h.fits o ho
      · simp
    · intro t ht
      simp [State.cap, List.getElem?_append_left ht]

/-! ### All calls -/

structure Good (st : State) : Prop where
  winv : WInv st.w
  clean : st.w.Clean
  proc : (st.w.procs sp).map Proc.dflt = some SSlot.null
  lin : Lin st.w.view st.pool st.objs

theorem slots_view {st : State} (h : Good st) (m : MotId) :
    (st.w.view.vals m = some (sp, st.slots m)) ∨ (st.w.view.vals m = none ∧ st.slots m = []) := by
  cases hm : st.w.mots m with
  | none => exact Or.inr ⟨view_none hm, by simp [State.slots, hm]⟩
  | some x =>
    obtain ⟨p, i⟩ := x
    obtain ⟨pr, hpr⟩ := h.winv.mots m p i hm
    obtain ⟨n, hl, -⟩ := (h.winv.procs p pr hpr).ref m i hm
    have hv := view_some hm hpr hl
    have := h.lin.only m p _ hv
    subst this
    left
    rw [hv]
    simp [State.slots, hm, hpr, Proc.dimensions, Motive.Alloc.countFor_block hl.1]

theorem slots_at {st : State} (h : Good st) {m : MotId} {k : Nat} {x : SSlot} :
    (st.slots m)[k]? = some x ↔ AtA st.w.view m k x := by
  rcases slots_view h m with hv | ⟨hv, he⟩
  · unfold AtA; rw [hv]; simp
  · unfold AtA; rw [hv, he]; simp

theorem dims_slots {st : State} (h : Good st) {m : MotId} {off : Nat} (ho : off < (st.slots m).length) :
    ∃ n, st.w.dimensions m = some n ∧ off < n := by
  rcases slots_view h m with hv | ⟨-, he⟩
  · have := dims_view h.winv m
    rw [hv] at this
    exact ⟨_, this, ho⟩
  · rw [he] at ho; simp at ho

theorem write_good {st : State} (h : Good st) {m : MotId} {off : Nat} (x : SSlot) (ho : off < (st.slots m).length) :
    ∃ w, st.w.write m off x = some w ∧ WInv w ∧ w.Clean ∧ (w.procs sp).map Proc.dflt = some SSlot.null ∧
      w.view = st.w.view.set m (some (sp, (st.slots m).set off x)) := by
  obtain ⟨n, hn, hon⟩ := dims_slots h ho
  obtain ⟨w, e1, e2, e3⟩ := write_spec h.winv m off x
  simp only [Motive.Proc.step, hn, Option.any_some, decide_eq_true_eq, hon, if_true] at e1
  obtain ⟨c1, c2⟩ := write_clean h.winv h.clean hn hon e1
  refine ⟨w, e1, e2, c1, by rw [c2]; exact h.proc, ?_⟩
  rw [e3]
  simp only [absStep]
  rcases slots_view h m with hv | ⟨-, he⟩
  · rw [hv]; simp [ho]
  · rw [he] at ho; simp at ho

theorem invalidate_good {st : State} (h : Good st) (m : MotId) :
    ∃ st', st.invalidate m = some st' ∧ Good st' ∧ st'.w.view = st.w.view.set m none ∧
      st'.w.mots = setMot st.w.mots m none := by
  obtain ⟨w, e1, e2, e3, e4⟩ := invalidate_spec h.winv m
  obtain ⟨c1, c2⟩ := invalidate_clean h.winv h.clean e1
  refine ⟨{ st with w := w, pool := st.pool ++ (st.slots m).filterMap SSlot.loc }, by simp [State.invalidate, e1],
    ⟨e2, c1, by rw [c2]; exact h.proc, ?_⟩, e4, e3⟩
  simp only
  rw [e4]
  exact h.lin.remove m (slots_view h m)

theorem allocate_good {st : State} (h : Good st) {m : MotId} {n : Nat} (hm : st.w.mots m = none) (h0 : 0 < n) :
    ∃ w i, st.w.allocate sp m n = some (w, i) ∧ Good { st with w := w } ∧
      w.view = st.w.view.set m (some (sp, List.replicate n SSlot.null)) := by
  cases hpr : st.w.procs sp with
  | none => have := h.proc; rw [hpr] at this; simp at this
  | some pr =>
    have hd : pr.dflt = SSlot.null := by have := h.proc; rw [hpr] at this; simpa using this
    obtain ⟨w, i, pr', e1, e2, -⟩ := allocate_spec h.winv hm hpr h0
    obtain ⟨c1, c2, c3⟩ := allocate_clean h.winv h.clean hm hpr h0 e1
    rw [hd] at c3
    refine ⟨w, i, e1, ⟨e2, c1, by simp only; rw [c2]; exact h.proc, ?_⟩, c3⟩
    simp only
    rw [c3]
    exact h.lin.fresh n (view_none hm)

theorem initialize_good {st : State} (h : Good st) (m : MotId) {n : Nat} (h0 : 0 < n) :
    ∃ st', st.initialize m n = some st' ∧ Good st' := by
  obtain ⟨st1, e1, e2, e3, e4⟩ := invalidate_good h m
  obtain ⟨w, i, f1, f2, -⟩ := allocate_good e2 (m := m) (n := n) (by rw [e4]; exact setMot_self _ _ _) h0
  exact ⟨_, by simp [State.initialize, e1, f1], f2⟩

theorem moveAssign_good {st : State} (h : Good st) (dst src : MotId) : ∃ st', st.moveAssign dst src = some st' ∧ Good st' := by
  obtain ⟨w, e1, e2, e3⟩ := moveAssign_spec h.winv dst src
  have hc : w.Clean ∧ ∀ q, (w.procs q).map Proc.dflt = (st.w.procs q).map Proc.dflt := by
    simp only [World.moveAssign, Option.bind_eq_bind, Option.bind_eq_some_iff] at e1
    obtain ⟨w1, i1, hr⟩ := e1
    obtain ⟨c1, c2⟩ := invalidate_clean h.winv h.clean i1
    split at hr
    · simp at hr; subst hr; exact ⟨c1, c2⟩
    · obtain ⟨d1, d2⟩ := transfer_clean c1 hr
      exact ⟨d1, fun q => (d2 q).trans (c2 q)⟩
  refine ⟨{ st with w := w, pool := st.pool ++ (st.slots dst).filterMap SSlot.loc }, by simp [State.moveAssign, e1],
    ⟨e2, hc.1, by simp only; rw [hc.2]; exact h.proc, ?_⟩⟩
  simp only
  rw [e3]
  have hr := h.lin.remove dst (slots_view h dst)
  split
  · exact hr
  · rename_i hne
    have := hr.move (dst := dst) (src := src) hne (by simp [Abs.set])
    rw [Abs.set_set] at this
    have e : (st.w.view.set dst none).vals src = st.w.view.vals src := by simp [Abs.set, Ne.symm hne]
    rw [e] at this
    exact this

theorem moveConstruct_good {st : State} (h : Good st) {dst src : MotId} (hne : dst ≠ src) (hd : st.w.mots dst = none) :
    ∃ st', st.moveConstruct dst src = some st' ∧ Good st' := by
  obtain ⟨w, e1, e2, e3⟩ := moveConstruct_spec h.winv (src := src) hd
  have hc : w.Clean ∧ ∀ q, (w.procs q).map Proc.dflt = (st.w.procs q).map Proc.dflt := by
    unfold World.moveConstruct at e1
    split at e1
    · simp at e1; subst e1; exact ⟨h.clean, fun _ => rfl⟩
    · exact transfer_clean h.clean e1
  refine ⟨{ st with w := w }, by simp [State.moveConstruct, e1], ⟨e2, hc.1, by simp only; rw [hc.2]; exact h.proc, ?_⟩⟩
  simp only
  rw [e3]
  exact h.lin.move hne (view_none hd)

theorem adopt_good {st : State} (h : Good st) {m : MotId} {k c n : Nat} {x : SSlot} (hx : (st.slots m)[k]? = some x)
    (hn : x.loc = none) (hnc : n ≤ (st.allocateSpline c).2.cap (st.allocateSpline c).1) :
    ∃ w, (st.allocateSpline c).2.w.write m k ⟨some (st.allocateSpline c).1, some (.own (st.allocateSpline c).1)⟩ = some w ∧
      Good { (st.allocateSpline c).2 with
        w := w, objs := (st.allocateSpline c).2.objs.modify (st.allocateSpline c).1 fun o => { o with nodes := n } } ∧
      w.view = st.w.view.set m (some (sp, (st.slots m).set k
        ⟨some (st.allocateSpline c).1, some (.own (st.allocateSpline c).1)⟩)) := by
  obtain ⟨a1, a2, a3, a4, a5, a6, a7, a8⟩ := allocateSpline_spec h.lin c
  have hk : k < (st.slots m).length := (List.getElem?_eq_some_iff.mp hx).1
  obtain ⟨w, w1, w2, w3, w4, w5⟩ := write_good h (m := m) (off := k)
    ⟨some (st.allocateSpline c).1, some (.own (st.allocateSpline c).1)⟩ hk
  refine ⟨w, by rw [a1]; exact w1, ⟨w2, w3, w4, ?_⟩, w5⟩
  simp only
  rw [w5]
  rcases slots_view h m with hv | ⟨-, he⟩
  · refine (h.lin.adopt (k := k) (x := x) hv hx hn a3 a4 a5 a6 a7).refill ?_
    intro o ho
    simp only [State.cap, ho] at hnc
    exact hnc
  · rw [he] at hk; simp at hk

theorem setTarget_good {st : State} (h : Good st) {m : MotId} {k n : Nat} {x : SSlot} (hx : (st.slots m)[k]? = some x) :
    (∃ st', st.setTarget m k n = some st' ∧ Good st') ∨
      (st.setTarget m k n = none ∧ (x.loc = none ∧ 7 < n ∨ ∃ s, x.loc = some s ∧ st.cap s < n)) := by
  have hk : k < (st.slots m).length := (List.getElem?_eq_some_iff.mp hx).1
  cases hl : x.loc with
  | none =>
    obtain ⟨a1, a2, a3, a4, a5, a6, a7, a8⟩ := allocateSpline_spec h.lin kDefaultMaxNodes
    by_cases hc : n ≤ (st.allocateSpline kDefaultMaxNodes).2.cap (st.allocateSpline kDefaultMaxNodes).1
    · left
      obtain ⟨w, w1, w2, -⟩ := adopt_good h hx hl hc
      refine ⟨_, ?_, w2⟩
      simp only [State.setTarget, hx, hl]
      rw [if_pos hc, w1]
    · right
      refine ⟨?_, Or.inl ⟨rfl, ?_⟩⟩
      · simp only [State.setTarget, hx, hl]
        rw [if_neg hc]
      · simp only [kDefaultMaxNodes] at a2 hc; omega
  | some s =>
    by_cases hc : n ≤ st.cap s
    · left
      have hsrc := (h.lin.plays m k x s ((slots_at h).mp hx)).mp hl
      have hxe : x = ⟨some s, some (.own s)⟩ := by cases x; simp_all
      obtain ⟨w, w1, w2, w3, w4, w5⟩ := write_good h (m := m) (off := k) ⟨some s, some (.own s)⟩ hk
      refine ⟨{ st with w := w, objs := st.objs.modify s fun o => { o with nodes := n } }, ?_, ⟨w2, w3, w4, ?_⟩⟩
      · simp only [State.setTarget, hx, hl]
        rw [if_pos hc, w1]
      · simp only
        rw [w5]
        have e : (st.slots m).set k ⟨some s, some (.own s)⟩ = st.slots m := by
          rw [← hxe]
          apply List.ext_getElem?
          intro j
          by_cases hj : j = k
          · subst hj; rw [List.getElem?_set_self hk, hx]
          · rw [List.getElem?_set_ne (by omega)]
        rw [e]
        rcases slots_view h m with hv | ⟨-, he⟩
        · rw [Abs.set_same hv]
          refine h.lin.refill ?_
          intro o ho
          simp only [State.cap, ho] at hc
          exact hc
        · rw [he] at hk; simp at hk
    · right
      refine ⟨?_, Or.inr ⟨s, rfl, by omega⟩⟩
      simp only [State.setTarget, hx, hl]
      rw [if_neg hc]

theorem setSpline_good {st : State} (h : Good st) {m : MotId} {k : Nat} (hk : k < (st.slots m).length)
    (e : Option (Nat × Nat × Nat)) (he : ∀ y ∈ e, y.2.2 ≤ y.2.1) : ∃ st', st.setSpline m k e = some st' ∧ Good st' := by
  have hx := List.getElem?_eq_getElem hk
  obtain ⟨w, w1, w2, w3, w4, w5⟩ := write_good h (m := m) (off := k) ⟨none, e.map fun e => .ext e.1 e.2.1 e.2.2⟩ hk
  refine ⟨{ st with w := w, pool := st.pool ++ ((st.slots m)[k]).loc.toList }, ?_, ⟨w2, w3, w4, ?_⟩⟩
  · simp only [State.setSpline, hx, w1]
  · simp only
    rw [w5]
    rcases slots_view h m with hv | ⟨-, hc⟩
    · exact h.lin.external hv hx e he
    · rw [hc] at hk; simp at hk

theorem cloneDim_good {st : State} (h : Good st) {dst src : MotId} {k : Nat}
    (hd : (st.slots dst)[k]? = some SSlot.null) {x : SSlot} (hx : (st.slots src)[k]? = some x) :
    (∃ st' y, x.src ≠ none ∧ st.cloneDim dst src k = some st' ∧ Good st' ∧
      st'.w.view = st.w.view.set dst (some (sp, (st.slots dst).set k y))) ∨
    (x.src = none ∧ st.cloneDim dst src k = none) := by
  cases hs : x.src with
  | none => right; exact ⟨rfl, by simp [State.cloneDim, hx, hs]⟩
  | some e =>
    left
    obtain ⟨a1, a2, a3, a4, a5, a6, a7, a8⟩ := allocateSpline_spec h.lin (st.sizes e).1
    have hfit : (st.sizes e).2 ≤ (st.sizes e).1 := by
      cases e with
      | ext i c n => exact h.lin.ext src k x i c n ((slots_at h).mp hx) hs
      | own s =>
        simp only [State.sizes]
        cases ho : st.objs[s]? with
        | none => simp
        | some o => exact h.lin.fits o (List.mem_of_getElem? ho)
    have hc : (st.sizes e).2 ≤ (st.allocateSpline (st.sizes e).1).2.cap (st.allocateSpline (st.sizes e).1).1 := by omega
    obtain ⟨w, w1, w2, w3⟩ := adopt_good h hd rfl hc
    refine ⟨_, _, by simp, ?_, w2, w3⟩
    simp only [State.cloneDim, hx, hs]
    rw [if_pos hc, w1]

theorem cloneLoop_good {dst src : MotId} (hne : dst ≠ src) : ∀ (ks : List Nat) (st : State), Good st → ks.Nodup →
    (∀ k ∈ ks, (st.slots dst)[k]? = some SSlot.null) → (∀ k ∈ ks, k < (st.slots src).length) →
    (∃ st', ks.foldlM (fun st k => st.cloneDim dst src k) st = some st' ∧ Good st') ∨
    (ks.foldlM (fun st k => st.cloneDim dst src k) st = none ∧ ∃ k ∈ ks, ∃ x, (st.slots src)[k]? = some x ∧ x.src = none) := by
  intro ks
  induction ks with
  | nil => intro st h _ _ _; exact Or.inl ⟨st, rfl, h⟩
  | cons k ks ih =>
    intro st h hnd hd hs
    rw [List.nodup_cons] at hnd
    have hks := hs k (by simp)
    have hx := List.getElem?_eq_getElem hks
    rcases cloneDim_good h (hd k (by simp)) hx with ⟨st1, y, -, e1, e2, e3⟩ | ⟨e0, e1⟩
    · have hdst : st1.slots dst = (st.slots dst).set k y := by
        rcases slots_view e2 dst with hv | ⟨hv, -⟩
        · rw [e3] at hv; simp [Abs.set] at hv; exact hv.symm
        · rw [e3] at hv; simp [Abs.set] at hv
      have hsrc : st1.slots src = st.slots src := by
        have hv1 : st1.w.view.vals src = st.w.view.vals src := by rw [e3]; simp [Abs.set, Ne.symm hne]
        rcases slots_view e2 src with hv | ⟨hv, he⟩
        · rcases slots_view h src with hv' | ⟨hv', he'⟩
          · rw [hv1, hv'] at hv; simpa using hv.symm
          · rw [hv1, hv'] at hv; simp at hv
        · rcases slots_view h src with hv' | ⟨hv', he'⟩
          · rw [hv1, hv'] at hv; simp at hv
          · rw [he, he']
      have := ih st1 e2 hnd.2 (fun j hj => by
        rw [hdst, List.getElem?_set_ne (by rintro rfl; exact hnd.1 hj)]
        exact hd j (by simp [hj])) (fun j hj => by rw [hsrc]; exact hs j (by simp [hj]))
      rw [List.foldlM_cons, e1]
      rcases this with ⟨st', f1, f2⟩ | ⟨f1, j, hj, x, f2, f3⟩
      · exact Or.inl ⟨st', f1, f2⟩
      · exact Or.inr ⟨f1, j, by simp [hj], x, by rw [← hsrc]; exact f2, f3⟩
    · right
      rw [List.foldlM_cons, e1]
      exact ⟨rfl, k, by simp, _, hx, e0⟩

theorem clone_good {st : State} (h : Good st) (dst src : MotId) :
    (∃ st', st.cloneFrom dst src = some st' ∧ Good st') ∨
      (st.cloneFrom dst src = none ∧ dst ≠ src ∧ ∃ (k : Nat) (x : SSlot), (st.slots src)[k]? = some x ∧ x.src = none) := by
  obtain ⟨st1, e1, e2, e3, e4⟩ := invalidate_good h dst
  simp only [State.cloneFrom, e1]
  cases hm : st1.w.mots src with
  | none => exact Or.inl ⟨st1, rfl, e2⟩
  | some pi =>
    obtain ⟨p, i⟩ := pi
    have hne : dst ≠ src := by
      rintro rfl
      rw [e4, setMot_self] at hm; simp at hm
    obtain ⟨pr, hpr⟩ := e2.winv.mots src p i hm
    obtain ⟨n, hl, -⟩ := (e2.winv.procs p pr hpr).ref src i hm
    have hvs := view_some hm hpr hl
    obtain rfl := e2.lin.only src p _ hvs
    have hslots : st1.slots src = (pr.data.drop i).take n := by
      rcases slots_view e2 src with hv | ⟨hv, -⟩
      · rw [hvs] at hv; simpa using hv.symm
      · rw [hvs] at hv; simp at hv
    have hlen : 0 < (st1.slots src).length := by
      have hle := Live.block_le hl
      have hdl : pr.data.length = pr.alloc.numIndices := (e2.winv.procs _ pr hpr).dlen
      have := hl.1.1
      rw [hslots]; simp; omega
    obtain ⟨w, i', f1, f2, f3⟩ := allocate_good e2 (m := dst) (n := (st1.slots src).length)
      (by rw [e4]; exact setMot_self _ _ _) hlen
    simp only [f1]
    have hsrc2 : ({ st1 with w := w } : State).slots src = st1.slots src := by
      have hv1 : w.view.vals src = st1.w.view.vals src := by rw [f3]; simp [Abs.set, Ne.symm hne]
      rcases slots_view f2 src with hv | ⟨hv, -⟩
      · simp only at hv
        rw [hv1, hvs] at hv
        rw [hslots]; simpa using hv.symm
      · simp only at hv
        rw [hv1, hvs] at hv; simp at hv
    have hdst2 : ({ st1 with w := w } : State).slots dst = List.replicate (st1.slots src).length SSlot.null := by
      rcases slots_view f2 dst with hv | ⟨hv, -⟩
      · simp only at hv
        rw [f3] at hv; simp [Abs.set] at hv; exact hv.symm
      · simp only at hv
        rw [f3] at hv; simp [Abs.set] at hv
    rcases cloneLoop_good hne (List.range (st1.slots src).length) _ f2 List.nodup_range
      (fun k hk => by rw [hdst2]; rw [List.mem_range] at hk; simp [hk])
      (fun k hk => by rw [hsrc2]; exact List.mem_range.mp hk) with ⟨st', g1, g2⟩ | ⟨g1, k, hk, x, g2, g3⟩
    · exact Or.inl ⟨st', g1, g2⟩
    · refine Or.inr ⟨g1, hne, k, x, ?_, g3⟩
      rw [hsrc2] at g2
      rw [slots_at e2, e3, atA_set_none] at g2
      exact (slots_at h).mpr g2.2

theorem advance_good {st : State} (h : Good st) : ∃ st', st.advance = some st' ∧ Good st' ∧ st'.w.view = st.w.view := by
  cases hpr : st.w.procs sp with
  | none => have := h.proc; rw [hpr] at this; simp at this
  | some pr =>
    obtain ⟨w, pr', e1, e2, e3, -⟩ := defragment_spec' h.winv hpr
    obtain ⟨c1, c2, -⟩ := defragment_clean h.winv h.clean e1
    refine ⟨{ st with w := w }, by simp [State.advance, e1], ⟨e2, c1, by simp only; rw [c2]; exact h.proc, ?_⟩, e3⟩
    simp only
    rw [e3]; exact h.lin

/-- Every call keeps the invariant; the two ways to fail. -/
theorem step_good {st : State} (h : Good st) (op : Op) :
    (∃ st', step op st = some st' ∧ Good st') ∨
    (step op st = none ∧
      ((∃ dst src k x, op = .cloneFrom dst src ∧ st.At src k x ∧ x.src = none) ∨
       (∃ m k n x, op = .setTarget m k n ∧ st.At m k x ∧ (x.loc = none ∧ 7 < n ∨ ∃ s, x.loc = some s ∧ st.cap s < n)))) := by
  match op with
  | .initialize m n =>
    simp only [step]
    split
    · rename_i h0; exact Or.inl (initialize_good h m h0)
    · exact Or.inl ⟨st, rfl, h⟩
  | .invalidate m =>
    obtain ⟨st', e1, e2, -⟩ := invalidate_good h m
    exact Or.inl ⟨st', e1, e2⟩
  | .moveAssign d s => exact Or.inl (moveAssign_good h d s)
  | .moveConstruct d s =>
    simp only [step]
    split
    · rename_i hc; exact Or.inl (moveConstruct_good h hc.1 (by simpa [World.valid] using hc.2))
    · exact Or.inl ⟨st, rfl, h⟩
  | .cloneFrom d s =>
    rcases clone_good h d s with h1 | ⟨h1, -, k, x, h2, h3⟩
    · exact Or.inl h1
    · exact Or.inr ⟨h1, Or.inl ⟨d, s, k, x, rfl, (slots_at h).mp h2, h3⟩⟩
  | .setTarget m k n =>
    simp only [step]
    split
    · rename_i hk
      rcases setTarget_good (n := n) h (List.getElem?_eq_getElem hk) with h1 | ⟨h1, h2⟩
      · exact Or.inl h1
      · exact Or.inr ⟨h1, Or.inr ⟨m, k, n, _, rfl, (slots_at h).mp (List.getElem?_eq_getElem hk), h2⟩⟩
    · exact Or.inl ⟨st, rfl, h⟩
  | .setSpline m k e =>
    simp only [step]
    split
    · rename_i hk; exact Or.inl (setSpline_good h hk.1 e hk.2)
    · exact Or.inl ⟨st, rfl, h⟩
  | .advance =>
    obtain ⟨st', e1, e2, -⟩ := advance_good h
    exact Or.inl ⟨st', e1, e2⟩

theorem init_good : Good State.init := by
  obtain ⟨w, e1, e2, e3⟩ := create_spec (winv_empty (δ := SSlot)) sp SSlot.null true
  have hw : w = State.init.w := by
    simp only [Motive.Proc.step, World.empty] at e1
    simp at e1
    rw [← e1]; rfl
  subst hw
  have hv : ∀ m, State.init.w.view.vals m = none := fun m => rfl
  refine ⟨e2, ?_, rfl, ?_⟩
  · exact World.Clean.set (w := World.empty) (fun q pr hq => by simp [World.empty] at hq) (p := sp) (pr' := Proc.new SSlot.null true)
      (fun k hk => by simp [Proc.new, Motive.Alloc.Alloc.init, Motive.Alloc.Alloc.numIndices] at hk) _
  · have hat : ∀ m k x, ¬ AtA State.init.w.view m k x := by
      rintro m k x ⟨l, h1, -⟩; rw [hv] at h1; simp at h1
    refine ⟨by simp [State.init], by simp [State.init], fun s m k x m' k' x' h1 => absurd h1 (hat _ _ _), ?_,
      fun m k x s h1 => absurd h1 (hat _ _ _), fun m k x i c n h1 => absurd h1 (hat _ _ _), by simp [State.init],
      fun m p l h1 => by rw [hv] at h1; simp at h1⟩
    intro s
    simp only [State.init, List.length_nil, Nat.not_lt_zero, List.not_mem_nil, false_or, false_iff]
    rintro ⟨m, k, x, h1, -⟩
    exact hat m k x h1

theorem run_good {ops : List Op} {st : State} (h : run ops = some st) : Good st := by
  have : ∀ (ops : List Op) (st0 st : State), Good st0 → runFrom st0 ops = some st → Good st := by
    intro ops
    induction ops with
    | nil => intro st0 st h0 h; simp [runFrom] at h; subst h; exact h0
    | cons op ops ih =>
      intro st0 st h0 h
      rcases step_good h0 op with ⟨st1, e1, e2⟩ | ⟨e1, -⟩
      · simp only [runFrom, e1] at h
        exact ih st1 st e2 h
      · simp [runFrom, e1] at h
  exact this ops _ st init_good h

/-! ### C40 -/

/-- **C40.** After any history of calls, every spline that the processor ever created is in exactly one place: once in the pool and
owned by nobody, or not in the pool and owned by exactly one dimension of one motivator. -/
theorem C40_linear_ownership {ops : List Op} {st : State} (h : run ops = some st) {s : Nat} (hs : s < st.objs.length) :
    (st.pool.count s = 1 ∧ ∀ m k, ¬ st.Owns m k s) ∨
    (st.pool.count s = 0 ∧ ∃ m k, st.Owns m k s ∧ ∀ m' k', st.Owns m' k' s → m' = m ∧ k' = k) := by
  have hl := (run_good h).lin
  by_cases hp : s ∈ st.pool
  · left
    refine ⟨List.count_eq_one_of_mem hl.nodup hp, ?_⟩
    rintro m k ⟨x, h1, h2⟩
    exact hl.free s hp m k x h1 h2
  · right
    refine ⟨List.count_eq_zero_of_not_mem hp, ?_⟩
    rcases (hl.made s).mp hs with h1 | ⟨m, k, x, h1, h2⟩
    · exact absurd h1 hp
    · refine ⟨m, k, ⟨x, h1, h2⟩, ?_⟩
      rintro m' k' ⟨y, h3, h4⟩
      exact hl.inj s m' k' y m k x h3 h1 h4 h2

/-- **C40.** What a motivator plays is either a spline that the user passed in or the spline that the same dimension owns: never one
that was returned to the pool, and never one of another motivator. Every spline it names exists. -/
theorem C40_plays_own {ops : List Op} {st : State} (h : run ops = some st) {m : MotId} {k s : Nat} (hp : st.Plays m k (.own s)) :
    st.Owns m k s ∧ s < st.objs.length ∧ s ∉ st.pool ∧ ∀ m' k', st.Plays m' k' (.own s) → m' = m ∧ k' = k := by
  have hl := (run_good h).lin
  obtain ⟨x, h1, h2⟩ := hp
  have h3 := (hl.plays m k x s h1).mpr h2
  refine ⟨⟨x, h1, h3⟩, (hl.made s).mpr (Or.inr ⟨m, k, x, h1, h3⟩), fun hc => hl.free s hc m k x h1 h3, ?_⟩
  rintro m' k' ⟨y, g1, g2⟩
  exact hl.inj s m' k' y m k x g1 h1 ((hl.plays m' k' y s g1).mpr g2) h3

/-- **C40.** A spline handed out is at least as large as requested, whether recycled or new; no spline is created while the pool has one
that is large enough; no spline holds more nodes than it can. -/
theorem C40_large_enough {ops : List Op} {st : State} (h : run ops = some st) (c : Nat) :
    c ≤ (st.allocateSpline c).2.cap (st.allocateSpline c).1 ∧
    ((∃ s ∈ st.pool, c ≤ st.cap s) → (st.allocateSpline c).1 ∈ st.pool ∧ (st.allocateSpline c).2.objs = st.objs) ∧
    (∀ o ∈ st.objs, o.nodes ≤ o.cap) := by
  have hg := run_good h
  refine ⟨(allocateSpline_spec hg.lin c).2.1, ?_, hg.lin.fits⟩
  rintro ⟨s, hs, hc⟩
  unfold State.allocateSpline
  split
  · rename_i i hi
    rw [List.findIdx?_eq_some_iff_getElem] at hi
    obtain ⟨h1, -⟩ := hi
    refine ⟨?_, rfl⟩
    rw [List.getD_eq_getElem?_getD, List.getElem?_eq_getElem h1]
    simp
  · rename_i hi
    rw [List.findIdx?_eq_none_iff] at hi
    have := hi s hs
    simp at this
    omega

/-- **C40.** The only calls that fail are: cloning a motivator of which some dimension plays nothing (null dereference), and setting a
target with more nodes than fit, that is more than 7, or more than the spline the dimension already owns can hold. -/
theorem C40_failures {ops : List Op} {st : State} (h : run ops = some st) {op : Op} (hf : step op st = none) :
    (∃ dst src k x, op = .cloneFrom dst src ∧ st.At src k x ∧ x.src = none) ∨
    (∃ m k n x, op = .setTarget m k n ∧ st.At m k x ∧
      (x.loc = none ∧ 7 < n ∨ ∃ s, x.loc = some s ∧ st.cap s < n)) := by
  rcases step_good (run_good h) op with ⟨st', e, -⟩ | ⟨-, e⟩
  · rw [hf] at e; simp at e
  · exact e

/-- Cloning a motivator that was initialised but never given a spline or a target dereferences a null pointer. -/
theorem C40_clone_untargeted_fails : (run [.initialize 1 1]).isSome = true ∧ run [.initialize 1 1, .cloneFrom 2 1] = none := by
  constructor <;> decide +kernel

/-- A clone owns a spline of the capacity of the one it was cloned from, and `SetTarget` reuses it without looking at its capacity: after
cloning a motivator that plays a spline made for two nodes, an ordinary target with three nodes fails an assert. -/
theorem C40_target_after_clone_fails :
    (run [.initialize 1 1, .setSpline 1 0 (some (0, 2, 2)), .cloneFrom 2 1]).isSome = true ∧
    run [.initialize 1 1, .setSpline 1 0 (some (0, 2, 2)), .cloneFrom 2 1, .setTarget 2 0 3] = none ∧
    (run [.initialize 1 1, .setSpline 1 0 (some (0, 2, 2)), .setTarget 1 0 3]).isSome = true := by
  refine ⟨?_, ?_, ?_⟩ <;> decide +kernel

/-- The destructor deletes each pooled spline once, and exactly the splines that live motivators still own are leaked. -/
theorem C40_destroy {ops : List Op} {st : State} (h : run ops = some st) :
    st.destroy.Nodup ∧ ∀ s, s < st.objs.length → (s ∉ st.destroy ↔ ∃ m k, st.Owns m k s) := by
  have hl := (run_good h).lin
  refine ⟨hl.nodup, fun s hs => ⟨fun hn => ?_, ?_⟩⟩
  · rcases (hl.made s).mp hs with h1 | ⟨m, k, x, h1, h2⟩
    · exact absurd h1 hn
    · exact ⟨m, k, x, h1, h2⟩
  · rintro ⟨m, k, x, h1, h2⟩ hc
    exact hl.free s hc m k x h1 h2

/-- Destroying the engine while a motivator follows a target leaks a spline. -/
theorem C40_destroy_leaks : ∃ st, run [.initialize 1 1, .setTarget 1 0 2] = some st ∧ 0 < st.objs.length ∧ 0 ∉ st.destroy := by
  have h1 : (run [.initialize 1 1, .setTarget 1 0 2]).map (fun st => (st.objs.length, st.pool)) = some (1, []) := by decide +kernel
  rw [Option.map_eq_some_iff] at h1
  obtain ⟨st, h1, h2⟩ := h1
  simp only [Prod.mk.injEq] at h2
  exact ⟨st, h1, by omega, by simp [State.destroy, h2.2]⟩

/-- A history with recycled splines and a clone. -/
example : (run [.initialize 1 2, .setTarget 1 0 2, .setTarget 1 1 2, .initialize 2 1, .setTarget 2 0 4, 
    .invalidate 1,    .setSpline 2 0 (some (9, 3, 3)), .cloneFrom 3 2, .setTarget 2 0 2]).map (fun st => (st.objs.length, st.pool, st.slots 2, st.slots 3))
    = some (3, [1], [⟨some 2, some (.own 2)⟩], [⟨some 0, some (.own 0)⟩]) := by decide +kernel

end Motive.SplineProc
