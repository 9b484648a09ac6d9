import Verif.Alloc.Lemmas
import Mathlib.Tactic.Tauto
import Mathlib.Data.List.Nodup

/-! Invariant of the allocator, and its preservation by `Alloc` and `Free`. -/

namespace Motive.Alloc

/-- Representation invariant of `IndexAllocator`: the counts array is tiled by blocks, and the free
list is a duplicate-free list of block starts. -/
structure Inv (a : Alloc) : Prop where
  tiled : Tiled a.counts 0 a.counts.length
  nodup : a.unused.Nodup
  holes : ∀ u ∈ a.unused, ∃ n, Block a.counts u n

/-- `[i, i+n)` is a currently allocated block. -/
def Live (a : Alloc) (i n : Nat) : Prop := Block a.counts i n ∧ i ∉ a.unused

/-- `[i, i+n)` is a recycled block. -/
def Hole (a : Alloc) (i n : Nat) : Prop := Block a.counts i n ∧ i ∈ a.unused

theorem inv_init : Inv Alloc.init := ⟨.nil _, by simp [Alloc.init], by simp [Alloc.init]⟩

/-- What the search loop knows about the best candidate after having seen the holes `pre`. -/
def BestOK (c : List Int) (count : Nat) (l : List Nat) (pre : List Nat) : Option (Nat × Nat) → Prop
  | none => ∀ u ∈ pre, ∀ n, Block c u n → n < count
  | some (p, e) => 0 < e ∧ (∃ u, l[p]? = some u ∧ Block c u (count + e)) ∧
      ∀ u ∈ pre, ∀ n, Block c u n → n < count ∨ count + e ≤ n

theorem scan_spec {c : List Int} {count : Nat} (l : List Nat) (hl : ∀ u ∈ l, ∃ n, Block c u n) :
    ∀ (us pre : List Nat) (b : Option (Nat × Nat)), l = pre ++ us → BestOK c count l pre b →
      (∃ p u, scan c count pre.length us b = some (.exact p) ∧ l[p]? = some u ∧ Block c u count) ∨
      (∃ b', scan c count pre.length us b = some (.best b') ∧ BestOK c count l l b') := by
  intro us
  induction us with
  | nil =>
    intro pre b hpre hb
    right
    refine ⟨b, rfl, ?_⟩
    simp at hpre; subst hpre; exact hb
  | cons u us ih =>
    intro pre b hpre hb
    have hu : l[pre.length]? = some u := by subst hpre; simp
    have hmem : u ∈ l := by subst hpre; simp
    obtain ⟨n, hn⟩ := hl u hmem
    have hpre' : l = (pre ++ [u]) ++ us := by subst hpre; simp
    have hlen : pre.length + 1 = (pre ++ [u]).length := by simp
    simp only [scan, countFor_block hn]
    split
    · rename_i hlt
      rw [hlen]
      apply ih _ _ hpre'
      match b, hb with
      | none, hb =>
        intro v hv m hm
        simp at hv
        rcases hv with hv | rfl
        · exact hb v hv m hm
        · rw [← hn.unique hm]; exact hlt
      | some (p, e), hb =>
        refine ⟨hb.1, hb.2.1, ?_⟩
        intro v hv m hm
        simp at hv
        rcases hv with hv | rfl
        · exact hb.2.2 v hv m hm
        · left; rw [← hn.unique hm]; exact hlt
    · split
      · rename_i h1 h2
        left
        exact ⟨pre.length, u, rfl, hu, by rw [← h2]; exact hn⟩
      · rename_i h1 h2
        match b, hb with
        | none, hb =>
          simp only
          rw [hlen]
          apply ih _ _ hpre'
          refine ⟨by omega, ⟨u, hu, by rwa [show count + (n - count) = n by omega]⟩, ?_⟩
          intro v hv m hm
          simp at hv
          rcases hv with hv | rfl
          · left; exact hb v hv m hm
          · right; rw [← hn.unique hm]; omega
        | some (p, e), hb =>
          simp only
          split
          · rename_i h3
            rw [hlen]
            apply ih _ _ hpre'
            refine ⟨by omega, ⟨u, hu, by rwa [show count + (n - count) = n by omega]⟩, ?_⟩
            intro v hv m hm
            simp at hv
            rcases hv with hv | rfl
            · rcases hb.2.2 v hv m hm with h | h
              · left; exact h
              · right; omega
            · right; rw [← hn.unique hm]; omega
          · rename_i h3
            rw [hlen]
            apply ih _ _ hpre'
            refine ⟨hb.1, hb.2.1, ?_⟩
            intro v hv m hm
            simp at hv
            rcases hv with hv | rfl
            · exact hb.2.2 v hv m hm
            · right; rw [← hn.unique hm]; omega

theorem resize_length (c : List Int) (n : Nat) : (resize c n).length = n := by
  simp [resize]; omega

theorem resize_get {c : List Int} {n k : Nat} (h : k < n) (h' : k < c.length) :
    (resize c n)[k]? = c[k]? := by
  unfold resize
  rw [List.getElem?_append_left (by simp; omega)]
  simp [h]

/-- Everything there is to know about `Alloc(count)` for `count > 0`. -/
structure AllocSpec (a : Alloc) (count : Nat) (a' : Alloc) (i : Nat) : Prop where
  inv : Inv a'
  live : ∀ j m, Live a' j m ↔ Live a j m ∨ (j = i ∧ m = count)
  fresh : ∀ j m, Live a j m → j + m ≤ i ∨ i + count ≤ j
  mono : a.numIndices ≤ a'.numIndices

theorem alloc_spec {σ : Type} {cb : Callbacks σ} {a : Alloc} {count : Nat} (hinv : Inv a)
    (h0 : 0 < count) (s : σ) (hcb : (∃ u n, Hole a u n ∧ count ≤ n) ∨
      ∃ s', cb.setNum (a.numIndices + count) s = some s') :
    ∃ a' s' i, alloc cb count a s = some ((a', s'), i) ∧ AllocSpec a count a' i ∧
      -- recycling: some hole is big enough; the chosen hole has the least sufficient size
      ((∃ n, Hole a i n ∧ count ≤ n ∧ (∀ u m, Hole a u m → count ≤ m → n ≤ m) ∧
          a'.numIndices = a.numIndices ∧ s' = s) ∨
      -- growing: no hole is big enough
       ((∀ u m, Hole a u m → m < count) ∧ i = a.numIndices ∧
          a'.numIndices = a.numIndices + count ∧ cb.setNum (a.numIndices + count) s = some s')) := by
  have hhole : ∀ u n, Hole a u n → Block a.counts u n := fun u n h => h.1
  rcases scan_spec (count := count) a.unused hinv.holes a.unused [] none rfl (by simp [BestOK]) with
    ⟨p, u, hscan, hp, hb⟩ | ⟨b', hscan, hb'⟩
  · -- exact fit
    have hmem : u ∈ a.unused := List.mem_of_getElem? hp
    obtain ⟨hplt, hpe⟩ := List.getElem?_eq_some_iff.mp hp
    simp only [List.length_nil] at hscan
    have herase : ∀ v, v ∈ a.unused.eraseIdx p ↔ v ∈ a.unused ∧ v ≠ u := by
      intro v
      have h1 : a.unused.eraseIdx p = a.unused.erase u := by
        rw [← hpe, List.Nodup.erase_getElem hinv.nodup]
      rw [h1, hinv.nodup.mem_erase_iff]; tauto
    refine ⟨{ a with unused := a.unused.eraseIdx p }, s, u, ?_, ?_,
      Or.inl ⟨count, ⟨hb, hmem⟩, Nat.le_refl _, ?_, rfl, rfl⟩⟩
    · unfold alloc; rw [hscan]; simp only [hp]
    · refine ⟨⟨hinv.tiled, List.Nodup.sublist (List.eraseIdx_sublist ..) hinv.nodup, ?_⟩, ?_, ?_, Nat.le_refl _⟩
      · intro v hv; exact hinv.holes v ((herase v).mp hv).1
      · intro j m
        simp only [Live, herase]
        constructor
        · rintro ⟨h1, h2⟩
          by_cases hju : j = u
          · right; subst hju; exact ⟨rfl, h1.unique hb⟩
          · left; exact ⟨h1, fun h => h2 ⟨h, hju⟩⟩
        · rintro (⟨h1, h2⟩ | ⟨rfl, rfl⟩)
          · exact ⟨h1, fun h => h2 h.1⟩
          · exact ⟨hb, fun h => h.2 rfl⟩
      · rintro j m ⟨h1, h2⟩
        have : j ≠ u := fun h => h2 (h ▸ hmem)
        rcases Nat.lt_or_gt_of_ne this with h | h
        · left; exact h1.disjoint hb h
        · right; exact hb.disjoint h1 h
    · intro v m hv hm; exact hm
  · simp only [List.length_nil] at hscan
    match b', hb' with
    | some (p, e), hb' =>
      -- split a hole
      obtain ⟨he, ⟨u, hp, hb⟩, hbest⟩ := hb'
      have hmem : u ∈ a.unused := List.mem_of_getElem? hp
      obtain ⟨hplt, hpe⟩ := List.getElem?_eq_some_iff.mp hp
      have hlen := hb.lt_length
      obtain ⟨c1, e1, l1, b1, f1⟩ := initializeIndex_spec (c := a.counts) (index := u) h0 (by omega)
      obtain ⟨c2, e2, l2, b2, f2⟩ := initializeIndex_spec (c := c1) (index := u + count) he (by omega)
      obtain ⟨t1, t2⟩ := hinv.tiled.split_block (Nat.zero_le u) (by have := hb.1; omega) hb
      have hfr : ∀ k, (k < u ∨ u + (count + e) ≤ k) → c2[k]? = a.counts[k]? := by
        intro k hk; rw [f2 k (by omega), f1 k (by omega)]
      have hb1 : Block c2 u count := b1.congr fun k h1 h2 => f2 k (by omega)
      have htail : Tiled c2 (u + (count + e)) c2.length := by
        rw [l2, l1]; exact t2.congr fun k h1 h2 => hfr k (by omega)
      have htiled : Tiled c2 0 c2.length := by
        refine (t1.congr fun k h1 h2 => hfr k (by omega)).append (.cons hb1 (.cons b2 ?_))
        rwa [Nat.add_assoc]
      have hset : ∀ v, v ∈ a.unused.set p (u + count) ↔ (v ∈ a.unused ∧ v ≠ u) ∨ v = u + count := by
        intro v
        rw [List.mem_iff_getElem?]
        constructor
        · rintro ⟨q, hq⟩
          by_cases hqp : q = p
          · subst hqp; rw [List.getElem?_set_self hplt] at hq; right; simpa using hq.symm
          · rw [List.getElem?_set_ne (Ne.symm hqp)] at hq
            left
            refine ⟨List.mem_of_getElem? hq, ?_⟩
            rintro rfl
            exact hqp ((List.getElem?_inj (List.getElem?_eq_some_iff.mp hq).1 hinv.nodup).mp
              (hq.trans hp.symm))
        · rintro (⟨h1, h2⟩ | rfl)
          · obtain ⟨q, hq⟩ := List.mem_iff_getElem?.mp h1
            refine ⟨q, ?_⟩
            rw [List.getElem?_set_ne]
            · exact hq
            · rintro rfl; rw [hp] at hq; simp at hq; exact h2 hq.symm
          · exact ⟨p, List.getElem?_set_self hplt⟩
      -- blocks of the new array away from the split hole are the old ones
      have hout : ∀ j m, (j < u ∨ u + (count + e) ≤ j) → (Block c2 j m ↔ Block a.counts j m) := by
        intro j m hj
        constructor
        · intro h
          refine h.congr fun k h1 h2 => ?_
          rcases hj with hj | hj
          · have := h.disjoint hb1 hj
            exact (hfr k (by omega)).symm
          · exact (hfr k (by omega)).symm
        · intro h
          refine h.congr fun k h1 h2 => ?_
          rcases hj with hj | hj
          · have := h.disjoint hb hj
            exact hfr k (by omega)
          · exact hfr k (by omega)
      have hin : ∀ j m, Block c2 j m → u ≤ j → j < u + (count + e) → j = u ∨ j = u + count := by
        intro j m h h1 h2
        rcases Nat.lt_trichotomy j (u + count) with h3 | h3 | h3
        · rcases Nat.lt_or_eq_of_le h1 with h4 | h4
          · have := hb1.disjoint h h4; omega
          · left; exact h4.symm
        · right; exact h3
        · have := b2.disjoint h h3; omega
      have hin' : ∀ j m, Block a.counts j m → u ≤ j → j < u + (count + e) → j = u := by
        intro j m h h1 h2
        rcases Nat.lt_or_eq_of_le h1 with h4 | h4
        · have := hb.disjoint h h4; omega
        · exact h4.symm
      refine ⟨⟨c2, a.unused.set p (u + count)⟩, s, u, ?_, ?_,
        Or.inl ⟨count + e, ⟨hb, hmem⟩, by omega, ?_, ?_, rfl⟩⟩
      · unfold alloc; rw [hscan]; simp only [hp, e1, e2]
      · refine ⟨⟨htiled, ?_, ?_⟩, ?_, ?_, ?_⟩
        · -- nodup
          show (a.unused.set p (u + count)).Nodup
          rw [List.nodup_iff_getElem?_ne_getElem?]
          intro x y hxy hy hxy2
          simp at hy
          have hnm : u + count ∉ a.unused := by
            intro h
            obtain ⟨m, hm⟩ := hinv.holes _ h
            have := hin' _ _ hm (by omega) (by omega); omega
          have hnd := List.nodup_iff_getElem?_ne_getElem?.mp hinv.nodup x y hxy hy
          by_cases hx : x = p
          · subst hx
            rw [List.getElem?_set_self hplt, List.getElem?_set_ne (by omega)] at hxy2
            exact hnm (List.mem_of_getElem? hxy2.symm)
          · by_cases hyp : y = p
            · subst hyp
              rw [List.getElem?_set_self hplt, List.getElem?_set_ne (by omega)] at hxy2
              exact hnm (List.mem_of_getElem? hxy2)
            · rw [List.getElem?_set_ne (Ne.symm hx), List.getElem?_set_ne (Ne.symm hyp)] at hxy2
              exact hnd hxy2
        · intro v hv
          rcases (hset v).mp hv with ⟨h1, h2⟩ | rfl
          · obtain ⟨m, hm⟩ := hinv.holes v h1
            refine ⟨m, (hout v m ?_).mpr hm⟩
            by_cases h3 : v < u
            · left; exact h3
            · right
              by_cases h4 : v < u + (count + e)
              · exact absurd (hin' v m hm (by omega) h4) h2
              · omega
          · exact ⟨e, b2⟩
        · intro j m
          simp only [Live, hset]
          constructor
          · rintro ⟨h1, h2⟩
            by_cases hju : j = u
            · right; subst hju; exact ⟨rfl, h1.unique hb1⟩
            · left
              have hj : j < u ∨ u + (count + e) ≤ j := by
                by_cases h3 : j < u
                · left; exact h3
                · right
                  by_cases h4 : j < u + (count + e)
                  · rcases hin j m h1 (by omega) h4 with h5 | h5
                    · exact absurd h5 hju
                    · exact absurd (Or.inr h5) h2
                  · omega
              exact ⟨(hout j m hj).mp h1, fun h => h2 (Or.inl ⟨h, hju⟩)⟩
          · rintro (⟨h1, h2⟩ | ⟨rfl, rfl⟩)
            · have hju : j ≠ u := fun h => h2 (h ▸ hmem)
              have hj : j < u ∨ u + (count + e) ≤ j := by
                by_cases h3 : j < u
                · left; exact h3
                · right
                  by_cases h4 : j < u + (count + e)
                  · exact absurd (hin' j m h1 (by omega) h4) hju
                  · omega
              refine ⟨(hout j m hj).mpr h1, ?_⟩
              rintro (⟨h3, _⟩ | h3)
              · exact h2 h3
              · omega
            · refine ⟨hb1, ?_⟩
              rintro (⟨_, h3⟩ | h3)
              · exact h3 rfl
              · omega
        · rintro j m ⟨h1, h2⟩
          have : j ≠ u := fun h => h2 (h ▸ hmem)
          rcases Nat.lt_or_gt_of_ne this with h | h
          · left; exact h1.disjoint hb h
          · right; have := hb.disjoint h1 h; omega
        · simp [Alloc.numIndices, l2, l1]
      · intro v m hv hm
        rcases hbest v hv.2 m hv.1 with h | h
        · omega
        · exact h
      · simp [Alloc.numIndices, l2, l1]
    | none, hb' =>
      -- grow
      have hno : ∀ u m, Hole a u m → m < count := fun u m h => hb' u h.2 m h.1
      obtain ⟨s', hs'⟩ : ∃ s', cb.setNum (a.numIndices + count) s = some s' := by
        rcases hcb with ⟨u, n, h1, h2⟩ | h
        · have := hno u n h1; omega
        · exact h
      obtain ⟨c1, e1, l1, b1, f1⟩ := initializeIndex_spec
        (c := resize a.counts (a.numIndices + count)) (index := a.numIndices) h0
        (by rw [resize_length]; omega)
      rw [resize_length] at l1
      have hN : a.numIndices = a.counts.length := rfl
      have hfr : ∀ k, k < a.numIndices → c1[k]? = a.counts[k]? := by
        intro k hk
        rw [f1 k (by omega), resize_get (by omega) (by omega)]
      have htl : Tiled c1 0 a.numIndices := hinv.tiled.congr fun k _ h => hfr k h
      have hold : ∀ j m, j < a.numIndices → (Block c1 j m ↔ Block a.counts j m) := by
        intro j m hj
        constructor
        · intro h
          have := h.disjoint b1 hj
          exact h.congr fun k h1 h2 => (hfr k (by omega)).symm
        · intro h
          have := h.lt_length
          exact h.congr fun k h1 h2 => hfr k (by omega)
      have hunl : ∀ v ∈ a.unused, v < a.numIndices := by
        intro v hv
        obtain ⟨m, hm⟩ := hinv.holes v hv
        have := hm.lt_length; have := hm.1; omega
      refine ⟨⟨c1, a.unused⟩, s', a.numIndices, ?_, ?_, Or.inr ⟨hno, rfl, ?_, hs'⟩⟩
      · unfold alloc; rw [hscan]; simp only [setNumIndices, hs', e1]
      · refine ⟨⟨?_, hinv.nodup, ?_⟩, ?_, ?_, ?_⟩
        · show Tiled c1 0 c1.length
          rw [l1]; exact htl.append (.single b1)
        · intro v hv
          obtain ⟨m, hm⟩ := hinv.holes v hv
          exact ⟨m, (hold v m (hunl v hv)).mpr hm⟩
        · intro j m
          simp only [Live]
          constructor
          · rintro ⟨h1, h2⟩
            by_cases hj : j < a.numIndices
            · left; exact ⟨(hold j m hj).mp h1, h2⟩
            · right
              have h3 := h1.lt_length
              have h4 := h1.1
              rcases Nat.lt_or_eq_of_le (Nat.le_of_not_lt hj) with h5 | h5
              · have := b1.disjoint h1 h5; omega
              · subst h5; exact ⟨rfl, h1.unique b1⟩
          · rintro (⟨h1, h2⟩ | ⟨rfl, rfl⟩)
            · exact ⟨(hold j m (by have := h1.lt_length; have := h1.1; omega)).mpr h1, h2⟩
            · exact ⟨b1, fun h => by have := hunl _ h; omega⟩
        · rintro j m ⟨h1, _⟩
          left; have := h1.lt_length; omega
        · simp [Alloc.numIndices, l1]
      · simp only [Alloc.numIndices] at *; exact l1

theorem validIndex_live {a : Alloc} {i n : Nat} (h : Live a i n) : validIndex a i = true := by
  have h0 := h.1.1
  simp only [validIndex, h.1.2.1]
  rw [if_neg (by omega)]
  simp [h.2]

theorem free_spec {a : Alloc} {i n : Nat} (hinv : Inv a) (hl : Live a i n) :
    ∃ a', free i a = some a' ∧ Inv a' ∧ a'.counts = a.counts ∧ a'.unused = a.unused ++ [i] ∧
      (∀ j m, Live a' j m ↔ Live a j m ∧ j ≠ i) := by
  refine ⟨{ a with unused := a.unused ++ [i] },
    by unfold free; rw [if_pos (validIndex_live hl)], ⟨hinv.tiled, ?_, ?_⟩, rfl, rfl, ?_⟩
  · rw [List.nodup_append]
    refine ⟨hinv.nodup, by simp, ?_⟩
    intro x hx y hy; simp at hy; subst hy; rintro rfl; exact hl.2 hx
  · intro u hu
    simp at hu
    rcases hu with hu | rfl
    · exact hinv.holes u hu
    · exact ⟨n, hl.1⟩
  · intro j m
    simp only [Live, List.mem_append, List.mem_singleton]
    tauto

end Motive.Alloc
