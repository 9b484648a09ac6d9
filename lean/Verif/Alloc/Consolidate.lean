import Verif.Alloc.AllocFree
import Mathlib.Data.List.Sort

/-! `ConsolidateUnusedIndices` merges neighbouring holes and changes nothing else. -/

namespace Motive.Alloc

/-- Cell `k` belongs to one of the holes listed in `l`. -/
def HoleCell (c : List Int) (l : List Nat) (k : Nat) : Prop :=
  ∃ u n, u ∈ l ∧ Block c u n ∧ u ≤ k ∧ k < u + n

/-- Total size of the blocks listed in `l`. -/
def hsum (c : List Int) (l : List Nat) : Nat := (l.map fun u => (countFor c u).getD 0).sum

theorem hsum_cons {c : List Int} {u n : Nat} {l : List Nat} (h : Block c u n) :
    hsum c (u :: l) = n + hsum c l := by
  simp [hsum, countFor_block h]

theorem hsum_congr {c c' : List Int} {l : List Nat}
    (h : ∀ u ∈ l, ∃ n, Block c u n ∧ Block c' u n) : hsum c l = hsum c' l := by
  unfold hsum
  congr 1
  apply List.map_congr_left
  intro u hu
  obtain ⟨n, h1, h2⟩ := h u hu
  rw [countFor_block h1, countFor_block h2]

theorem hsum_append (c : List Int) (l l' : List Nat) : hsum c (l ++ l') = hsum c l + hsum c l' := by
  simp [hsum]

theorem hsum_perm {c : List Int} {l l' : List Nat} (h : l.Perm l') : hsum c l = hsum c l' := by
  unfold hsum; exact (h.map _).sum_nat

theorem numUnused_fold {c : List Int} : ∀ (l : List Nat) (acc : Nat),
    (∀ u ∈ l, ∃ n, Block c u n) →
    l.foldlM (fun n u => (countFor c u).map (n + ·)) acc = some (acc + hsum c l) := by
  intro l
  induction l with
  | nil => intro acc _; simp [hsum]
  | cons u us ih =>
    intro acc h
    obtain ⟨n, hn⟩ := h u (by simp)
    rw [List.foldlM_cons, countFor_block hn, hsum_cons hn]
    have := ih (acc + n) (fun v hv => h v (by simp [hv]))
    simp only [Option.map_some, Option.bind_eq_bind, Option.bind_some]
    rw [this]; congr 1; omega

theorem numUnused_eq {a : Alloc} (h : Inv a) : numUnused a = some (hsum a.counts a.unused) := by
  unfold numUnused
  rw [numUnused_fold _ _ h.holes]; simp

theorem runEnd_spec {c : List Int} : ∀ (us : List Nat) (prev n0 : Nat), Block c prev n0 →
    (prev :: us).Pairwise (· < ·) → (∀ u ∈ us, ∃ n, Block c u n) →
    ∃ last rest run nl, runEnd c prev us = some (last, rest) ∧ us = run ++ rest ∧
      Block c last nl ∧ prev ≤ last ∧ Tiled c prev (last + nl) ∧ (∀ v ∈ rest, last + nl < v) ∧
      (run = [] → last = prev) ∧ (∀ v ∈ run, prev < v ∧ v ≤ last) ∧
      (∀ k, HoleCell c (prev :: run) k ↔ prev ≤ k ∧ k < last + nl) ∧
      hsum c (prev :: run) = last + nl - prev := by
  intro us
  induction us with
  | nil =>
    intro prev n0 hb _ _
    refine ⟨prev, [], [], n0, rfl, rfl, hb, Nat.le_refl _, .single hb, by simp, by simp, by simp,
      ?_, ?_⟩
    · intro k
      constructor
      · rintro ⟨u, n, hu, hbu, h1, h2⟩
        simp at hu; subst hu
        rw [hb.unique hbu]; exact ⟨h1, h2⟩
      · rintro ⟨h1, h2⟩; exact ⟨prev, n0, by simp, hb, h1, h2⟩
    · rw [hsum_cons hb]; simp [hsum]
  | cons u us ih =>
    intro prev n0 hb hp hall
    obtain ⟨n, hn⟩ := hall u (by simp)
    have hpu : prev < u := List.rel_of_pairwise_cons hp (by simp)
    have hge := hb.disjoint hn hpu
    simp only [runEnd, nextIndex_block hb]
    split
    · rename_i heq
      obtain ⟨last, rest, run, nl, e1, e2, e3, e4, e5, e6, e7, e8, e9, e10⟩ :=
        ih u n hn (List.Pairwise.of_cons hp) (fun v hv => hall v (by simp [hv]))
      have h3 := e3.1
      refine ⟨last, rest, u :: run, nl, e1, by simp [e2], e3, by omega, .cons hb (heq ▸ e5), e6,
        by simp, ?_, ?_, ?_⟩
      · intro v hv
        simp at hv
        rcases hv with rfl | hv
        · exact ⟨hpu, e4⟩
        · have := e8 v hv; omega
      · intro k
        constructor
        · rintro ⟨v, m, hv, hbv, h1, h2⟩
          rcases List.mem_cons.mp hv with rfl | hv
          · rw [hbv.unique hb] at h2; omega
          · have := (e9 k).mp ⟨v, m, hv, hbv, h1, h2⟩; omega
        · rintro ⟨h1, h2⟩
          by_cases hk : k < u
          · exact ⟨prev, n0, by simp, hb, h1, by omega⟩
          · obtain ⟨v, m, hv, r⟩ := (e9 k).mpr ⟨by omega, h2⟩
            exact ⟨v, m, List.mem_cons_of_mem _ hv, r⟩
      · rw [hsum_cons hb, e10]; omega
    · rename_i hne
      refine ⟨prev, u :: us, [], n0, rfl, rfl, hb, Nat.le_refl _, .single hb, ?_, by simp, by simp,
        ?_, ?_⟩
      · intro v hv
        rcases List.mem_cons.mp hv with rfl | hv
        · omega
        · have : u < v := List.rel_of_pairwise_cons (List.Pairwise.of_cons hp) hv
          omega
      · intro k
        constructor
        · rintro ⟨w, m, hu, hbu, h1, h2⟩
          simp at hu; subst hu
          rw [hb.unique hbu]; exact ⟨h1, h2⟩
        · rintro ⟨h1, h2⟩; exact ⟨prev, n0, by simp, hb, h1, h2⟩
      · rw [hsum_cons hb]; simp [hsum]

/-- What the merge pass guarantees. -/
structure Consolidated (c : List Int) (l : List Nat) (c' : List Int) (out : List Nat) : Prop where
  length : c'.length = c.length
  frame : ∀ k, ¬ HoleCell c l k → c'[k]? = c[k]?
  tiled : ∀ a, (∀ u ∈ l, a ≤ u) → Tiled c a c.length → Tiled c' a c'.length
  gaps : out.Pairwise fun u v => ∀ n, Block c' u n → u + n < v
  sorted : out.Pairwise (· < ·)
  sub : ∀ u ∈ out, u ∈ l
  blocks : ∀ u ∈ out, ∃ n, Block c' u n
  head : out.head? = l.head?
  cells : ∀ k, HoleCell c' out k ↔ HoleCell c l k
  sum : hsum c' out = hsum c l

theorem consolidateLoop_spec : ∀ (N : Nat) (c : List Int) (l : List Nat), l.length ≤ N →
    l.Pairwise (· < ·) → (∀ u ∈ l, ∃ n, Block c u n) →
    (∀ u ∈ l, ∃ n, Block c u n ∧ Tiled c (u + n) c.length) →
    ∃ c' out, consolidateLoop c l = some (c', out) ∧ Consolidated c l c' out := by
  intro N
  induction N with
  | zero =>
    intro c l hl _ _ _
    have : l = [] := List.length_eq_zero_iff.mp (by omega)
    subst this
    exact ⟨c, [], by simp [consolidateLoop], rfl, fun _ _ => rfl, fun _ _ h => h, by simp, by simp,
      by simp, by simp, rfl, fun _ => Iff.rfl, rfl⟩
  | succ N ih =>
    intro c l hl hs hall htl
    match l with
    | [] =>
      exact ⟨c, [], by simp [consolidateLoop], rfl, fun _ _ => rfl, fun _ _ h => h, by simp, by simp,
        by simp, by simp, rfl, fun _ => Iff.rfl, rfl⟩
    | u :: us =>
      obtain ⟨n0, hb0⟩ := hall u (by simp)
      obtain ⟨last, rest, run, nl, e1, e2, e3, e4, e5, e6, e7, e8, e9, e10⟩ :=
        runEnd_spec us u n0 hb0 hs (fun v hv => hall v (by simp [hv]))
      have hnl := e3.1
      have hEl := e3.lt_length
      have hlastmem : last ∈ u :: us := by
        have : HoleCell c (u :: run) (last + nl - 1) := (e9 _).mpr ⟨by omega, by omega⟩
        obtain ⟨v, m, hv, hbv, h1, h2⟩ := this
        have hvl : v = last := by
          rcases Nat.lt_trichotomy v last with h | h | h
          · have := hbv.disjoint e3 h; omega
          · exact h
          · have := e3.disjoint hbv h; omega
        subst hvl
        rw [e2]
        rcases List.mem_cons.mp hv with rfl | hv
        · simp
        · simp [hv]
      have htE : Tiled c (last + nl) c.length := by
        obtain ⟨m, hm, ht⟩ := htl last hlastmem
        rwa [e3.unique hm]
      -- the array after the possible merge
      obtain ⟨c', hc', hlen', hblk', hfr'⟩ : ∃ c',
          mergeRun c u last (decide (rest.length < us.length)) = some c' ∧ c'.length = c.length ∧ Block c' u (last + nl - u) ∧
          ∀ k, (k < u ∨ last + nl ≤ k) → c'[k]? = c[k]? := by
        by_cases hrun : run = []
        · subst hrun
          have := e7 rfl
          subst this
          refine ⟨c, ?_, rfl, ?_, fun _ _ => rfl⟩
          · simp [mergeRun, e2]
          · rwa [show last + nl - last = nl by omega]
        · have hlt : rest.length < us.length := by
            rw [e2]; simp; exact List.length_pos_iff.mpr hrun
          obtain ⟨c', a1, a2, a3, a4⟩ := initializeIndex_spec (c := c) (index := u)
            (count := last + nl - u) (by omega) (by omega)
          refine ⟨c', ?_, a2, a3, fun k hk => a4 k (by omega)⟩
          simp only [mergeRun, hlt, decide_true, if_true, nextIndex_block e3]
          rw [if_pos (by omega)]; exact a1
      have hrestmem : ∀ v ∈ rest, v ∈ u :: us := by intro v hv; rw [e2]; simp [hv]
      have hrestblk : ∀ v m, v ∈ rest → (Block c' v m ↔ Block c v m) := by
        intro v m hv
        have := e6 v hv
        constructor
        · intro h; exact h.congr fun k _ _ => (hfr' k (by omega)).symm
        · intro h; exact h.congr fun k _ _ => hfr' k (by omega)
      have hrestsorted : rest.Pairwise (· < ·) := by
        have h1 := List.Pairwise.of_cons hs
        rw [e2] at h1
        exact (List.pairwise_append.mp h1).2.1
      have hcellrest : ∀ k, HoleCell c' rest k ↔ HoleCell c rest k := by
        intro k
        constructor
        · rintro ⟨v, m, hv, hb, r⟩; exact ⟨v, m, hv, (hrestblk v m hv).mp hb, r⟩
        · rintro ⟨v, m, hv, hb, r⟩; exact ⟨v, m, hv, (hrestblk v m hv).mpr hb, r⟩
      obtain ⟨c'', out, f1, f2⟩ := ih c' rest
        (by have := congrArg List.length e2; simp at this hl; omega) hrestsorted
        (fun v hv => by
          obtain ⟨m, hm⟩ := hall v (hrestmem v hv)
          exact ⟨m, (hrestblk v m hv).mpr hm⟩)
        (fun v hv => by
          obtain ⟨m, hm, ht⟩ := htl v (hrestmem v hv)
          refine ⟨m, (hrestblk v m hv).mpr hm, ?_⟩
          rw [hlen']
          have := e6 v hv
          exact ht.congr fun k _ _ => hfr' k (by omega))
      have hnc : ∀ k, k < last + nl → ¬ HoleCell c' rest k := by
        rintro k hk ⟨v, m, hv, hb, h1, h2⟩
        have := e6 v hv; omega
      have hblk'' : Block c'' u (last + nl - u) :=
        hblk'.congr fun k h1 h2 => f2.frame k (hnc k (by omega))
      have hcellsplit : ∀ k, HoleCell c (u :: us) k ↔ (u ≤ k ∧ k < last + nl) ∨ HoleCell c rest k := by
        intro k
        rw [← e9 k]
        constructor
        · rintro ⟨v, m, hv, r⟩
          rw [e2] at hv
          rcases List.mem_cons.mp hv with rfl | hv
          · left; exact ⟨v, m, by simp, r⟩
          · rcases List.mem_append.mp hv with hv | hv
            · left; exact ⟨v, m, by simp [hv], r⟩
            · right; exact ⟨v, m, hv, r⟩
        · rintro (⟨v, m, hv, r⟩ | ⟨v, m, hv, r⟩)
          · refine ⟨v, m, ?_, r⟩
            rw [e2]
            rcases List.mem_cons.mp hv with rfl | hv
            · simp
            · simp [hv]
          · exact ⟨v, m, hrestmem v hv, r⟩
      refine ⟨c'', u :: out, ?_, ?_⟩
      · rw [consolidateLoop]
        split
        · rename_i h; rw [e1] at h; simp at h
        · rename_i last' rest' h
          rw [e1] at h; simp at h
          obtain ⟨rfl, rfl⟩ := h
          simp only [hc', f1]
      · refine ⟨by rw [f2.length, hlen'], ?_, ?_, ?_, ?_, ?_, ?_, rfl, ?_, ?_⟩
        · intro k hk
          rw [hcellsplit] at hk
          push Not at hk
          rw [f2.frame k (by rw [hcellrest]; exact hk.2), hfr' k (by have := hk.1; omega)]
        · intro a ha ht
          have hau : a ≤ u := ha u (by simp)
          obtain ⟨t1, _⟩ := ht.split_block hau (by have := hb0.lt_length; have := hb0.1; omega) hb0
          have t1'' : Tiled c'' a u := t1.congr fun k h1 h2 => by
            rw [f2.frame k (hnc k (by omega)), hfr' k (by omega)]
          have tE' : Tiled c' (last + nl) c'.length := by
            rw [hlen']; exact htE.congr fun k h1 h2 => hfr' k (by omega)
          have tE'' := f2.tiled (last + nl) (fun v hv => by have := e6 v hv; omega) tE'
          have : Tiled c'' u (last + nl) := .single' hblk''
          exact (t1''.append this).append tE''
        · refine List.pairwise_cons.mpr ⟨?_, f2.gaps⟩
          intro v hv n hn
          have := e6 v (f2.sub v hv)
          rw [← hblk''.unique hn]; omega
        · refine List.pairwise_cons.mpr ⟨?_, f2.sorted⟩
          intro v hv
          have := e6 v (f2.sub v hv); omega
        · intro v hv
          rcases List.mem_cons.mp hv with rfl | hv
          · simp
          · exact hrestmem v (f2.sub v hv)
        · intro v hv
          rcases List.mem_cons.mp hv with rfl | hv
          · exact ⟨_, hblk''⟩
          · exact f2.blocks v hv
        · intro k
          rw [hcellsplit, ← hcellrest, ← f2.cells k]
          constructor
          · rintro ⟨v, m, hv, hb, h1, h2⟩
            rcases List.mem_cons.mp hv with rfl | hv
            · left; rw [hb.unique hblk''] at h2; omega
            · right; exact ⟨v, m, hv, hb, h1, h2⟩
          · rintro (⟨h1, h2⟩ | ⟨v, m, hv, r⟩)
            · exact ⟨u, _, by simp, hblk'', h1, by omega⟩
            · exact ⟨v, m, by simp [hv], r⟩
        · rw [hsum_cons hblk'', f2.sum, e2, ← List.cons_append, hsum_append, e10]
          congr 1
          exact hsum_congr fun v hv => by
            obtain ⟨m, hm⟩ := hall v (hrestmem v hv)
            exact ⟨m, (hrestblk v m hv).mpr hm, hm⟩

theorem Inv.tail {a : Alloc} (h : Inv a) {i n : Nat} (hb : Block a.counts i n) :
    Tiled a.counts (i + n) a.counts.length :=
  (h.tiled.split_block (Nat.zero_le i) (by have := hb.lt_length; have := hb.1; omega) hb).2

theorem Inv.head {a : Alloc} (h : Inv a) {i n : Nat} (hb : Block a.counts i n) :
    Tiled a.counts 0 i :=
  (h.tiled.split_block (Nat.zero_le i) (by have := hb.lt_length; have := hb.1; omega) hb).1

/-- The consolidated free list is sorted and no two holes touch. -/
def Gaps (a : Alloc) : Prop :=
  a.unused.Pairwise (fun u v => ∀ n, Block a.counts u n → u + n < v) ∧ a.unused.Pairwise (· < ·)

theorem consolidate_spec {a : Alloc} (h : Inv a) : ∃ a', consolidate a = some a' ∧ Inv a' ∧ Gaps a' ∧
    a'.numIndices = a.numIndices ∧ (∀ j m, Live a' j m ↔ Live a j m) ∧
    hsum a'.counts a'.unused = hsum a.counts a.unused ∧
    (∀ u ∈ a'.unused, u ∈ a.unused) ∧
    (∀ u us, a'.unused = u :: us → ∀ v ∈ a.unused, u ≤ v) ∧
    (a.unused ≠ [] → a'.unused ≠ []) := by
  have hperm : (a.unused.mergeSort (fun x y => decide (x ≤ y))).Perm a.unused :=
    List.mergeSort_perm ..
  have hle : (a.unused.mergeSort (fun x y => decide (x ≤ y))).Pairwise (· ≤ ·) := by
    have := List.pairwise_mergeSort (le := fun (x y : Nat) => decide (x ≤ y))
      (by intro x y z; simp; omega) (by intro x y; simp; omega) a.unused
    exact this.imp (by intro x y hxy; simpa using hxy)
  generalize hl : a.unused.mergeSort (fun x y => decide (x ≤ y)) = l at *
  have hnd : l.Nodup := hperm.nodup_iff.mpr h.nodup
  have hlt : l.Pairwise (· < ·) := by
    refine (hle.and hnd).imp ?_
    rintro x y ⟨h1, h2⟩; exact lt_of_le_of_ne h1 h2
  have hmem : ∀ v, v ∈ l ↔ v ∈ a.unused := fun v => hperm.mem_iff
  obtain ⟨c', out, e1, e2⟩ := consolidateLoop_spec l.length a.counts l (Nat.le_refl _) hlt
    (fun u hu => h.holes u ((hmem u).mp hu))
    (fun u hu => by
      obtain ⟨n, hn⟩ := h.holes u ((hmem u).mp hu)
      exact ⟨n, hn, h.tail hn⟩)
  have hinv' : Inv ⟨c', out⟩ := by
    refine ⟨e2.tiled 0 (fun _ _ => Nat.zero_le _) h.tiled, ?_, e2.blocks⟩
    exact e2.sorted.imp fun hxy => Nat.ne_of_lt hxy
  refine ⟨⟨c', out⟩, ?_, hinv', ⟨e2.gaps, e2.sorted⟩, e2.length, ?_, ?_, ?_, ?_, ?_⟩
  · unfold consolidate; rw [hl, e1]
  · intro j m
    constructor
    · rintro ⟨h1, h2⟩
      -- no cell of [j,j+m) is a hole cell
      have hcell : ∀ k, j ≤ k → k < j + m → ¬ HoleCell a.counts l k := by
        intro k hk1 hk2 hc
        obtain ⟨v, n, hv, hb, h3, h4⟩ := (e2.cells k).mpr hc
        have hvj : v ≠ j := fun h => h2 (h ▸ hv)
        rcases Nat.lt_or_gt_of_ne hvj with h5 | h5
        · have := hb.disjoint h1 h5; omega
        · have := h1.disjoint hb h5; omega
      have hB : Block a.counts j m := h1.congr fun k hk1 hk2 => (e2.frame k (hcell k hk1 hk2)).symm
      refine ⟨hB, fun hj => ?_⟩
      exact hcell j (Nat.le_refl _) (by have := h1.1; omega)
        ⟨j, m, (hmem j).mpr hj, hB, Nat.le_refl _, by have := h1.1; omega⟩
    · rintro ⟨h1, h2⟩
      have hcell : ∀ k, j ≤ k → k < j + m → ¬ HoleCell a.counts l k := by
        rintro k hk1 hk2 ⟨v, n, hv, hb, h3, h4⟩
        have hvj : v ≠ j := fun h => h2 ((hmem j).mp (h ▸ hv))
        rcases Nat.lt_or_gt_of_ne hvj with h5 | h5
        · have := hb.disjoint h1 h5; omega
        · have := h1.disjoint hb h5; omega
      exact ⟨h1.congr fun k hk1 hk2 => e2.frame k (hcell k hk1 hk2),
        fun hj => h2 ((hmem j).mp (e2.sub j hj))⟩
  · show hsum c' out = _
    rw [e2.sum]; exact hsum_perm hperm
  · intro u hu; exact (hmem u).mp (e2.sub u hu)
  · intro u us hu v hv
    have hhd := e2.head
    simp only at hu
    rw [hu] at hhd
    cases l with
    | nil => simp at hhd
    | cons x xs =>
      simp at hhd; subst hhd
      rcases List.mem_cons.mp ((hmem v).mpr hv) with rfl | h3
      · exact Nat.le_refl _
      · exact Nat.le_of_lt (List.rel_of_pairwise_cons hlt h3)
  · intro hne hout
    simp only at hout
    have hhd := e2.head
    rw [hout] at hhd
    cases l with
    | nil => exact hne (by simpa using hperm.symm)
    | cons x xs => simp at hhd

end Motive.Alloc
