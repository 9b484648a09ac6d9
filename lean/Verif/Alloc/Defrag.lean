import Verif.Alloc.Consolidate

/-! `LastIndexRangeSmallerThanHole`, `BackfillFirstUnused` and `Defragment`. -/

namespace Motive.Alloc

theorem innerLoop_spec {c : List Int} {index endd count us ns : Nat} (hus : Block c us ns) :
    ∀ (J j start : Nat), j ≤ J → prevIndex c start = some j → us + ns ≤ start →
      Tiled c (us + ns) start → start ≤ endd → Tiled c start endd → endd - start ≤ count →
      us ≤ j →
      ∃ st, innerLoop c index endd count us j start = some st ∧ us + ns ≤ st ∧ st ≤ endd ∧
        Tiled c st endd ∧ endd - st ≤ count ∧ Tiled c (us + ns) st := by
  intro J
  induction J with
  | zero =>
    intro j start hj hp h1 h2 h3 h4 h5 h6
    refine ⟨start, ?_, h1, h3, h4, h5, h2⟩
    unfold innerLoop; rw [if_neg (by omega)]
  | succ J ih =>
    intro j start hj hp h1 h2 h3 h4 h5 h6
    have hstay : ∃ st, some start = some st ∧ us + ns ≤ st ∧ st ≤ endd ∧
        Tiled c st endd ∧ endd - st ≤ count ∧ Tiled c (us + ns) st :=
      ⟨start, rfl, h1, h3, h4, h5, h2⟩
    unfold innerLoop
    split
    · split
      · exact hstay
      · split
        · exact hstay
        · rename_i g1 g2 g3
          -- the block [j, start)
          have hlt : us + ns < start := by
            rcases Nat.lt_or_eq_of_le h1 with h | h
            · exact h
            · have := prevIndex_block hus h; rw [hp] at this; simp at this; exact absurd this g3
          obtain ⟨q, m, q1, q2, q3, q4⟩ := h2.last hlt
          have hjq : j = q := by
            have := prevIndex_block q3 q4; rw [hp] at this; simpa using this
          subst hjq
          have hjp : ∃ j', prevIndex c j = some j' ∧ us ≤ j' ∧ j' < j := by
            rcases Nat.lt_or_eq_of_le q1 with h | h
            · obtain ⟨q', m', r1, r2, r3, r4⟩ := q2.last h
              exact ⟨q', prevIndex_block r3 r4, by omega, by have := r3.1; omega⟩
            · exact ⟨us, prevIndex_block hus h, Nat.le_refl _, by have := hus.1; omega⟩
          obtain ⟨j', hj', hj'1, hj'2⟩ := hjp
          split
          · rename_i h; rw [hj'] at h; simp at h
          · rename_i j'' h
            rw [hj'] at h; simp at h; subst h
            have hm := q3.1
            have : Tiled c j start := by rw [← q4]; exact .single q3
            exact ih j' j (by omega) hj' q1 q2 (by omega) (this.append h4) (by omega) hj'1
    · exact hstay

/-- The range found by `LastIndexRangeSmallerThanHole` for the first hole `[u0, u0+n0)`. -/
structure RangeOK (a : Alloc) (u0 n0 fs fe : Nat) : Prop where
  ge : u0 + n0 ≤ fs
  lt : fs < fe
  le : fe ≤ a.numIndices
  tiled : Tiled a.counts fs fe
  tail : Tiled a.counts fe a.counts.length
  fits : fe - fs ≤ n0
  nohole : ∀ v ∈ a.unused, (∀ n, Block a.counts v n → v + n ≤ fs) ∨ fe ≤ v

theorem outerLoop_spec {a : Alloc} (h : Inv a) (hg : Gaps a) {u0 n0 : Nat} {us : List Nat}
    (hu : a.unused = u0 :: us) (hb0 : Block a.counts u0 n0) :
    ∀ (E endd : Nat) (rem : List Nat), endd ≤ E → endd ≤ a.numIndices →
      Tiled a.counts 0 endd → Tiled a.counts endd a.counts.length →
      (∀ v ∈ rem, v ∈ a.unused ∧ ∀ n, Block a.counts v n → v + n ≤ endd) →
      (∀ v ∈ a.unused, v ∈ rem ∨ endd ≤ v) →
      rem.Pairwise (fun x y => y < x) →
      outerLoop a.counts u0 n0 endd rem = some none ∨
      ∃ fs fe, outerLoop a.counts u0 n0 endd rem = some (some (fs, fe)) ∧ RangeOK a u0 n0 fs fe := by
  have hmin : ∀ v ∈ a.unused, u0 ≤ v := by
    intro v hv
    rw [hu] at hv
    rcases List.mem_cons.mp hv with rfl | hv
    · exact Nat.le_refl _
    · have := hg.2; rw [hu] at this
      exact Nat.le_of_lt (List.rel_of_pairwise_cons this hv)
  intro E
  induction E with
  | zero =>
    intro endd rem hE _ _ _ _ _ _
    left; unfold outerLoop; rw [if_neg (by omega)]
  | succ E ih =>
    intro endd rem hE hle ht1 ht2 hrem hall hsort
    unfold outerLoop
    split
    swap
    · left; rfl
    rename_i hlt
    -- the list cannot be exhausted: `u0` is still in it
    have hu0rem : u0 ∈ rem := by
      rcases hall u0 (by rw [hu]; simp) with h1 | h1
      · exact h1
      · omega
    match rem, hrem, hall, hsort, hu0rem with
    | [], _, _, _, h0 => simp at h0
    | v :: rem', hrem, hall, hsort, hu0rem =>
      obtain ⟨nv, hbv⟩ := h.holes v (hrem v (by simp)).1
      have hve := (hrem v (by simp)).2 nv hbv
      have hvu : u0 ≤ v := hmin v (hrem v (by simp)).1
      obtain ⟨p, m, p1, p2, p3, p4⟩ := ht1.last (by omega)
      have hm := p3.1
      simp only [nextIndex_block hbv]
      rw [if_neg (by omega)]
      have hpp := prevIndex_block p3 p4
      have hp2 : Tiled a.counts p a.counts.length := .cons p3 (p4 ▸ ht2)
      split
      · rename_i hq; rw [hpp] at hq; simp at hq
      rename_i p' hq
      rw [hpp] at hq; simp at hq; subst hq
      split
      · rename_i heq
        -- skip a hole at the end
        have hpv : p = v := by
          rcases Nat.lt_trichotomy p v with h1 | h1 | h1
          · have := p3.disjoint hbv h1; have := hbv.1; omega
          · exact h1
          · have := hbv.disjoint p3 h1; omega
        subst hpv
        refine ih p rem' (by omega) (by omega) p2 hp2 ?_ ?_ (List.Pairwise.of_cons hsort)
        · intro w hw
          refine ⟨(hrem w (by simp [hw])).1, fun n hn => ?_⟩
          exact hn.disjoint hbv (List.rel_of_pairwise_cons hsort hw)
        · intro w hw
          rcases hall w hw with h1 | h1
          · rcases List.mem_cons.mp h1 with rfl | h1
            · right; exact Nat.le_refl _
            · left; exact h1
          · right; omega
      · rename_i hne
        have hpv : v + nv ≤ p := by
          rcases Nat.lt_trichotomy p v with h1 | h1 | h1
          · have := p3.disjoint hbv h1; have := hbv.1; omega
          · subst h1; have := p3.unique hbv; omega
          · exact hbv.disjoint p3 h1
        have htv : Tiled a.counts (v + nv) endd :=
          (ht1.split_block (Nat.zero_le v) (by have := hbv.1; omega) hbv).2
        obtain ⟨st, s1, s2, s3, s4, s5, s6⟩ := innerLoop_spec (index := u0) (endd := endd)
          (count := n0) hbv p p endd (Nat.le_refl _) hpp (by omega) htv (Nat.le_refl _) (.nil _)
          (by omega) (by omega)
        rw [s1]
        simp only
        split
        · rename_i hst
          right
          refine ⟨st, endd, rfl, ?_, hst, hle, s4, ht2, s5, ?_⟩
          · rcases Nat.lt_or_eq_of_le hvu with h1 | h1
            · have := hb0.disjoint hbv h1; omega
            · subst h1; rw [hb0.unique hbv]; exact s2
          · intro w hw
            rcases hall w hw with h1 | h1
            · left
              intro n hn
              rcases List.mem_cons.mp h1 with rfl | h1
              · rw [hn.unique hbv]; exact s2
              · have : w < v := List.rel_of_pairwise_cons hsort h1
                have := hn.disjoint hbv this; have := hbv.1; omega
            · right; exact h1
        · refine ih p (v :: rem') (by omega) (by omega) p2 hp2 ?_ ?_ hsort
          · intro w hw
            refine ⟨(hrem w hw).1, fun n hn => ?_⟩
            rcases List.mem_cons.mp hw with rfl | h1
            · rw [hn.unique hbv]; exact hpv
            · have : w < v := List.rel_of_pairwise_cons hsort h1
              have := hn.disjoint hbv this; have := hbv.1; omega
          · intro w hw
            rcases hall w hw with h1 | h1
            · left; exact h1
            · right; omega

theorem lastRange_spec {a : Alloc} (h : Inv a) (hg : Gaps a) {u0 n0 : Nat} {us : List Nat}
    (hu : a.unused = u0 :: us) (hb0 : Block a.counts u0 n0) :
    lastRange a u0 = some none ∨
    ∃ fs fe, lastRange a u0 = some (some (fs, fe)) ∧ RangeOK a u0 n0 fs fe := by
  unfold lastRange
  rw [countFor_block hb0]
  refine outerLoop_spec h hg hu hb0 a.numIndices a.numIndices a.unused.reverse (Nat.le_refl _)
    (Nat.le_refl _) h.tiled (.nil _) ?_ ?_ ?_
  · intro v hv
    exact ⟨by simpa using hv, fun n hn => hn.lt_length⟩
  · intro v hv; left; simpa using hv
  · rw [List.pairwise_reverse]; exact hg.2

/-- The effect of one relocation `[fs, fe) → t` on the set of allocated blocks. -/
structure MoveSpec (a : Alloc) (fs fe t : Nat) (a' : Alloc) : Prop where
  down : t < fs
  lt : fs < fe
  le : fe ≤ a.numIndices
  /-- the source range is a sequence of allocated blocks -/
  tiled : Tiled a.counts fs fe
  src : ∀ i n, Block a.counts i n → fs ≤ i → i < fe → i ∉ a.unused ∧ i + n ≤ fe
  /-- the part of the target range outside the source is not allocated -/
  dst : ∀ k, t ≤ k → k < t + (fe - fs) → k < fs → HoleCell a.counts a.unused k
  num : a'.numIndices = a.numIndices
  live : ∀ j m, Live a' j m ↔ (Live a j m ∧ (j + m ≤ fs ∨ fe ≤ j)) ∨
    ∃ i, Live a i m ∧ fs ≤ i ∧ i + m ≤ fe ∧ j + fs = i + t

theorem unusedAtEnd_spec {a : Alloc} (h : Inv a) : ∃ b, unusedAtEnd a = some b ∧
    (b = true ↔ ∃ u n, a.unused = [u] ∧ Block a.counts u n ∧ u + n = a.numIndices) := by
  unfold unusedAtEnd
  split
  · rename_i u hu
    obtain ⟨n, hn⟩ := h.holes u (by rw [hu]; simp)
    rw [nextIndex_block hn]
    refine ⟨_, rfl, ?_⟩
    simp only [decide_eq_true_eq]
    constructor
    · intro he; exact ⟨u, n, by rw [hu], hn, he⟩
    · rintro ⟨u', n', h1, h2, h3⟩
      have : u = u' := by rw [hu] at h1; simpa using h1
      subst this
      rw [hn.unique h2]; exact h3
  · rename_i hne
    refine ⟨false, rfl, ?_⟩
    simp only [Bool.false_eq_true, false_iff]
    rintro ⟨u, n, h1, _⟩
    exact hne u h1

/-- `BackfillFirstUnused`: one relocation, after which every hole starts strictly later than the
first hole did. -/
theorem backfill_spec {σ : Type} {cb : Callbacks σ} {a : Alloc} {s : σ} (h : Inv a) (hg : Gaps a)
    {u0 : Nat} {us : List Nat} (hu : a.unused = u0 :: us)
    (hend : ¬ ∃ u n, a.unused = [u] ∧ Block a.counts u n ∧ u + n = a.numIndices) :
    ∃ fs fe t a', MoveSpec a fs fe t a' ∧ Inv a' ∧
      hsum a'.counts a'.unused = hsum a.counts a.unused ∧
      (∀ v ∈ a'.unused, u0 < v) ∧ a'.unused ≠ [] ∧
      ∀ s', cb.move a fs fe t s = some s' → backfill cb a s = some (a', s') := by
  obtain ⟨n0, hb0⟩ := h.holes u0 (by rw [hu]; simp)
  have hn0 := hb0.1
  have hmin : ∀ v ∈ us, u0 < v ∧ u0 + n0 < v := by
    intro v hv
    have h1 := hg.2; rw [hu] at h1
    have h2 := hg.1; rw [hu] at h2
    exact ⟨List.rel_of_pairwise_cons h1 hv, List.rel_of_pairwise_cons h2 hv n0 hb0⟩
  have hnd : us.Nodup := by have := h.nodup; rw [hu] at this; exact (List.nodup_cons.mp this).2
  have hlen0 := hb0.lt_length
  have hN : a.numIndices = a.counts.length := rfl
  have hT0 := h.head hb0
  have hT1 := h.tail hb0
  -- disjointness from the first hole
  have hoff : ∀ j m, Block a.counts j m → j ≠ u0 → j + m ≤ u0 ∨ u0 + n0 ≤ j := by
    intro j m hj hne
    rcases Nat.lt_or_gt_of_ne hne with h1 | h1
    · left; exact hj.disjoint hb0 h1
    · right; exact hb0.disjoint hj h1
  rcases lastRange_spec h hg hu hb0 with hlr | ⟨fs, fe, hlr, hR⟩
  · -- Case 2: shift everything up to the next hole
    obtain ⟨fe, hfe, hfe1, hfe2, hTfe, hsrcno⟩ : ∃ fe,
        nextHole a = fe ∧ u0 + n0 < fe ∧
        fe ≤ a.numIndices ∧ Tiled a.counts fe a.counts.length ∧ ∀ v ∈ us, fe ≤ v := by
      match hus : us with
      | [] =>
        refine ⟨a.numIndices, by simp [nextHole, hu], ?_, Nat.le_refl _, .nil _, by simp⟩
        have : u0 + n0 ≠ a.numIndices := fun he => hend ⟨u0, n0, by rw [hu], hb0, he⟩
        omega
      | u1 :: us' =>
        obtain ⟨n1, hb1⟩ := h.holes u1 (by rw [hu]; simp)
        refine ⟨u1, by simp [nextHole, hu], (hmin u1 (by simp)).2, ?_, .cons hb1 (h.tail hb1), ?_⟩
        · have := hb1.lt_length; omega
        · intro v hv
          rcases List.mem_cons.mp hv with rfl | hv
          · exact Nat.le_refl _
          · have h1 := hg.2; rw [hu] at h1
            exact Nat.le_of_lt (List.rel_of_pairwise_cons (List.Pairwise.of_cons h1) hv)
    have hsrc : Tiled a.counts (u0 + n0) fe := by
      by_cases hl : fe < a.counts.length
      · obtain ⟨m, hm, _⟩ := hTfe.first hl
        exact (hT1.split_block (by omega) hl hm).1
      · have : fe = a.counts.length := by omega
        rw [this]; exact hT1
    obtain ⟨c1, e1, l1, m1, f1⟩ := memmove_spec (c := a.counts) (dst := u0) (src := u0 + n0)
      (len := fe - (u0 + n0)) (by omega) (by omega)
    obtain ⟨c2, e2, l2, b2, f2⟩ := initializeIndex_spec (c := c1)
      (index := u0 + (fe - (u0 + n0))) (count := fe - (u0 + (fe - (u0 + n0)))) (by omega)
      (by omega)
    have hh : fe - (u0 + (fe - (u0 + n0))) = n0 := by omega
    have hfrA : ∀ k, k < u0 → c2[k]? = a.counts[k]? := by
      intro k hk; rw [f2 k (by omega), f1 k (by omega)]
    have hfrB : ∀ k, k < fe - (u0 + n0) → c2[u0 + k]? = a.counts[u0 + n0 + k]? := by
      intro k hk; rw [f2 _ (by omega), m1 k hk]
    have hfrC : ∀ k, fe ≤ k → c2[k]? = a.counts[k]? := by
      intro k hk; rw [f2 k (by omega), f1 k (by omega)]
    have tA : Tiled c2 0 u0 := hT0.congr fun k _ h2 => hfrA k h2
    have tB : Tiled c2 u0 (u0 + (fe - (u0 + n0))) := hsrc.shift hfrB
    have tH : Tiled c2 (u0 + (fe - (u0 + n0))) fe := .single' b2
    have tC : Tiled c2 fe c2.length := by
      rw [l2, l1]; exact hTfe.congr fun k h1 _ => hfrC k h1
    have hT : Tiled c2 0 c2.length := ((tA.append tB).append tH).append tC
    have tH' : Tiled c2 (u0 + (fe - (u0 + n0))) c2.length := tH.append tC
    have tB' : Tiled c2 u0 c2.length := tB.append tH'
    have husblk : ∀ v m, fe ≤ v → (Block c2 v m ↔ Block a.counts v m) := by
      intro v m hv
      exact ⟨fun hb => hb.congr fun k _ _ => (hfrC k (by omega)).symm,
        fun hb => hb.congr fun k _ _ => hfrC k (by omega)⟩
    refine ⟨u0 + n0, fe, u0, ⟨c2, (u0 + (fe - (u0 + n0))) :: us⟩, ?_, ?_, ?_, ?_, by simp, ?_⟩
    · refine ⟨by omega, hfe1, hfe2, hsrc, ?_, ?_, by simp [Alloc.numIndices, l2, l1], ?_⟩
      · intro i n hi h1 h2
        refine ⟨?_, hi.le_of_tiled hTfe h2⟩
        intro hmem
        rw [hu] at hmem
        rcases List.mem_cons.mp hmem with rfl | hmem
        · omega
        · have := hsrcno i hmem; omega
      · intro k h1 h2 h3
        exact ⟨u0, n0, by rw [hu]; simp, hb0, h1, h3⟩
      · intro j m
        simp only [Live]
        constructor
        · rintro ⟨hb, hnm⟩
          simp only [List.mem_cons, not_or] at hnm
          by_cases c1 : j < u0
          · left
            have := hb.le_of_tiled tB' c1
            refine ⟨⟨hb.congr fun k _ _ => (hfrA k (by omega)).symm, ?_⟩, by omega⟩
            rw [hu]; simp only [List.mem_cons, not_or]; exact ⟨by omega, hnm.2⟩
          · by_cases c2' : j < u0 + (fe - (u0 + n0))
            · right
              have hjm := hb.le_of_tiled tH' c2'
              refine ⟨j + n0, ⟨hb.shift fun k hk => ?_, ?_⟩, by omega, by omega, by omega⟩
              · have := hfrB (j - u0 + k) (by omega)
                rw [show u0 + (j - u0 + k) = j + k by omega,
                  show u0 + n0 + (j - u0 + k) = j + n0 + k by omega] at this
                exact this.symm
              · rw [hu]; simp only [List.mem_cons, not_or]
                exact ⟨by omega, fun hm => by have := hsrcno _ hm; omega⟩
            · by_cases c3 : j < fe
              · exfalso
                have : u0 + (fe - (u0 + n0)) < j := by have := hnm.1; omega
                have := b2.disjoint hb this
                omega
              · left
                refine ⟨⟨(husblk j m (by omega)).mp hb, ?_⟩, Or.inr (by omega)⟩
                rw [hu]; simp only [List.mem_cons, not_or]; exact ⟨by omega, hnm.2⟩
        · rintro (⟨⟨hb, hnm⟩, hpos⟩ | ⟨i, ⟨hb, hnm⟩, h1, h2, h3⟩)
          · rw [hu] at hnm
            simp only [List.mem_cons, not_or] at hnm
            have hm0 := hb.1
            rcases hpos with hp | hp
            · have hju : j + m ≤ u0 := by
                rcases hoff j m hb hnm.1 with h1 | h1
                · exact h1
                · omega
              refine ⟨hb.congr fun k _ _ => hfrA k (by omega), ?_⟩
              simp only [List.mem_cons, not_or]; exact ⟨by omega, hnm.2⟩
            · refine ⟨(husblk j m hp).mpr hb, ?_⟩
              simp only [List.mem_cons, not_or]; exact ⟨by omega, hnm.2⟩
          · have hm0 := hb.1
            refine ⟨hb.shift fun k hk => ?_, ?_⟩
            · have := hfrB (j - u0 + k) (by omega)
              rw [show u0 + (j - u0 + k) = j + k by omega,
                show u0 + n0 + (j - u0 + k) = i + k by omega] at this
              exact this
            · simp only [List.mem_cons, not_or]
              exact ⟨by omega, fun hm => by have := hsrcno _ hm; omega⟩
    · refine ⟨hT, ?_, ?_⟩
      · refine List.nodup_cons.mpr ⟨fun hm => ?_, hnd⟩
        have := hsrcno _ hm; omega
      · intro v hv
        rcases List.mem_cons.mp hv with rfl | hv
        · exact ⟨_, b2⟩
        · obtain ⟨m, hm⟩ := h.holes v (by rw [hu]; simp [hv])
          exact ⟨m, (husblk v m (hsrcno v hv)).mpr hm⟩
    · show hsum c2 _ = _
      rw [hu, hsum_cons b2, hsum_cons hb0, hh]
      congr 1
      exact hsum_congr fun v hv => by
        obtain ⟨m, hm⟩ := h.holes v (by rw [hu]; simp [hv])
        exact ⟨m, (husblk v m (hsrcno v hv)).mpr hm, hm⟩
    · intro v hv
      rcases List.mem_cons.mp hv with rfl | hv
      · omega
      · exact (hmin v hv).1
    · intro s' hs'
      unfold backfill
      simp only [hu, countFor_block hb0, hlr, nextIndex_block hb0]
      rw [hfe, if_neg (by omega)]
      simp only [hs', e1, e2]
      rw [if_pos (verify_tiled hT)]
  · -- Case 1: fill the hole with the last small enough range
    obtain ⟨R1, R2, R3, R4, R5, R6, R7⟩ := hR
    have hmid : Tiled a.counts (u0 + n0) fs := by
      obtain ⟨m, hm, _⟩ := R4.first R2
      exact (hT1.split_block R1 (by omega) hm).1
    have hTfs : Tiled a.counts fs a.counts.length := R4.append R5
    obtain ⟨c1, e1, l1, m1, f1⟩ := memmove_spec (c := a.counts) (dst := u0) (src := fs)
      (len := fe - fs) (by omega) (by omega)
    obtain ⟨c2, e2, l2, b2, f2⟩ := initializeIndex_spec (c := c1)
      (index := fs) (count := fe - fs) (by omega) (by omega)
    -- holes other than the first are outside both ranges
    have husoff : ∀ v ∈ us, ∀ n, Block a.counts v n → u0 + n0 < v ∧ (v + n ≤ fs ∨ fe ≤ v) := by
      intro v hv n hn
      refine ⟨(hmin v hv).2, ?_⟩
      rcases R7 v (by rw [hu]; simp [hv]) with h1 | h1
      · left; exact h1 n hn
      · right; exact h1
    have husblk0 : ∀ v ∈ us, v < fs ∨ fe ≤ v := by
      intro v hv
      obtain ⟨n, hn⟩ := h.holes v (by rw [hu]; simp [hv])
      have := (husoff v hv n hn).2; have := hn.1; omega
    -- final array and its properties, in both sub-cases
    obtain ⟨c3, ex, hc3, l3, hrest, hfr3⟩ : ∃ (c3 : List Int) (ex : List Nat),
        (∀ s', (if u0 + (fe - fs) < u0 + n0 then
            match initializeIndex c2 (u0 + (fe - fs)) (u0 + n0 - (u0 + (fe - fs))) with
            | none => none
            | some c3 =>
              if verify c3 0 then some ((⟨c3, fs :: us ++ [u0 + (fe - fs)]⟩ : Alloc), (s' : σ)) else none
          else if verify c2 0 then some (⟨c2, fs :: us⟩, s') else none) =
          if verify c3 0 then some (⟨c3, fs :: us ++ ex⟩, s') else none) ∧
        c3.length = c2.length ∧
        ((ex = [] ∧ fe - fs = n0) ∨
          (ex = [u0 + (fe - fs)] ∧ fe - fs < n0 ∧ Block c3 (u0 + (fe - fs)) (n0 - (fe - fs)))) ∧
        ∀ k, (k < u0 + (fe - fs) ∨ u0 + n0 ≤ k) → c3[k]? = c2[k]? := by
      by_cases hd : u0 + (fe - fs) < u0 + n0
      · obtain ⟨c3, e3, l3, b3, f3⟩ := initializeIndex_spec (c := c2)
          (index := u0 + (fe - fs)) (count := u0 + n0 - (u0 + (fe - fs))) (by omega) (by omega)
        refine ⟨c3, [u0 + (fe - fs)], ?_, l3, Or.inr ⟨rfl, by omega, ?_⟩, fun k hk => f3 k (by omega)⟩
        · intro s'; rw [if_pos hd, e3]
        · rwa [show u0 + n0 - (u0 + (fe - fs)) = n0 - (fe - fs) by omega] at b3
      · refine ⟨c2, [], ?_, rfl, Or.inl ⟨rfl, by omega⟩, fun _ _ => rfl⟩
        intro s'; rw [if_neg hd]; simp
    have hfrA : ∀ k, k < u0 → c3[k]? = a.counts[k]? := by
      intro k hk; rw [hfr3 k (by omega), f2 k (by omega), f1 k (by omega)]
    have hfrB : ∀ k, k < fe - fs → c3[u0 + k]? = a.counts[fs + k]? := by
      intro k hk; rw [hfr3 _ (by omega), f2 _ (by omega), m1 k hk]
    have hfrM : ∀ k, u0 + n0 ≤ k → k < fs → c3[k]? = a.counts[k]? := by
      intro k h1 h2; rw [hfr3 k (by omega), f2 k (by omega), f1 k (by omega)]
    have hfrC : ∀ k, fe ≤ k → c3[k]? = a.counts[k]? := by
      intro k hk; rw [hfr3 k (by omega), f2 k (by omega), f1 k (by omega)]
    have b2' : Block c3 fs (fe - fs) := b2.congr fun k h1 h2 => hfr3 k (by omega)
    have tA : Tiled c3 0 u0 := hT0.congr fun k _ h2 => hfrA k h2
    have tB : Tiled c3 u0 (u0 + (fe - fs)) := R4.shift hfrB
    have tE : Tiled c3 (u0 + (fe - fs)) (u0 + n0) := by
      rcases hrest with ⟨_, h1⟩ | ⟨_, h1, h2⟩
      · rw [h1]; exact .nil _
      · apply Tiled.single'
        rwa [show u0 + n0 - (u0 + (fe - fs)) = n0 - (fe - fs) by omega]
    have tM : Tiled c3 (u0 + n0) fs := hmid.congr fun k h1 h2 => hfrM k h1 h2
    have tH : Tiled c3 fs fe := .single' b2'
    have tC : Tiled c3 fe c3.length := by
      rw [l3, l2, l1]; exact R5.congr fun k h1 _ => hfrC k h1
    have tH' := tH.append tC
    have tM' := tM.append tH'
    have tE' := tE.append tM'
    have tB' := tB.append tE'
    have hT : Tiled c3 0 c3.length := tA.append tB'
    have hmidblk : ∀ v m, u0 + n0 ≤ v → v < fs → (Block c3 v m ↔ Block a.counts v m) := by
      intro v m h1 h2
      constructor
      · intro hb
        have := hb.le_of_tiled tH' h2
        exact hb.congr fun k _ _ => (hfrM k (by omega) (by omega)).symm
      · intro hb
        have := hb.le_of_tiled hTfs h2
        exact hb.congr fun k _ _ => hfrM k (by omega) (by omega)
    have hendblk : ∀ v m, fe ≤ v → (Block c3 v m ↔ Block a.counts v m) := by
      intro v m hv
      exact ⟨fun hb => hb.congr fun k _ _ => (hfrC k (by omega)).symm,
        fun hb => hb.congr fun k _ _ => hfrC k (by omega)⟩
    have husblk : ∀ v ∈ us, ∀ m, Block a.counts v m → Block c3 v m := by
      intro v hv m hm
      have h1 := (husoff v hv m hm).1
      rcases husblk0 v hv with h2 | h2
      · exact (hmidblk v m (by omega) h2).mpr hm
      · exact (hendblk v m h2).mpr hm
    have hexmem : ∀ v, v ∈ ex → v = u0 + (fe - fs) ∧ fe - fs < n0 := by
      intro v hv
      rcases hrest with ⟨h1, _⟩ | ⟨h1, h2, _⟩
      · rw [h1] at hv; simp at hv
      · rw [h1] at hv; simp at hv; exact ⟨hv, h2⟩
    have husne : ∀ v ∈ us, u0 + n0 < v := fun v hv => (hmin v hv).2
    refine ⟨fs, fe, u0, ⟨c3, fs :: us ++ ex⟩, ?_, ?_, ?_, ?_, by simp, ?_⟩
    · refine ⟨by omega, R2, R3, R4, ?_, ?_, by simp [Alloc.numIndices, l3, l2, l1], ?_⟩
      · intro i n hi h1 h2
        refine ⟨?_, hi.le_of_tiled R5 h2⟩
        intro hmem
        rw [hu] at hmem
        rcases List.mem_cons.mp hmem with rfl | hmem
        · omega
        · have := husblk0 i hmem; omega
      · intro k h1 h2 h3
        exact ⟨u0, n0, by rw [hu]; simp, hb0, h1, by omega⟩
      · intro j m
        simp only [Live]
        have hmemU : j ∈ fs :: us ++ ex ↔ j = fs ∨ j ∈ us ∨ j ∈ ex := by simp
        rw [hmemU]
        have hmemA : j ∈ a.unused ↔ j = u0 ∨ j ∈ us := by rw [hu]; simp
        rw [hmemA]
        constructor
        · rintro ⟨hb, hnm⟩
          push Not at hnm
          obtain ⟨n1, n2, n3⟩ := hnm
          have hm0 := hb.1
          by_cases c1 : j < u0
          · left
            have := hb.le_of_tiled tB' c1
            exact ⟨⟨hb.congr fun k _ _ => (hfrA k (by omega)).symm, by push Not; exact ⟨by omega, n2⟩⟩,
              by omega⟩
          · by_cases c2' : j < u0 + (fe - fs)
            · right
              have hjm := hb.le_of_tiled tE' c2'
              refine ⟨j - u0 + fs, ⟨hb.shift fun k hk => ?_, ?_⟩, by omega, by omega, by omega⟩
              · have := hfrB (j - u0 + k) (by omega)
                rw [show u0 + (j - u0 + k) = j + k by omega,
                  show fs + (j - u0 + k) = j - u0 + fs + k by omega] at this
                exact this.symm
              · rw [hu]; simp only [List.mem_cons, not_or]
                exact ⟨by omega, fun hm => by have := husblk0 _ hm; omega⟩
            · by_cases c3 : j < u0 + n0
              · exfalso
                rcases hrest with ⟨_, h1⟩ | ⟨h0, h1, h2⟩
                · omega
                · rcases Nat.lt_or_eq_of_le (Nat.le_of_not_lt c2') with h3 | h3
                  · have := h2.disjoint hb h3; omega
                  · exact n3 (by rw [h0, ← h3]; simp)
              · by_cases c4 : j < fs
                · left
                  have := hb.le_of_tiled tH' c4
                  exact ⟨⟨(hmidblk j m (by omega) c4).mp hb, by push Not; exact ⟨by omega, n2⟩⟩,
                    Or.inl this⟩
                · by_cases c5 : j < fe
                  · exfalso
                    have : fs < j := by omega
                    have := b2'.disjoint hb this
                    omega
                  · left
                    exact ⟨⟨(hendblk j m (by omega)).mp hb, by push Not; exact ⟨by omega, n2⟩⟩,
                      Or.inr (by omega)⟩
        · rintro (⟨⟨hb, hnm⟩, hpos⟩ | ⟨i, ⟨hb, hnm⟩, h1, h2, h3⟩)
          · push Not at hnm
            have hm0 := hb.1
            have hex : j ∉ ex := fun hm => by
              have h1 := hexmem j hm
              rcases hoff j m hb hnm.1 with h2 | h2
              · omega
              · omega
            have hnm' : ¬ (j = fs ∨ j ∈ us ∨ j ∈ ex) := by
              push Not; exact ⟨by omega, hnm.2, hex⟩
            refine ⟨?_, hnm'⟩
            rcases hpos with hp | hp
            · rcases hoff j m hb hnm.1 with h1 | h1
              · exact hb.congr fun k _ _ => hfrA k (by omega)
              · exact (hmidblk j m h1 (by omega)).mpr hb
            · exact (hendblk j m hp).mpr hb
          · have hm0 := hb.1
            refine ⟨hb.shift fun k hk => ?_, ?_⟩
            · have := hfrB (j - u0 + k) (by omega)
              rw [show u0 + (j - u0 + k) = j + k by omega,
                show fs + (j - u0 + k) = i + k by omega] at this
              exact this
            · push Not
              refine ⟨by omega, fun hm => ?_, fun hm => ?_⟩
              · have := husne _ hm; omega
              · have := hexmem _ hm; omega
    · refine ⟨hT, ?_, ?_⟩
      · show (fs :: us ++ ex).Nodup
        rw [List.nodup_append]
        refine ⟨List.nodup_cons.mpr ⟨fun hm => ?_, hnd⟩, ?_, ?_⟩
        · have := husblk0 _ hm; omega
        · rcases hrest with ⟨h1, _⟩ | ⟨h1, _⟩ <;> rw [h1] <;> simp
        · rintro x hx y hy rfl
          obtain ⟨h1, h2⟩ := hexmem x hy
          rcases List.mem_cons.mp hx with rfl | hx
          · omega
          · have := husne _ hx; omega
      · intro v hv
        have hv' : v = fs ∨ v ∈ us ∨ v ∈ ex := by simpa using hv
        rcases hv' with rfl | hv | hv
        · exact ⟨_, b2'⟩
        · obtain ⟨m, hm⟩ := h.holes v (by rw [hu]; simp [hv])
          exact ⟨m, husblk v hv m hm⟩
        · rcases hrest with ⟨h1, _⟩ | ⟨h1, h2, h3⟩
          · rw [h1] at hv; simp at hv
          · rw [(hexmem v hv).1]; exact ⟨_, h3⟩
    · show hsum c3 (fs :: us ++ ex) = _
      rw [hu, hsum_cons hb0, hsum_append, hsum_cons b2']
      have h1 : hsum c3 us = hsum a.counts us := hsum_congr fun v hv => by
        obtain ⟨m, hm⟩ := h.holes v (by rw [hu]; simp [hv])
        exact ⟨m, husblk v hv m hm, hm⟩
      have h2 : hsum c3 ex = n0 - (fe - fs) := by
        rcases hrest with ⟨h1, h2⟩ | ⟨h1, h2, h3⟩
        · rw [h1, h2]; simp [hsum]
        · rw [h1, hsum_cons h3]; simp [hsum]
      omega
    · intro v hv
      have hv' : v = fs ∨ v ∈ us ∨ v ∈ ex := by simpa using hv
      rcases hv' with rfl | hv | hv
      · omega
      · exact (hmin v hv).1
      · have := hexmem v hv; omega
    · intro s' hs'
      unfold backfill
      simp only [hu, countFor_block hb0, hlr, hs', e1, e2]
      have := hc3 s'
      rw [if_pos (verify_tiled hT)] at this
      exact this

end Motive.Alloc
