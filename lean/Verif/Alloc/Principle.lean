import Verif.Alloc.Defrag

/-! `Defragment` as seen by an arbitrary client: termination, and preservation of any client relation
that survives merging of holes, one relocation, and the final trim. -/

namespace Motive.Alloc

/-- A client relation `P` that `Defragment` preserves. -/
structure Stable {σ : Type} (cb : Callbacks σ) (P : Alloc → σ → Prop) : Prop where
  merge : ∀ a a' s, Inv a → Inv a' → a'.numIndices = a.numIndices →
    (∀ j m, Live a' j m ↔ Live a j m) → P a s → P a' s
  move : ∀ a s fs fe t a', Inv a → Inv a' → MoveSpec a fs fe t a' → P a s →
    ∃ s', cb.move a fs fe t s = some s' ∧ P a' s'
  trim : ∀ a s n a', Inv a → Inv a' → n ≤ a.numIndices → a'.numIndices = n →
    (∀ j m, Live a' j m ↔ Live a j m) → P a s → ∃ s', cb.setNum n s = some s' ∧ P a' s'

theorem defragLoop_spec {σ : Type} {cb : Callbacks σ} {P : Alloc → σ → Prop} (hP : Stable cb P) :
    ∀ (N : Nat) (a : Alloc) (s : σ), Inv a → P a s → a.unused ≠ [] →
      (∀ u ∈ a.unused, a.numIndices ≤ u + N) →
      ∃ a' s' u n, defragLoop cb a s = some (a', s') ∧ Inv a' ∧ P a' s' ∧
        a'.numIndices = a.numIndices ∧ hsum a'.counts a'.unused = hsum a.counts a.unused ∧
        a'.unused = [u] ∧ Block a'.counts u n ∧ u + n = a'.numIndices := by
  intro N
  induction N with
  | zero =>
    intro a s hinv hp hne hN
    exfalso
    match hu : a.unused with
    | [] => exact hne hu
    | u :: us =>
      obtain ⟨n, hn⟩ := hinv.holes u (by rw [hu]; simp)
      have h1 := hN u (by rw [hu]; simp)
      have := hn.lt_length; have := hn.1
      simp only [Alloc.numIndices] at h1; omega
  | succ N ih =>
    intro a s hinv hp hne hN
    obtain ⟨a1, c1, i1, g1, n1, l1, s1, sub1, min1, ne1⟩ := consolidate_spec hinv
    have hp1 : P a1 s := hP.merge a a1 s hinv i1 n1 l1 hp
    obtain ⟨b, e1, e2⟩ := unusedAtEnd_spec i1
    rw [defragLoop, c1]
    simp only [e1]
    cases b with
    | true =>
      obtain ⟨u, n, h1, h2, h3⟩ := e2.mp rfl
      exact ⟨a1, s, u, n, rfl, i1, hp1, n1, s1, h1, h2, h3⟩
    | false =>
      match hu1 : a1.unused, ne1 hne with
      | [], h => exact absurd rfl h
      | u0 :: us, _ =>
        obtain ⟨fs, fe, t, a2, m1, i2, s2, gt2, ne2, hback⟩ := backfill_spec (cb := cb) (s := s) i1 g1 hu1
          (fun h => by have := e2.mpr h; simp at this)
        obtain ⟨s', hs', hp2⟩ := hP.move a1 s fs fe t a2 i1 i2 m1 hp1
        simp only [hback s' hs']
        have hnum2 : a2.numIndices = a.numIndices := by rw [m1.num, n1]
        obtain ⟨a3, s3, u, n, r1, r2, r3, r4, r5, r6, r7, r8⟩ := ih a2 s' i2 hp2 ne2 (by
          intro v hv
          have h1 := gt2 v hv
          have h2 := hN u0 (sub1 u0 (by rw [hu1]; simp))
          omega)
        exact ⟨a3, s3, u, n, r1, r2, r3, by rw [r4, hnum2], by rw [r5, s2, s1], r6, r7, r8⟩

theorem defragment_spec {σ : Type} {cb : Callbacks σ} {P : Alloc → σ → Prop} (hP : Stable cb P)
    (a : Alloc) (s : σ) (hinv : Inv a) (hp : P a s) :
    ∃ a' s', defragment cb a s = some (a', s') ∧ Inv a' ∧ P a' s' ∧ a'.unused = [] ∧
      a'.numIndices + hsum a.counts a.unused = a.numIndices := by
  match hu : a.unused with
  | [] =>
    refine ⟨a, s, ?_, hinv, hp, hu, by simp [hsum]⟩
    unfold defragment; rw [hu]
  | v :: vs =>
    obtain ⟨a1, s1, u, n, r1, r2, r3, r4, r5, r6, r7, r8⟩ := defragLoop_spec hP a.numIndices a s hinv hp
      (by rw [hu]; simp) (fun w _ => by omega)
    have hlen : a1.numIndices = a1.counts.length := rfl
    have hT := r2.head r7
    have hblk : ∀ j m, j + m ≤ u → (Block (resize a1.counts u) j m ↔ Block a1.counts j m) := by
      intro j m hjm
      constructor
      · intro hb; exact hb.congr fun k _ _ => (resize_get (by omega) (by omega)).symm
      · intro hb; exact hb.congr fun k _ _ => resize_get (by omega) (by omega)
    have hinv' : Inv ⟨resize a1.counts u, []⟩ := by
      refine ⟨?_, by simp, by simp⟩
      show Tiled (resize a1.counts u) 0 (resize a1.counts u).length
      rw [resize_length]
      exact hT.congr fun k _ hk => resize_get hk (by omega)
    have hlive : ∀ j m, Live ⟨resize a1.counts u, []⟩ j m ↔ Live a1 j m := by
      intro j m
      simp only [Live, r6, List.mem_singleton, List.not_mem_nil, not_false_eq_true, and_true]
      constructor
      · intro hb
        have h1 := hb.lt_length
        rw [resize_length] at h1
        exact ⟨(hblk j m h1).mp hb, by have := hb.1; omega⟩
      · rintro ⟨hb, hne⟩
        have h1 := hb.lt_length
        have h0 := hb.1
        rcases Nat.lt_or_gt_of_ne hne with h2 | h2
        · exact (hblk j m (hb.disjoint r7 h2)).mpr hb
        · have := r7.disjoint hb h2; omega
    have hnum' : (⟨resize a1.counts u, []⟩ : Alloc).numIndices = u := by
      simp [Alloc.numIndices, resize_length]
    obtain ⟨s2, hs2, hp2⟩ := hP.trim a1 s1 u ⟨resize a1.counts u, []⟩ r2 hinv' (by omega) hnum' hlive r3
    refine ⟨⟨resize a1.counts u, []⟩, s2, ?_, hinv', hp2, rfl, ?_⟩
    · unfold defragment
      rw [hu]
      simp only [r1, r6, setNumIndices, hs2]
    · rw [hnum', ← hu, ← r5, r6, hsum_cons r7]
      simp only [hsum, List.map_nil, List.sum_nil]
      omega

end Motive.Alloc
