import Verif.Alloc.Spec
import Verif.Alloc.Principle
import Mathlib.Data.List.Perm.Basic

/-! Proof of the client invariant for the allocator. -/

namespace Motive.Alloc

variable {α : Type}

/-- The client's book-keeping agrees with the allocator. -/
structure CI (a : Alloc) (s : Client α) : Prop where
  inv : Inv a
  len : s.data.length = a.numIndices
  nodup : s.blocks.Nodup
  live : ∀ i n, (i, n) ∈ s.blocks ↔ Live a i n

theorem Live.apart {a : Alloc} {i n j m : Nat} (h : Live a i n) (h' : Live a j m)
    (hne : (i, n) ≠ (j, m)) : Apart (i, n) (j, m) := by
  have hij : i ≠ j := by
    rintro rfl; exact hne (by rw [h.1.unique h'.1])
  rcases Nat.lt_or_gt_of_ne hij with h1 | h1
  · left; exact h.1.disjoint h'.1 h1
  · right; exact h'.1.disjoint h.1 h1

theorem copyRange_length {fs fe t : Nat} {d : List α} (h1 : t ≤ fs) (h2 : fs ≤ fe)
    (h3 : fe ≤ d.length) : (copyRange fs fe t d).length = d.length := by
  simp [copyRange]; omega

theorem copyRange_in {fs fe t : Nat} {d : List α} (h1 : t ≤ fs) (h2 : fs ≤ fe)
    (h3 : fe ≤ d.length) {k : Nat} (hk : k < fe - fs) :
    (copyRange fs fe t d)[t + k]? = d[fs + k]? := by
  unfold copyRange
  rw [List.append_assoc, List.getElem?_append_right (by simp),
    List.getElem?_append_left (by simp; omega)]
  simp [List.getElem?_take, List.getElem?_drop]
  rw [if_pos (by omega)]; congr 1; omega

theorem copyRange_out {fs fe t : Nat} {d : List α} (h1 : t ≤ fs) (h2 : fs ≤ fe)
    (h3 : fe ≤ d.length) {k : Nat} (hk : k < t ∨ t + (fe - fs) ≤ k) :
    (copyRange fs fe t d)[k]? = d[k]? := by
  unfold copyRange
  rcases hk with hk | hk
  · rw [List.append_assoc, List.getElem?_append_left (by simp; omega)]
    simp [hk]
  · rw [List.getElem?_append_right (by simp; omega)]
    simp [List.getElem?_drop]
    congr 1; omega

theorem slice_ext {d d' : List α} {i i' n : Nat} (h : ∀ k, k < n → d'[i' + k]? = d[i + k]?) :
    (d'.drop i').take n = (d.drop i).take n := by
  apply List.ext_getElem?
  intro k
  by_cases hk : k < n
  · simp [List.getElem?_drop, hk, h k hk]
  · simp [hk]

/-- In any `Live`-exact block list every allocator cell is in a client block or in a hole. -/
theorem Tiled.cover {c : List Int} {a b : Nat} (h : Tiled c a b) {k : Nat} (h1 : a ≤ k) (h2 : k < b) :
    ∃ i n, Block c i n ∧ a ≤ i ∧ i + n ≤ b ∧ i ≤ k ∧ k < i + n := by
  induction h with
  | nil => omega
  | @cons a n b hb ht ih =>
    have := ht.le
    by_cases hk : k < a + n
    · exact ⟨a, n, hb, Nat.le_refl _, by omega, h1, hk⟩
    · obtain ⟨i, m, r1, r2, r3, r4⟩ := ih (by omega) h2
      exact ⟨i, m, r1, by omega, r3, r4⟩

/-- The invariant that is carried through `Defragment`: contents are `K`, positions only go down. -/
structure DI (s0 : Client α) (a : Alloc) (s : Client α) : Prop where
  ci : CI a s
  contents : s.contents = s0.contents
  pos : List.Forall₂ (fun (b' b : Nat × Nat) => b'.1 ≤ b.1 ∧ b'.2 = b.2) s.blocks s0.blocks

theorem forall₂_map_left {β γ : Type} {R : γ → β → Prop} {f : γ → γ} :
    ∀ {l : List γ} {m : List β}, List.Forall₂ R l m → (∀ x ∈ l, ∀ y, R x y → R (f x) y) →
      List.Forall₂ R (l.map f) m := by
  intro l m h
  induction h with
  | nil => intro _; exact .nil
  | cons h1 _ ih =>
    intro hf
    exact .cons (hf _ (by simp) _ h1) (ih fun x hx y => hf x (by simp [hx]) y)

theorem stable_client (fill : α) (s0 : Client α) : Stable (Client.callbacks fill) (DI s0) := by
  constructor
  · intro a a' s _ hinv' hnum hlive h
    exact ⟨⟨hinv', by rw [h.ci.len, hnum], h.ci.nodup, fun i n => by rw [h.ci.live, hlive]⟩,
      h.contents, h.pos⟩
  · intro a s fs fe t a' hinv hinv' hm h
    have hN : a.numIndices = a.counts.length := rfl
    have hle : fe ≤ s.data.length := by rw [h.ci.len]; exact hm.le
    have hlt := hm.lt
    have hdn := hm.down
    -- every held block is inside the source or clear of source and target
    have hcase : ∀ i n, Live a i n → Within fs fe (i, n) ∨
        (Apart (i, n) (fs, fe - fs) ∧ Apart (i, n) (t, fe - fs)) := by
      intro i n hl
      have h0 := hl.1.1
      by_cases h1 : fs ≤ i ∧ i < fe
      · left; exact ⟨h1.1, (hm.src i n hl.1 h1.1 h1.2).2⟩
      · right
        have hs : i + n ≤ fs ∨ fe ≤ i := by
          by_cases h2 : i < fs
          · left
            obtain ⟨m, hb, _⟩ := hm.tiled.first hlt
            exact hl.1.disjoint hb h2
          · right; omega
        constructor
        · unfold Apart; simp only; omega
        · rcases hs with hs | hs
          · -- below the source: no cell may be in the target
            by_cases h3 : i + n ≤ t
            · left; exact h3
            · by_cases h4 : t + (fe - fs) ≤ i
              · right; exact h4
              · exfalso
                -- a common cell is both live and a hole cell
                have hcell : ∃ k, i ≤ k ∧ k < i + n ∧ t ≤ k ∧ k < t + (fe - fs) :=
                  ⟨max i t, by omega, by omega, by omega, by omega⟩
                obtain ⟨k, k1, k2, k3, k4⟩ := hcell
                obtain ⟨u, m, hu, hb, q1, q2⟩ := hm.dst k k3 k4 (by omega)
                have hne : u ≠ i := fun he => hl.2 (he ▸ hu)
                rcases Nat.lt_or_gt_of_ne hne with h5 | h5
                · have := hb.disjoint hl.1 h5; omega
                · have := hl.1.disjoint hb h5; omega
          · right; simp only; omega
    have hcover : ∀ k ∈ List.range' fs (fe - fs), ∃ b ∈ s.blocks, Covers b k := by
      intro k hk
      rw [List.mem_range'_1] at hk
      obtain ⟨i, n, hb, r1, r2, r3, r4⟩ := hm.tiled.cover hk.1 (by omega)
      have h0 := hb.1
      exact ⟨(i, n), (h.ci.live i n).mpr ⟨hb, (hm.src i n hb r1 (by omega)).1⟩, r3, r4⟩
    have hcond : t < fs ∧ fs < fe ∧ fe ≤ s.data.length ∧
        (∀ b ∈ s.blocks, Within fs fe b ∨ (Apart b (fs, fe - fs) ∧ Apart b (t, fe - fs))) ∧
        (∀ k ∈ List.range' fs (fe - fs), ∃ b ∈ s.blocks, Covers b k) :=
      ⟨hdn, hlt, hle, fun b hb => hcase b.1 b.2 ((h.ci.live b.1 b.2).mp hb), hcover⟩
    refine ⟨⟨s.blocks.map (relocate fs fe t), copyRange fs fe t s.data⟩, ?_, ⟨hinv', ?_, ?_, ?_⟩, ?_, ?_⟩
    · show Client.move a fs fe t s = _
      unfold Client.move; rw [if_pos hcond]
    · rw [copyRange_length (by omega) (by omega) hle, hm.num, h.ci.len]
    · -- nodup
      refine List.Nodup.map_on ?_ h.ci.nodup
      intro b hb c hc hbc
      have hlb := (h.ci.live b.1 b.2).mp hb
      have hlc := (h.ci.live c.1 c.2).mp hc
      have h0b := hlb.1.1
      have h0c := hlc.1.1
      have cb := hcase _ _ hlb
      have cc := hcase _ _ hlc
      unfold relocate at hbc
      simp only [Within, Apart] at cb cc hbc
      by_cases hwb : fs ≤ b.1 ∧ b.1 + b.2 ≤ fe <;> by_cases hwc : fs ≤ c.1 ∧ c.1 + c.2 ≤ fe <;>
        simp only [hwb, hwc, and_self, if_true, if_false] at hbc
      · have h1 := congrArg Prod.fst hbc
        have h2 := congrArg Prod.snd hbc
        simp only at h1 h2
        exact Prod.ext (by omega) h2
      · have h1 := congrArg Prod.fst hbc
        have h2 := congrArg Prod.snd hbc
        simp only at h1 h2
        omega
      · have h1 := congrArg Prod.fst hbc
        have h2 := congrArg Prod.snd hbc
        simp only at h1 h2
        omega
      · exact hbc
    · intro j m
      rw [hm.live, List.mem_map]
      constructor
      · rintro ⟨b, hb, hrel⟩
        have hl := (h.ci.live b.1 b.2).mp hb
        have h0 := hl.1.1
        unfold relocate at hrel
        split at hrel
        · rename_i hw
          right
          have h1 := congrArg Prod.fst hrel
          have h2 := congrArg Prod.snd hrel
          simp only at h1 h2
          subst h2
          exact ⟨b.1, hl, hw.1, hw.2, by have := hw.1; omega⟩
        · rename_i hw
          left
          subst hrel
          refine ⟨hl, ?_⟩
          rcases hcase _ _ hl with h1 | h1
          · exact absurd h1 hw
          · have := h1.1; simp only [Apart] at this; omega
      · rintro (⟨hl, hp⟩ | ⟨i, hl, h1, h2, h3⟩)
        · have h0 := hl.1.1
          refine ⟨(j, m), (h.ci.live j m).mpr hl, ?_⟩
          unfold relocate
          rw [if_neg]
          rintro ⟨g1, g2⟩; simp only at g1 g2; omega
        · refine ⟨(i, m), (h.ci.live i m).mpr hl, ?_⟩
          unfold relocate
          rw [if_pos ⟨h1, h2⟩]
          simp only [Prod.mk.injEq, and_true]; omega
    · rw [← h.contents]
      unfold Client.contents
      rw [List.map_map]
      apply List.map_congr_left
      intro b hb
      have hl := (h.ci.live b.1 b.2).mp hb
      have cb := hcase _ _ hl
      simp only [Function.comp]
      unfold relocate
      split
      · rename_i hw
        simp only
        apply slice_ext
        intro k hk
        have hw1 := hw.1
        have hw2 := hw.2
        have := copyRange_in (d := s.data) (Nat.le_of_lt hdn) (Nat.le_of_lt hlt) hle
          (k := b.1 - fs + k) (by omega)
        rw [show t + (b.1 - fs + k) = b.1 - fs + t + k by omega,
          show fs + (b.1 - fs + k) = b.1 + k by omega] at this
        exact this
      · rename_i hw
        apply slice_ext
        intro k hk
        rcases cb with h1 | h1
        · exact absurd h1 hw
        · have := h1.2
          simp only [Apart] at this
          exact copyRange_out (Nat.le_of_lt hdn) (Nat.le_of_lt hlt) hle (by omega)
    · apply forall₂_map_left h.pos
      intro b hb c hc
      unfold relocate
      split
      · rename_i hw
        have := hw.1
        refine ⟨?_, hc.2⟩
        simp only
        have := hc.1
        omega
      · exact hc
  · intro a s n a' hinv hinv' hn hnum hlive h
    have hfit : ∀ b ∈ s.blocks, Within 0 n b := by
      intro b hb
      have := (hlive b.1 b.2).mpr ((h.ci.live b.1 b.2).mp hb)
      have := this.1.lt_length
      refine ⟨Nat.zero_le _, ?_⟩
      rw [← hnum]; exact this
    refine ⟨{ s with data := s.data.take n ++ List.replicate (n - s.data.length) fill }, ?_,
      ⟨hinv', ?_, h.ci.nodup, fun i m => by rw [h.ci.live, hlive]⟩, ?_, h.pos⟩
    · show Client.setNum fill n s = _
      unfold Client.setNum; rw [if_pos hfit]
    · have := h.ci.len; simp; omega
    · rw [← h.contents]
      unfold Client.contents
      apply List.map_congr_left
      intro b hb
      have hw := hfit b hb
      apply slice_ext
      intro k hk
      have := hw.2
      have hl := h.ci.len
      simp only
      rw [List.getElem?_append_left (by simp; omega), List.getElem?_take, if_pos (by omega)]

theorem defragment_client (fill : α) {a : Alloc} {s : Client α} (h : CI a s) :
    ∃ a' s', defragment (Client.callbacks fill) a s = some (a', s') ∧ CI a' s' ∧
      s'.contents = s.contents ∧
      List.Forall₂ (fun (b' b : Nat × Nat) => b'.1 ≤ b.1 ∧ b'.2 = b.2) s'.blocks s.blocks ∧
      a'.unused = [] ∧ a'.numIndices + hsum a.counts a.unused = a.numIndices := by
  obtain ⟨a', s', e1, _, e3, e4, e5⟩ := defragment_spec (stable_client fill s) a s h.inv
    ⟨h, rfl, List.forall₂_same.mpr fun _ _ => ⟨Nat.le_refl _, rfl⟩⟩
  exact ⟨a', s', e1, e3.ci, e3.contents, e3.pos, e4, e5⟩

theorem fill_spec (fill : α) : ∀ (n i : Nat) (d : List α), i + n ≤ d.length →
    ((List.range' i n).foldl (fun d k => d.set k fill) d).length = d.length ∧
    (∀ k, i ≤ k → k < i + n →
      ((List.range' i n).foldl (fun d k => d.set k fill) d)[k]? = some fill) ∧
    (∀ k, (k < i ∨ i + n ≤ k) →
      ((List.range' i n).foldl (fun d k => d.set k fill) d)[k]? = d[k]?) := by
  intro n
  induction n with
  | zero => intro i d _; refine ⟨by simp, fun k h1 h2 => by omega, fun k _ => by simp⟩
  | succ n ih =>
    intro i d h
    rw [List.range'_succ, List.foldl_cons]
    obtain ⟨h1, h2, h3⟩ := ih (i + 1) (d.set i fill) (by simp; omega)
    refine ⟨by rw [h1]; simp, ?_, ?_⟩
    · intro k hk hk'
      by_cases hki : k = i
      · subst hki
        rw [h3 k (by omega), List.getElem?_set_self (by omega)]
      · exact h2 k (by omega) (by omega)
    · intro k hk
      rw [h3 k (by omega), List.getElem?_set_ne (by omega)]

theorem alloc_client (fill : α) {a : Alloc} {s : Client α} (h : CI a s) {n : Nat} (hn : 0 < n) :
    ∃ a' s' i, alloc (Client.callbacks fill) n a s = some ((a', s'), i) ∧ AllocSpec a n a' i ∧
      s'.blocks = s.blocks ∧ s'.contents = s.contents ∧ s'.data.length = a'.numIndices ∧
      ((∃ m, Hole a i m ∧ n ≤ m ∧ (∀ u m', Hole a u m' → n ≤ m' → m ≤ m') ∧
          a'.numIndices = a.numIndices) ∨
       ((∀ u m, Hole a u m → m < n) ∧ i = a.numIndices ∧ a'.numIndices = a.numIndices + n)) := by
  have hfit : ∀ b ∈ s.blocks, Within 0 (a.numIndices + n) b := by
    intro b hb
    have := ((h.live b.1 b.2).mp hb).1.lt_length
    refine ⟨Nat.zero_le _, ?_⟩
    simp only [Alloc.numIndices]; omega
  have hset : (Client.callbacks fill).setNum (a.numIndices + n) s =
      some { s with data := s.data.take (a.numIndices + n) ++
        List.replicate (a.numIndices + n - s.data.length) fill } := by
    show Client.setNum fill _ s = _
    unfold Client.setNum; rw [if_pos hfit]
  obtain ⟨a', s', i, e1, e2, e3⟩ := alloc_spec (cb := Client.callbacks fill) h.inv hn s
    (Or.inr ⟨_, hset⟩)
  refine ⟨a', s', i, e1, e2, ?_⟩
  rcases e3 with ⟨m, h1, h2, h3, h4, rfl⟩ | ⟨h1, h2, h3, h4⟩
  · exact ⟨rfl, rfl, by rw [h.len, h4], Or.inl ⟨m, h1, h2, h3, h4⟩⟩
  · rw [hset] at h4
    simp only [Option.some.injEq] at h4
    subst h4
    refine ⟨rfl, ?_, ?_, Or.inr ⟨h1, h2, h3⟩⟩
    · unfold Client.contents
      apply List.map_congr_left
      intro b hb
      have := ((h.live b.1 b.2).mp hb).1.lt_length
      have hl := h.len
      have hN : a.numIndices = a.counts.length := rfl
      apply slice_ext
      intro k hk
      simp only
      rw [List.getElem?_append_left (by simp; omega), List.getElem?_take, if_pos (by omega)]
    · have := h.len; simp; omega

theorem step_client (fill : α) {a : Alloc} {s : Client α} (h : CI a s) (op : Op α) :
    ∃ a' s', step fill op (a, s) = some (a', s') ∧ CI a' s' ∧
      s'.contents = absStep fill op s.contents := by
  cases op with
  | alloc n =>
    by_cases hn : n = 0
    · exact ⟨a, s, by simp [step, hn], h, by simp [absStep, hn]⟩
    · obtain ⟨a', s', i, e1, e2, e3, e4, e5, _⟩ := alloc_client fill h (Nat.pos_of_ne_zero hn)
      have hli : Live a' i n := (e2.live i n).mpr (Or.inr ⟨rfl, rfl⟩)
      have hfit : i + n ≤ s'.data.length := by
        rw [e5]; exact hli.1.lt_length
      obtain ⟨f1, f2, f3⟩ := fill_spec fill n i s'.data hfit
      refine ⟨a', _, by simp only [step, hn, if_false, e1]; rfl, ⟨e2.inv, by rw [f1, e5], ?_, ?_⟩, ?_⟩
      · rw [List.nodup_append]
        refine ⟨by rw [e3]; exact h.nodup, by simp, ?_⟩
        intro x hx y hy
        simp at hy; subst hy
        rw [e3] at hx
        rintro rfl
        have hl := (h.live i n).mp hx
        have := e2.fresh i n hl
        have := hl.1.1; omega
      · intro j m
        rw [List.mem_append, e3, h.live, e2.live]
        simp [Prod.ext_iff]
      · simp only [absStep, hn, if_false]
        rw [← e4]
        unfold Client.contents
        rw [List.map_append]
        congr 1
        · apply List.map_congr_left
          intro b hb
          rw [e3] at hb
          have hl := (h.live b.1 b.2).mp hb
          have := e2.fresh _ _ hl
          apply slice_ext
          intro k hk
          exact f3 _ (by omega)
        · simp only [List.map_cons, List.map_nil, List.cons.injEq, and_true]
          apply List.ext_getElem?
          intro k
          by_cases hk : k < n
          · rw [List.getElem?_take, if_pos hk, List.getElem?_drop, f2 _ (by omega) (by omega)]
            simp [hk]
          · rw [List.getElem?_take, if_neg hk]; simp [hk]
  | free k =>
    simp only [step, absStep]
    match hb : s.blocks[k]? with
    | none =>
      refine ⟨a, s, rfl, h, ?_⟩
      rw [List.eraseIdx_of_length_le]
      simp [Client.contents]
      exact List.getElem?_eq_none_iff.mp hb
    | some b =>
      have hmem : b ∈ s.blocks := List.mem_of_getElem? hb
      have hl := (h.live b.1 b.2).mp hmem
      obtain ⟨a', e1, e2, e3, e4, e5⟩ := free_spec h.inv hl
      simp only [e1]
      refine ⟨_, _, rfl, ⟨e2, ?_, ?_, ?_⟩, ?_⟩
      · simp only [Alloc.numIndices, e3]; exact h.len
      · exact List.Nodup.sublist (List.eraseIdx_sublist ..) h.nodup
      · intro i n
        obtain ⟨hk, hbk⟩ := List.getElem?_eq_some_iff.mp hb
        have h1 : s.blocks.eraseIdx k = s.blocks.erase b := by
          rw [← hbk, List.Nodup.erase_getElem h.nodup]
        rw [h1, h.nodup.mem_erase_iff, h.live, e5]
        constructor
        · rintro ⟨g1, g2⟩
          refine ⟨g2, ?_⟩
          rintro rfl
          exact g1 (Prod.ext rfl (g2.1.unique hl.1))
        · rintro ⟨g1, g2⟩
          exact ⟨fun he => g2 (congrArg Prod.fst he), g1⟩
      · unfold Client.contents
        simp only
        rw [List.eraseIdx_map]
  | write k off v =>
    simp only [step, absStep]
    match hb : s.blocks[k]? with
    | none =>
      refine ⟨a, s, rfl, h, ?_⟩
      rw [List.modify_eq_self]
      simp [Client.contents]
      exact List.getElem?_eq_none_iff.mp hb
    | some b =>
      obtain ⟨hk, hbk⟩ := List.getElem?_eq_some_iff.mp hb
      have hmem : b ∈ s.blocks := List.mem_of_getElem? hb
      have hl := (h.live b.1 b.2).mp hmem
      have hbl := hl.1.lt_length
      have hlen := h.len
      have hN : a.numIndices = a.counts.length := rfl
      simp only
      split
      · rename_i hoff
        refine ⟨_, _, rfl, ⟨h.inv, by simpa using h.len, h.nodup, h.live⟩, ?_⟩
        apply List.ext_getElem?
        intro q
        unfold Client.contents
        simp only [List.getElem?_map, List.getElem?_modify]
        match hq : s.blocks[q]? with
        | none => simp
        | some c =>
          simp only [Option.map_some, Option.map_eq_map]
          by_cases hkq : k = q
          · subst hkq
            rw [hb] at hq; simp at hq; subst hq
            simp only [if_true, Option.some.injEq]
            apply List.ext_getElem?
            intro x
            by_cases hx : x < b.2
            · rw [List.getElem?_take, if_pos hx, List.getElem?_drop]
              by_cases hxo : x = off
              · subst hxo
                rw [List.getElem?_set_self (by omega), List.getElem?_set_self (by simp; omega)]
              · rw [List.getElem?_set_ne (by omega), List.getElem?_set_ne (by omega),
                  List.getElem?_take, if_pos hx, List.getElem?_drop]
            · rw [List.getElem?_take, if_neg hx]
              symm; apply List.getElem?_eq_none; simp; omega
          · simp only [hkq, if_false, Option.some.injEq]
            have hcm : c ∈ s.blocks := List.mem_of_getElem? hq
            have hlc := (h.live c.1 c.2).mp hcm
            have hne : b ≠ c := by
              rintro rfl
              have := (List.getElem?_inj hk h.nodup).mp (hb.trans hq.symm)
              exact hkq this
            have hap := hl.apart hlc (by simpa using hne)
            simp only [Apart] at hap
            apply slice_ext
            intro x hx
            rw [List.getElem?_set_ne (by omega)]
      · rename_i hoff
        refine ⟨a, s, rfl, h, ?_⟩
        apply List.ext_getElem?
        intro q
        unfold Client.contents
        simp only [List.getElem?_map, List.getElem?_modify]
        match hq : s.blocks[q]? with
        | none => simp
        | some c =>
          by_cases hkq : k = q
          · subst hkq
            rw [hb] at hq; simp at hq; subst hq
            simp only [Option.map_some, if_true, Option.map_eq_map, Option.some.injEq]
            rw [List.set_eq_of_length_le]
            simp; omega
          · simp [hkq]
  | defragment =>
    obtain ⟨a', s', e1, e2, e3, _⟩ := defragment_client fill h
    exact ⟨a', s', e1, e2, e3⟩

theorem ci_init : CI Alloc.init (⟨[], []⟩ : Client α) :=
  ⟨inv_init, rfl, by simp, fun i n => by
    simp only [List.not_mem_nil, false_iff]
    rintro ⟨h, _⟩
    have := h.lt_length; have := h.1
    simp [Alloc.init] at *; omega⟩

theorem run_from (fill : α) : ∀ (ops : List (Op α)) (a : Alloc) (s : Client α), CI a s →
    ∃ a' s', ops.foldlM (fun st op => step fill op st) (a, s) = some (a', s') ∧ CI a' s' ∧
      s'.contents = ops.foldl (fun l op => absStep fill op l) s.contents := by
  intro ops
  induction ops with
  | nil => intro a s h; exact ⟨a, s, rfl, h, rfl⟩
  | cons op ops ih =>
    intro a s h
    obtain ⟨a1, s1, e1, e2, e3⟩ := step_client fill h op
    obtain ⟨a2, s2, f1, f2, f3⟩ := ih a1 s1 e2
    refine ⟨a2, s2, ?_, f2, by rw [f3, e3]; rfl⟩
    rw [List.foldlM_cons]
    simp only [e1, Option.bind_eq_bind, Option.bind_some, f1]

theorem run_client (fill : α) (ops : List (Op α)) :
    ∃ a s, run fill ops = some (a, s) ∧ CI a s ∧ s.contents = absRun fill ops :=
  run_from fill ops _ _ ci_init

theorem run_ci {fill : α} {ops : List (Op α)} {a : Alloc} {s : Client α}
    (h : run fill ops = some (a, s)) : CI a s := by
  obtain ⟨a', s', e1, e2, _⟩ := run_client fill ops
  rw [h] at e1; simp at e1
  obtain ⟨rfl, rfl⟩ := e1
  exact e2

theorem mem_recycled {a : Alloc} (h : Inv a) {u n : Nat} : (u, n) ∈ recycled a ↔ Hole a u n := by
  unfold recycled
  rw [List.mem_filterMap]
  constructor
  · rintro ⟨v, hv, he⟩
    obtain ⟨m, hm⟩ := h.holes v hv
    rw [countFor_block hm] at he
    simp at he
    obtain ⟨rfl, rfl⟩ := he
    exact ⟨hm, hv⟩
  · rintro ⟨hb, hu⟩
    exact ⟨u, hu, by simp [countFor_block hb]⟩

theorem Hole.apart {a : Alloc} {i n j m : Nat} (h : Block a.counts i n) (h' : Block a.counts j m)
    (hij : i ≠ j) : Apart (i, n) (j, m) := by
  rcases Nat.lt_or_gt_of_ne hij with h1 | h1
  · left; exact h.disjoint h' h1
  · right; exact h'.disjoint h h1

theorem recycled_pairwise {a : Alloc} (h : Inv a) : (recycled a).Pairwise Apart := by
  unfold recycled
  rw [List.pairwise_filterMap]
  refine List.Pairwise.imp_of_mem ?_ h.nodup
  intro u v hu hv hne b hb c hc
  obtain ⟨n, hn⟩ := h.holes u hu
  obtain ⟨m, hm⟩ := h.holes v hv
  rw [countFor_block hn] at hb
  rw [countFor_block hm] at hc
  simp at hb hc
  subst hb hc
  exact Hole.apart (a := a) hn hm hne

/-- An explicit list of the blocks of a tiling. -/
theorem Tiled.list {c : List Int} {a b : Nat} (h : Tiled c a b) :
    ∃ L : List (Nat × Nat), L.Nodup ∧ (∀ x ∈ L, a ≤ x.1) ∧
      (∀ i n, (i, n) ∈ L ↔ Block c i n ∧ a ≤ i ∧ i < b) ∧ (L.map Prod.snd).sum = b - a := by
  induction h with
  | nil a => exact ⟨[], by simp, by simp, fun i n => by simp, by simp⟩
  | @cons a n b hb ht ih =>
    obtain ⟨L, h1, h2, h3, h4⟩ := ih
    have hle := ht.le
    have h0 := hb.1
    refine ⟨(a, n) :: L, List.nodup_cons.mpr ⟨fun hm => ?_, h1⟩, ?_, ?_, ?_⟩
    · have := h2 _ hm; simp only at this; omega
    · intro x hx
      rcases List.mem_cons.mp hx with rfl | hx
      · exact Nat.le_refl _
      · have := h2 x hx; omega
    · intro i m
      rw [List.mem_cons, h3]
      constructor
      · rintro (he | ⟨g1, g2, g3⟩)
        · simp at he; obtain ⟨rfl, rfl⟩ := he; exact ⟨hb, Nat.le_refl _, by omega⟩
        · exact ⟨g1, by omega, g3⟩
      · rintro ⟨g1, g2, g3⟩
        by_cases hia : i = a
        · subst hia; left; rw [hb.unique g1]
        · right; exact ⟨g1, hb.disjoint g1 (by omega), g3⟩
    · simp [h4]; omega

theorem live_sum {a : Alloc} {s : Client α} (h : CI a s) (hu : a.unused = []) :
    (s.blocks.map Prod.snd).sum = a.numIndices := by
  obtain ⟨L, h1, _, h3, h4⟩ := h.inv.tiled.list
  have hperm : s.blocks.Perm L := by
    rw [List.perm_ext_iff_of_nodup h.nodup h1]
    rintro ⟨i, n⟩
    rw [h.live, h3]
    simp only [Live, hu, List.not_mem_nil, not_false_eq_true, and_true, Nat.zero_le, true_and]
    constructor
    · intro hb; exact ⟨hb, by have := hb.lt_length; have := hb.1; omega⟩
    · exact fun hb => hb.1
  rw [(hperm.map Prod.snd).sum_nat, h4]
  rfl

end Motive.Alloc
