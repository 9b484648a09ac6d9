import Verif.Alloc.ClientLemmas

/-!
# Allocator properties C01-C05

The client, the histories and the abstract machine are defined in `Verif/Alloc/Spec.lean`.
-/

namespace Motive.Alloc

variable {α : Type}

/-- **C01.** Every history of `Alloc`/`Free`/writes/`Defragment` runs without undefined behaviour or
failed assertion; afterwards the blocks the client holds and the recycled blocks are pairwise
disjoint, non-empty, lie inside `[0, num_indices())`, and together cover every index. -/
theorem C01_blocks_tile (fill : α) (ops : List (Op α)) :
    ∃ a s, run fill ops = some (a, s) ∧
      (s.blocks ++ recycled a).Pairwise Apart ∧
      (∀ b ∈ s.blocks ++ recycled a, 0 < b.2 ∧ Within 0 a.numIndices b) ∧
      (∀ k, k < a.numIndices → ∃ b ∈ s.blocks ++ recycled a, Covers b k) := by
  obtain ⟨a, s, e1, e2, _⟩ := run_client fill ops
  refine ⟨a, s, e1, ?_, ?_, ?_⟩
  · rw [List.pairwise_append]
    refine ⟨?_, recycled_pairwise e2.inv, ?_⟩
    · refine List.Pairwise.imp_of_mem ?_ e2.nodup
      intro b c hb hc hne
      exact ((e2.live b.1 b.2).mp hb).apart ((e2.live c.1 c.2).mp hc) hne
    · intro b hb c hc
      have h1 := (e2.live b.1 b.2).mp hb
      have h2 := (mem_recycled e2.inv).mp hc
      exact Hole.apart h1.1 h2.1 (fun he => h1.2 (he ▸ h2.2))
  · intro b hb
    have hblk : Block a.counts b.1 b.2 := by
      rcases List.mem_append.mp hb with h | h
      · exact ((e2.live b.1 b.2).mp h).1
      · exact ((mem_recycled e2.inv).mp h).1
    exact ⟨hblk.1, Nat.zero_le _, hblk.lt_length⟩
  · intro k hk
    obtain ⟨i, n, hb, _, _, h1, h2⟩ := e2.inv.tiled.cover (Nat.zero_le k) hk
    refine ⟨(i, n), ?_, h1, h2⟩
    rw [List.mem_append]
    by_cases hu : i ∈ a.unused
    · right; exact (mem_recycled e2.inv).mpr ⟨hb, hu⟩
    · left; exact (e2.live i n).mpr ⟨hb, hu⟩

/-- A concrete history with live blocks and a recycled one. -/
example : run 0 [.alloc 3, .alloc 2, .alloc 1, .write 1 1 7, .free 0, .alloc 2] =
    some (⟨[2, -1, 1, 2, -1, 1], [2]⟩, ⟨[(3, 2), (5, 1), (0, 2)], [0, 0, 0, 0, 7, 0]⟩) := by decide

/-- **C02.** From every reachable state, `Alloc(n)`, `n > 0`, returns the start `i` of a block of
exactly `n` indices that is apart from every block in use; blocks in use keep their start, size and
contents; and the block is taken from a smallest sufficient recycled block (in particular an exact
one, if there is one) with `num_indices()` unchanged, or, exactly when no recycled block is large
enough, `num_indices()` grows by `n`. -/
theorem C02_alloc_best_fit {fill : α} {ops : List (Op α)} {a : Alloc} {s : Client α}
    (h : run fill ops = some (a, s)) (n : Nat) (hn : 0 < n) :
    ∃ a' s' i, alloc (Client.callbacks fill) n a s = some ((a', s'), i) ∧
      countFor a'.counts i = some n ∧ i ∉ a'.unused ∧ i + n ≤ a'.numIndices ∧
      s'.blocks = s.blocks ∧ s'.contents = s.contents ∧
      (∀ b ∈ s.blocks, Apart b (i, n) ∧ countFor a'.counts b.1 = some b.2 ∧ b.1 ∉ a'.unused) ∧
      ((a'.numIndices = a.numIndices ∧
          ∃ m, (i, m) ∈ recycled a ∧ n ≤ m ∧ ∀ b ∈ recycled a, n ≤ b.2 → m ≤ b.2) ∨
        (a'.numIndices = a.numIndices + n ∧ i = a.numIndices ∧ ∀ b ∈ recycled a, b.2 < n)) := by
  have hci := run_ci h
  obtain ⟨a', s', i, e1, e2, e3, e4, e5, e6⟩ := alloc_client fill hci hn
  have hl : Live a' i n := (e2.live i n).mpr (Or.inr ⟨rfl, rfl⟩)
  refine ⟨a', s', i, e1, countFor_block hl.1, hl.2, hl.1.lt_length, e3, e4, ?_, ?_⟩
  · intro b hb
    have hlb := (hci.live b.1 b.2).mp hb
    have hlb' := (e2.live b.1 b.2).mpr (Or.inl hlb)
    exact ⟨e2.fresh _ _ hlb, countFor_block hlb'.1, hlb'.2⟩
  · rcases e6 with ⟨m, h1, h2, h3, h4⟩ | ⟨h1, h2, h3⟩
    · left
      exact ⟨h4, m, (mem_recycled hci.inv).mpr h1, h2,
        fun b hb => h3 b.1 b.2 ((mem_recycled hci.inv).mp hb)⟩
    · right
      exact ⟨h3, h2, fun b hb => h1 b.1 b.2 ((mem_recycled hci.inv).mp hb)⟩

example : ∃ (a : Alloc) (s : Client Nat), run 0 [.alloc 3, .alloc 2, .alloc 5, .alloc 1, .free 2, .free 0] = some (a, s) ∧
    recycled a = [(5, 5), (0, 3)] :=
  ⟨_, _, rfl, by decide⟩

/-- **C03.** From every reachable state `Defragment()` terminates normally: for the checking client
above, and for every other client whose callbacks return. -/
theorem C03_defragment_terminates {fill : α} {ops : List (Op α)} {a : Alloc} {s : Client α}
    (h : run fill ops = some (a, s)) :
    (defragment (Client.callbacks fill) a s).isSome ∧
    ∀ (σ : Type) (cb : Callbacks σ), (∀ n t, (cb.setNum n t).isSome) →
      (∀ b fs fe tg t, (cb.move b fs fe tg t).isSome) → ∀ t, (defragment cb a t).isSome := by
  have hci := run_ci h
  constructor
  · obtain ⟨a', s', e1, _⟩ := defragment_client fill hci
    rw [e1]; rfl
  · intro σ cb h1 h2 t
    obtain ⟨a', s', e1, _⟩ := defragment_spec (cb := cb) (P := fun _ _ => True)
      ⟨fun _ _ _ _ _ _ _ _ => trivial,
       fun b t fs fe tg _ _ _ _ _ => ⟨_, (Option.some_get (h2 b fs fe tg t)).symm, trivial⟩,
       fun _ t n _ _ _ _ _ _ _ => ⟨_, (Option.some_get (h1 n t)).symm, trivial⟩⟩ a t hci.inv trivial
    rw [e1]; rfl

/-- **C04.** After `Defragment()` there are no recycled indices, the blocks keep their sizes, and
`num_indices()` is the sum of the sizes of the blocks that were in use before the call, that is, the
old `num_indices()` minus the old `NumUnusedIndices()`. -/
theorem C04_defragment_no_holes {fill : α} {ops : List (Op α)} {a : Alloc} {s : Client α}
    (h : run fill ops = some (a, s)) :
    ∃ a' s', defragment (Client.callbacks fill) a s = some (a', s') ∧
      numUnused a' = some 0 ∧ recycled a' = [] ∧
      s'.blocks.map Prod.snd = s.blocks.map Prod.snd ∧
      a'.numIndices = (s.blocks.map Prod.snd).sum ∧
      ∃ w, numUnused a = some w ∧ a'.numIndices + w = a.numIndices := by
  have hci := run_ci h
  obtain ⟨a', s', e1, e2, e3, e4, e5, e6⟩ := defragment_client fill hci
  have hsz : s'.blocks.map Prod.snd = s.blocks.map Prod.snd := by
    clear e1 e2 e3 h hci
    generalize s'.blocks = l at e4
    generalize s.blocks = m at e4
    induction e4 with
    | nil => rfl
    | cons h1 _ ih => simp [h1.2, ih]
  refine ⟨a', s', e1, by simp [numUnused, e5], by simp [recycled, e5], hsz, ?_,
    _, numUnused_eq hci.inv, e6⟩
  rw [← live_sum e2 e5, hsz]

/-- **C05.** `Defragment()` moves the client's data with its blocks: the contents read through every
block are unchanged, every block keeps its size and never moves to a higher index.  (The client of
`Spec.lean` rejects every callback that would move anything but whole blocks in use, or move them
onto an index in use, so success also says that no such callback is made.) -/
theorem C05_defragment_moves_data {fill : α} {ops : List (Op α)} {a : Alloc} {s : Client α}
    (h : run fill ops = some (a, s)) :
    ∃ a' s', defragment (Client.callbacks fill) a s = some (a', s') ∧
      s'.contents = s.contents ∧
      List.Forall₂ (fun (b' b : Nat × Nat) => b'.1 ≤ b.1 ∧ b'.2 = b.2) s'.blocks s.blocks := by
  obtain ⟨a', s', e1, e2, e3, e4, e5, e6⟩ := defragment_client fill (run_ci h)
  exact ⟨a', s', e1, e3, e4⟩

/-- A reachable state with two holes, one between blocks in use, on which C03-C05 act. -/
example : ∃ (a : Alloc) (s : Client Nat),
    run 0 [.alloc 2, .alloc 3, .alloc 1, .alloc 4, .write 3 2 9, .write 1 0 5, .free 0, .free 1] =
      some (a, s) ∧ recycled a = [(0, 2), (5, 1)] ∧ s.contents = [[5, 0, 0], [0, 0, 9, 0]] :=
  ⟨_, _, rfl, by decide, by decide⟩

/-- **C01-C05 together.** The allocator with its client refines independent buffers: whatever the
history, including any number of compactions, the contents read through the blocks are those of a
machine that has no indices at all. -/
theorem C05_refines_buffers (fill : α) (ops : List (Op α)) :
    ∃ a s, run fill ops = some (a, s) ∧ s.contents = absRun fill ops := by
  obtain ⟨a, s, e1, _, e3⟩ := run_client fill ops
  exact ⟨a, s, e1, e3⟩

example : absRun 0 [.alloc 2, .alloc 3, .write 1 0 5, .free 0, .defragment, .write 0 2 8] =
    [[5, 0, 8]] := by decide

end Motive.Alloc
