import Verif.Pipeline.NodesProps
import Mathlib.Order.Interval.Finset.Nat
/-!
# C51: `PruneNodes`
-/

namespace Motive.Pipeline
open Motive.Curve Motive.Matrix4

noncomputable section
open Classical

/-! ### Specification -/

/-- The nodes of a list by index. -/
def at' (n : List Node) (i : ℕ) : Node := n.getD i ⟨0, 0, 0⟩

/-- A node is within the tolerances of the cubic between two others. -/
def Near (tol dtol : ℝ) (a b m : Node) : Prop :=
  |curveBetween a b m.time - m.val| < tol ∧ |derivativeAngle (slopeBetween a b m.time - m.deriv)| < dtol

/-- Two nodes stand for all nodes between them: they are near the cubic between the two, or, if all are at the same time, near the first; or
the two are at the same time, and equal within the tolerances. -/
def StandFor (tol dtol : ℝ) (n : List Node) (i j : ℕ) : Prop :=
  i < j ∧ (equalNodes (at' n i) (at' n j) tol dtol ∨ ∀ k, i < k → k < j →
    ((at' n i).time < (at' n j).time → Near tol dtol (at' n i) (at' n j) (at' n k)) ∧
    ((at' n i).time = (at' n j).time → (at' n k).time = (at' n i).time → |(at' n i).val - (at' n k).val| < tol))

/-- Whether the nodes between `i` and `j` are found redundant never comes back after it is lost. -/
def Gapless (tol dtol : ℝ) (n : List Node) : Prop :=
  ∀ i j j', i + 2 ≤ j' → j' ≤ j → j < n.length → redundant (at' n) i j tol dtol = true → redundant (at' n) i j' tol dtol = true

/-! ### Proofs -/

theorem midsOnCurve_iff (n : ℕ → Node) (i j : ℕ) (tol dtol : ℝ) (k : ℕ) :
    midsOnCurve n i j tol dtol k = true ↔ ∀ m, k ≤ m → m < j → onCurve (n i) (n j) (n m) tol dtol := by
  induction k using midsOnCurve.induct n i j tol dtol with
  | case1 k hk ho ih =>
    rw [midsOnCurve, if_pos hk, if_pos ho, ih]
    constructor
    · intro h m h1 h2
      rcases Nat.eq_or_lt_of_le h1 with rfl | h1
      · exact ho
      · exact h m h1 h2
    · intro h m h1 h2; exact h m (by omega) h2
  | case2 k hk ho =>
    rw [midsOnCurve, if_pos hk, if_neg ho]
    simp only [Bool.false_eq_true, false_iff]
    intro h; exact ho (h k le_rfl hk)
  | case3 k hk =>
    rw [midsOnCurve, if_neg hk]
    simp only [true_iff]
    intro m h1 h2; omega

theorem redundant_iff (n : ℕ → Node) (i j : ℕ) (tol dtol : ℝ) :
    redundant n i j tol dtol = true ↔
      equalNodes (n i) (n j) tol dtol ∨ ∀ m, i < m → m < j → onCurve (n i) (n j) (n m) tol dtol := by
  unfold redundant
  by_cases h : equalNodes (n i) (n j) tol dtol
  · simp [h]
  · rw [if_neg h, midsOnCurve_iff]
    simp only [h, false_or]
    rfl

/-- What the inner loop does to the flags and to `next_i`. -/
theorem pruneInner_spec (n : ℕ → Node) (size : ℕ) (tol dtol : ℝ) (i j : ℕ) (prune : ℕ → Bool) (next : ℕ) :
    (∀ m, (pruneInner n size tol dtol i j prune next).1 m = true ↔
      prune m = true ∨ ∃ j', j ≤ j' ∧ j' < size ∧ redundant n i j' tol dtol = true ∧ m = j' - 1) ∧
    (((pruneInner n size tol dtol i j prune next).2 = next ∧ ∀ j', j ≤ j' → j' < size → redundant n i j' tol dtol = false) ∨
      (j ≤ (pruneInner n size tol dtol i j prune next).2 ∧ (pruneInner n size tol dtol i j prune next).2 < size ∧
        redundant n i (pruneInner n size tol dtol i j prune next).2 tol dtol = true ∧
        ∀ j', (pruneInner n size tol dtol i j prune next).2 < j' → j' < size → redundant n i j' tol dtol = false)) := by
  induction j, prune, next using pruneInner.induct n size tol dtol i with
  | case1 j prune next hj hr ih =>
    rw [pruneInner, if_pos hj, if_pos hr]
    obtain ⟨h1, h2⟩ := ih
    refine ⟨fun m => ?_, ?_⟩
    · rw [h1 m, Function.update_apply]
      constructor
      · rintro (h | ⟨j', a, b, c, d⟩)
        · split_ifs at h with hm
          · exact Or.inr ⟨j, le_rfl, hj, hr, hm⟩
          · exact Or.inl h
        · exact Or.inr ⟨j', by omega, b, c, d⟩
      · rintro (h | ⟨j', a, b, c, d⟩)
        · left; split_ifs; exacts [rfl, h]
        · rcases Nat.eq_or_lt_of_le a with rfl | a
          · left; rw [if_pos d]
          · exact Or.inr ⟨j', a, b, c, d⟩
    · rcases h2 with ⟨a, b⟩ | ⟨a, b, c, d⟩
      · right
        rw [a]
        exact ⟨le_rfl, hj, hr, fun j' h1 h2 => b j' h1 h2⟩
      · exact Or.inr ⟨by omega, b, c, d⟩
  | case2 j prune next hj hr ih =>
    rw [pruneInner, if_pos hj, if_neg hr]
    obtain ⟨h1, h2⟩ := ih
    rw [Bool.not_eq_true] at hr
    refine ⟨fun m => ?_, ?_⟩
    · rw [h1 m]
      constructor
      · rintro (h | ⟨j', a, b, c, d⟩)
        · exact Or.inl h
        · exact Or.inr ⟨j', by omega, b, c, d⟩
      · rintro (h | ⟨j', a, b, c, d⟩)
        · exact Or.inl h
        · rcases Nat.eq_or_lt_of_le a with rfl | a
          · rw [hr] at c; cases c
          · exact Or.inr ⟨j', a, b, c, d⟩
    · rcases h2 with ⟨a, b⟩ | ⟨a, b, c, d⟩
      · left
        refine ⟨a, fun j' h1 h2 => ?_⟩
        rcases Nat.eq_or_lt_of_le h1 with rfl | h1
        · exact hr
        · exact b j' h1 h2
      · exact Or.inr ⟨by omega, b, c, d⟩
  | case3 j prune next hj =>
    rw [pruneInner, if_neg hj]
    refine ⟨fun m => ⟨Or.inl, ?_⟩, Or.inl ⟨rfl, fun j' h1 h2 => by omega⟩⟩
    rintro (h | ⟨j', a, b, -, -⟩)
    · exact h
    · omega

/-- Two indices that follow each other among those that the outer loop visits. -/
def Visited (n : ℕ → Node) (size : ℕ) (tol dtol : ℝ) (i j : ℕ) : Prop :=
  i < j ∧ j < size ∧ (j = i + 1 ∨ redundant n i j tol dtol = true)

theorem pruneOuter_spec (n : ℕ → Node) (size : ℕ) (tol dtol : ℝ) (i : ℕ) (prune : ℕ → Bool) :
    i < size → (∀ m, i ≤ m → prune m = false) →
    ∃ as, List.IsChain (Visited n size tol dtol) (i :: as) ∧ (i :: as).getLast? = some (size - 1) ∧
      (∀ a ∈ i :: as, pruneOuter n size tol dtol i prune a = false) ∧
      (∀ m, m ≤ i → pruneOuter n size tol dtol i prune m = prune m) ∧
      ((∀ i j j', i + 2 ≤ j' → j' ≤ j → j < size → redundant n i j tol dtol = true → redundant n i j' tol dtol = true) →
        ∀ m, i ≤ m → m < size → pruneOuter n size tol dtol i prune m = false → m ∈ i :: as) := by
  induction i, prune using pruneOuter.induct n size tol dtol with
  | case1 i prune hi ih =>
    intro _ hp
    rw [pruneOuter, if_pos hi]
    obtain ⟨h1, h2⟩ := pruneInner_spec n size tol dtol i (i + 2) prune (i + 1)
    have hnext := pruneInner_next n size tol dtol i (i + 2) prune (i + 1) (by omega) (by omega)
    generalize hF : pruneInner n size tol dtol i (i + 2) prune (i + 1) = F at *
    have hlow : ∀ m, m ≤ i → F.1 m = prune m := by
      intro m hm
      rw [Bool.eq_iff_iff, h1 m]
      constructor
      · rintro (h | ⟨j', a, b, c, d⟩)
        · exact h
        · omega
      · exact Or.inl
    by_cases hlast : i + 1 = size
    · have hno : ¬ F.2 < size := by omega
      refine ⟨[], by simp, by simp; omega, ?_, ?_, ?_⟩
      · intro a ha
        rw [List.mem_singleton.mp ha, pruneOuter, if_neg hno, hlow i le_rfl]; exact hp i le_rfl
      · intro m hm
        rw [pruneOuter, if_neg hno, hlow m hm]
      · intro _ m m1 m2 _; rw [List.mem_singleton]; omega
    · have hlt : F.2 < size := by
        rcases h2 with ⟨a, -⟩ | ⟨-, b, -⟩
        · omega
        · exact b
      have hclear : ∀ m, F.2 ≤ m → F.1 m = false := by
        intro m hm
        rw [← Bool.not_eq_true, h1 m]
        rintro (h | ⟨j', a, b, c, d⟩)
        · rw [hp m (by omega)] at h; cases h
        · rcases h2 with ⟨e, f⟩ | ⟨e, f, g, k⟩
          · rw [f j' a b] at c; cases c
          · rw [k j' (by omega) b] at c; cases c
      obtain ⟨as, a1, a2, a3, a4, a5⟩ := ih hlt hclear
      refine ⟨F.2 :: as, List.isChain_cons_cons.mpr ⟨⟨hnext, hlt, ?_⟩, a1⟩, by rw [List.getLast?_cons_cons]; exact a2, ?_, ?_, ?_⟩
      · rcases h2 with ⟨a, -⟩ | ⟨-, -, c, -⟩
        · exact Or.inl a
        · exact Or.inr c
      · intro a ha
        rcases List.mem_cons.mp ha with rfl | ha
        · rw [a4 a hnext.le, hlow a le_rfl]; exact hp a le_rfl
        · exact a3 a ha
      · intro m hm; rw [a4 m (by omega), hlow m hm]
      · intro hg m m1 m2 m3
        rcases Nat.lt_or_ge m F.2 with hm | hm
        · rcases Nat.eq_or_lt_of_le m1 with rfl | m1
          · exact List.mem_cons_self
          · exfalso
            rw [a4 m hm.le, ← Bool.not_eq_true, h1 m] at m3
            apply m3
            right
            rcases h2 with ⟨a, -⟩ | ⟨-, b, c, -⟩
            · omega
            · exact ⟨m + 1, by omega, by omega, hg i F.2 (m + 1) (by omega) (by omega) b c, rfl⟩
        · exact List.mem_cons_of_mem _ (a5 hg m hm m2 m3)
  | case2 i prune hi => intro h; exact absurd h hi

/-- The indices of the nodes that are kept. -/
def keptIndices (tol dtol : ℝ) (n : List Node) : List ℕ :=
  (List.range n.length).filter fun i => !pruneOuter (at' n) n.length tol dtol 0 (fun _ => false) i

theorem pruneNodes_eq (tol dtol : ℝ) (n : List Node) :
    pruneNodes tol dtol n = if isConst ((keptIndices tol dtol n).map (at' n)) tol dtol then
      ((keptIndices tol dtol n).map (at' n)).take 1 else (keptIndices tol dtol n).map (at' n) := rfl

theorem onCurve_near {a b m : Node} {tol dtol : ℝ} (h : a.time < b.time) (ho : onCurve a b m tol dtol) : Near tol dtol a b m := by
  have hw : (0 : ℝ) < ((b.time - a.time : ℤ) : ℝ) := by exact_mod_cast sub_pos.mpr h
  obtain ⟨h1, h2⟩ := ho
  unfold between at h1 h2
  rw [init_eval _ _ _ _ hw] at h1
  rw [init_deriv _ _ _ _ hw] at h2
  unfold Near curveBetween slopeBetween
  push_cast at h1 h2
  exact ⟨h1, h2⟩

theorem chain_strict {R : ℕ → ℕ → Prop} (hR : ∀ a b, R a b → a < b) {l : List ℕ} (h : List.IsChain R l) : l.Pairwise (· < ·) := by
  have : List.IsChain (· < ·) l := h.imp hR
  exact List.isChain_iff_pairwise.mp this

/-- C51: for every curve, `PruneNodes` keeps a subsequence of the nodes.  Among the nodes that it keeps there are some, from the first node
to the last, that stand for all the others: each node of the curve between two that follow each other is near the cubic between these two.
The nodes kept are exactly these if redundancy, once lost, does not come back as more nodes are considered.  A curve of two nodes that is
flat within the tolerances becomes one constant node. -/
theorem C51_prune_nodes (tol dtol : ℝ) (n : List Node) (hn : n ≠ []) :
    ∃ kept reps : List ℕ, kept.Pairwise (· < ·) ∧ reps.Pairwise (· < ·) ∧ (∀ i ∈ kept, i < n.length) ∧ reps ⊆ kept ∧
      reps.head? = some 0 ∧ reps.getLast? = some (n.length - 1) ∧
      List.IsChain (StandFor tol dtol n) reps ∧
      (Gapless tol dtol n → kept = reps) ∧
      pruneNodes tol dtol n =
        if isConst (kept.map (at' n)) tol dtol then (kept.map (at' n)).take 1 else kept.map (at' n) := by
  have hpos : 0 < n.length := List.length_pos_iff.mpr hn
  obtain ⟨as, a1, a2, a3, a4, a5⟩ := pruneOuter_spec (at' n) n.length tol dtol 0 (fun _ => false) hpos (fun _ _ => rfl)
  have hs1 : (keptIndices tol dtol n).Pairwise (· < ·) := List.Pairwise.filter _ List.pairwise_lt_range
  have hs2 : (0 :: as).Pairwise (· < ·) := chain_strict (fun _ _ h => h.1) a1
  have hbound : ∀ a ∈ 0 :: as, a < n.length := by
    have : ∀ (l : List ℕ) (a : ℕ), a < n.length → List.IsChain (Visited (at' n) n.length tol dtol) (a :: l) → ∀ x ∈ a :: l, x < n.length := by
      intro l
      induction l with
      | nil => intro a ha _ x hx; rw [List.mem_singleton.mp hx]; exact ha
      | cons b l ih =>
        intro a ha h x hx
        obtain ⟨h1, h2⟩ := List.isChain_cons_cons.mp h
        rcases List.mem_cons.mp hx with rfl | hx
        · exact ha
        · exact ih b h1.2.1 h2 x hx
    exact this as 0 hpos a1
  have hsub : ∀ a ∈ 0 :: as, a ∈ keptIndices tol dtol n := by
    intro a ha
    unfold keptIndices
    rw [List.mem_filter, List.mem_range, a3 a ha]
    exact ⟨hbound a ha, rfl⟩
  refine ⟨keptIndices tol dtol n, 0 :: as, hs1, hs2, ?_, fun a ha => hsub a ha, rfl, a2, ?_, ?_, pruneNodes_eq tol dtol n⟩
  · intro i hi; exact List.mem_range.mp (List.mem_filter.mp hi).1
  · refine a1.imp ?_
    rintro i j ⟨h1, -, h3⟩
    refine ⟨h1, ?_⟩
    rcases h3 with rfl | h3
    · right; intro k k1 k2; omega
    · rcases (redundant_iff _ _ _ _ _).mp h3 with h | h
      · exact Or.inl h
      · refine Or.inr fun k k1 k2 => ⟨fun ht => onCurve_near ht (h k k1 k2), fun ht hk => ?_⟩
        have := (h k k1 k2).1
        rw [hk, sub_self] at this
        simpa [between, Cubic.init, Cubic.eval] using this
  · intro hg
    refine List.Perm.eq_of_pairwise (le := (· < ·)) (fun a b _ _ h1 h2 => absurd h1 (lt_asymm h2)) hs1 hs2 ?_
    rw [List.perm_ext_iff_of_nodup (hs1.imp Nat.ne_of_lt) (hs2.imp Nat.ne_of_lt)]
    intro a
    refine ⟨fun ha => ?_, hsub a⟩
    obtain ⟨h1, h2⟩ := List.mem_filter.mp ha
    exact a5 (fun i j j' q1 q2 q3 q4 => hg i j j' q1 q2 q3 q4) a (Nat.zero_le _) (List.mem_range.mp h1) (by simpa using h2)

/-- C51: the result is a subsequence of the nodes. -/
theorem C51_prune_sublist (tol dtol : ℝ) (n : List Node) : (pruneNodes tol dtol n).Sublist n := by
  have h1 : ((keptIndices tol dtol n).map (at' n)).Sublist n := by
    have : (List.range n.length).map (at' n) = n := by
      apply List.ext_getElem
      · simp
      · intro i h1 h2
        simp [at', List.getD_eq_getElem?_getD, h2]
    calc ((keptIndices tol dtol n).map (at' n)).Sublist ((List.range n.length).map (at' n)) := List.filter_sublist.map _
      _ = n := this
  rw [pruneNodes_eq]
  split_ifs
  · exact (List.take_sublist _ _).trans h1
  · exact h1

/-- C51: the first node is kept.  So is the last, unless two nodes remain, flat and equal within the tolerances, of which one is kept. -/
theorem C51_prune_ends (tol dtol : ℝ) (n : List Node) (hn : n ≠ []) :
    (pruneNodes tol dtol n).head? = n.head? ∧
      ((pruneNodes tol dtol n).getLast? = n.getLast? ∨
        ∃ a b, n.head? = some a ∧ n.getLast? = some b ∧ pruneNodes tol dtol n = [a] ∧ |a.val - b.val| < tol ∧
          |derivativeAngle a.deriv| < dtol ∧ |derivativeAngle b.deriv| < dtol) := by
  obtain ⟨kept, reps, h1, h2, h3, h4, h5, h6, -, -, h9⟩ := C51_prune_nodes tol dtol n hn
  have hpos : 0 < n.length := List.length_pos_iff.mpr hn
  have hat : ∀ i, i < n.length → n[i]? = some (at' n i) := by
    intro i hi
    simp [at', List.getD_eq_getElem?_getD, hi]
  have hhead : kept.head? = some 0 := by
    have h0 : 0 ∈ kept := h4 (List.mem_of_mem_head? h5)
    cases kept with
    | nil => simp at h0
    | cons k ks =>
      rcases List.mem_cons.mp h0 with h | h
      · simp [h]
      · have := (List.pairwise_cons.mp h1).1 0 h; omega
  have hlast : kept.getLast? = some (n.length - 1) := by
    have h0 : n.length - 1 ∈ kept := h4 (List.mem_of_mem_getLast? h6)
    have hne : kept ≠ [] := List.ne_nil_of_mem h0
    rw [List.getLast?_eq_getLast_of_ne_nil hne]
    congr 1
    have hle : kept.getLast hne ≤ n.length - 1 := by have := h3 _ (List.getLast_mem hne); omega
    rw [← List.dropLast_append_getLast hne] at h0 h1
    rcases List.mem_append.mp h0 with h | h
    · have := (List.pairwise_append.mp h1).2.2 _ h _ (List.mem_singleton_self _); omega
    · exact (List.mem_singleton.mp h).symm
  have hh : (kept.map (at' n)).head? = n.head? := by
    rw [List.head?_map, hhead, Option.map_some, List.head?_eq_getElem?, hat 0 hpos]
  have hl : (kept.map (at' n)).getLast? = n.getLast? := by
    rw [List.getLast?_map, hlast, Option.map_some, List.getLast?_eq_getElem?, hat _ (by omega)]
  rw [h9]
  split_ifs with hc
  · refine ⟨by rw [List.head?_take]; simpa using hh, Or.inr ?_⟩
    generalize kept.map (at' n) = l at *
    match l, hc with
    | [a, b], hc => exact ⟨a, b, hh.symm, hl.symm, rfl, hc⟩
  · exact ⟨hh, Or.inl hl⟩

/-! ### Not every curve is kept within the tolerance -/

theorem angle_small {x : ℝ} (h : |x| < 1) : |derivativeAngle x| < Real.pi / 4 := by
  obtain ⟨h1, h2⟩ := abs_lt.mp h
  unfold derivativeAngle
  rw [abs_lt, ← Real.arctan_one, ← Real.arctan_neg]
  exact ⟨Real.arctan_strictMono (by linarith), Real.arctan_strictMono h2⟩

/-- A wavy curve of five nodes. -/
def wavy : List Node := [⟨0, 0, 0⟩, ⟨10, -45 / 100, 0⟩, ⟨20, -90 / 100, 0⟩, ⟨30, 90 / 100, 0⟩, ⟨40, 0, 0⟩]

theorem wavy_kept : keptIndices 1 (Real.pi / 4) wavy = [0, 2, 4] := by
  have hon : ∀ i j k, |(between (at' wavy i) (at' wavy j)).eval (((at' wavy k).time - (at' wavy i).time : ℤ) : ℝ) - (at' wavy k).val| < 1 →
      |(between (at' wavy i) (at' wavy j)).deriv (((at' wavy k).time - (at' wavy i).time : ℤ) : ℝ) - (at' wavy k).deriv| < 1 →
      onCurve (at' wavy i) (at' wavy j) (at' wavy k) 1 (Real.pi / 4) := fun i j k h1 h2 => ⟨h1, angle_small h2⟩
  have r2 : redundant (at' wavy) 0 2 1 (Real.pi / 4) = true := by
    rw [redundant_iff]
    right
    intro m m1 m2
    obtain rfl : m = 1 := by omega
    apply hon <;> (rw [abs_lt]; norm_num [wavy, at', between, Cubic.init, Cubic.eval, Cubic.deriv])
  have r3 : redundant (at' wavy) 0 3 1 (Real.pi / 4) = false := by
    rw [← Bool.not_eq_true, redundant_iff]
    rintro (h | h)
    · have := h.1; simp [wavy, at'] at this
    · have := (h 2 (by omega) (by omega)).1
      rw [abs_lt] at this
      norm_num [wavy, at', between, Cubic.init, Cubic.eval] at this
  have r4 : redundant (at' wavy) 0 4 1 (Real.pi / 4) = true := by
    rw [redundant_iff]
    right
    intro m m1 m2
    obtain rfl | rfl | rfl : m = 1 ∨ m = 2 ∨ m = 3 := by omega
    all_goals apply hon <;> (rw [abs_lt]; norm_num [wavy, at', between, Cubic.init, Cubic.eval, Cubic.deriv])
  have hin : pruneInner (at' wavy) 5 1 (Real.pi / 4) 0 2 (fun _ => false) 1 =
      (Function.update (Function.update (fun _ => false) 1 true) 3 true, 4) := by
    rw [pruneInner, if_pos (by omega), if_pos r2, pruneInner, if_pos (by omega), if_neg (by rw [r3]; simp), pruneInner,
      if_pos (by omega), if_pos r4, pruneInner, if_neg (by omega)]
  have hout : pruneOuter (at' wavy) 5 1 (Real.pi / 4) 0 (fun _ => false) =
      Function.update (Function.update (fun _ => false) 1 true) 3 true := by
    rw [pruneOuter, if_pos (by omega), hin, pruneOuter, if_pos (by omega), pruneInner, if_neg (by omega), pruneOuter, if_neg (by omega)]
  unfold keptIndices
  change (List.range 5).filter (fun i => !pruneOuter (at' wavy) 5 1 (Real.pi / 4) 0 (fun _ => false) i) = _
  rw [hout]
  rfl

/-- C51: the tolerance is not kept by every curve.  Of five nodes, the second and the fourth are removed with a tolerance of 1, although the
fourth is 1.35 away from the curve through the nodes that remain.  The search goes on after the first failure, and the fourth node is
compared with the cubic from the first node to the last, but the third node is kept. -/
theorem C51_prune_tolerance_fails : pruneNodes 1 (Real.pi / 4) wavy = [⟨0, 0, 0⟩, ⟨20, -90 / 100, 0⟩, ⟨40, 0, 0⟩] ∧
    |curveBetween ⟨20, -90 / 100, 0⟩ ⟨40, 0, 0⟩ 30 - 90 / 100| = 135 / 100 ∧ (⟨30, 90 / 100, 0⟩ : Node) ∈ wavy := by
  refine ⟨?_, ?_, by simp [wavy]⟩
  · rw [pruneNodes_eq, wavy_kept, if_neg (by simp [isConst])]
    simp [at', wavy]
  · norm_num [curveBetween, hermite]

/-- C51: if the samples are not a whole number of ticks apart, a node may be a tick early, and the curve far from the sample at its time:
here 2.5 away, with a tolerance of 1. -/
theorem C51_add_curve_truncates : ∃ vals derivs, addCurve 1 [] 0 1 vals derivs 3 = some [⟨0, 0, 0⟩, ⟨0, 5, 0⟩, ⟨1, 0, 0⟩] ∧
    vals 1 = 5 ∧ |curveBetween ⟨0, 5, 0⟩ ⟨1, 0, 0⟩ (1 / 2) - vals 1| = 5 / 2 := by
  refine ⟨fun i => if i = 1 then 5 else 0, fun _ => 0, ?_, by simp, by norm_num [curveBetween, hermite]⟩
  set vals : ℕ → ℝ := fun i => if i = 1 then 5 else 0 with hv
  have hw : Segment.worst ⟨0, 1, 0, 3⟩ vals (fun _ => 0) = ⟨1, 5, 1 / 2⟩ := by
    unfold Segment.worst
    simp only
    rw [worstLoop, if_pos (by omega), worstLoop, if_neg (by omega)]
    norm_num [worstStep, Segment.cubic, Cubic.init, Cubic.eval, hv]
  have hd : Segment.divide ⟨0, 1, 0, 3⟩ vals (fun _ => 0) 1 := by unfold Segment.divide; rw [hw]; norm_num
  have hm : Segment.mid ⟨0, 1, 0, 3⟩ vals (fun _ => 0) = 0 := by
    unfold Segment.mid; rw [hw]; norm_num [trunc]
  have two : ∀ a b c, ¬ Segment.divide ⟨a, b, c, 2⟩ vals (fun _ => 0) 1 := by
    intro a b c h
    have := Segment.worst_lt _ vals (fun _ => 0) h.1
    have := h.1
    simp only at *
    omega
  rw [addCurve, if_neg (by omega), addCurveLoop, dif_pos hd]
  have hl : Segment.left ⟨0, 1, 0, 3⟩ vals (fun _ => 0) = ⟨0, 0, 0, 2⟩ := by unfold Segment.left; rw [hm, hw]
  have hr : Segment.right ⟨0, 1, 0, 3⟩ vals (fun _ => 0) = ⟨0, 1, 1, 2⟩ := by unfold Segment.right; rw [hm, hw]; rfl
  rw [hl, hr]
  rw [addCurveLoop, dif_neg (two _ _ _), addCurveLoop, dif_neg (two _ _ _), addCurveLoop]
  simp [Segment.emit, hv]

/-- A straight line of four nodes loses its inner nodes, so the hypotheses of `C51_prune_nodes` are met and it says something. -/
example : pruneNodes 1 (Real.pi / 4) [⟨0, 0, 1⟩, ⟨10, 10, 1⟩, ⟨20, 20, 1⟩] = [⟨0, 0, 1⟩, ⟨20, 20, 1⟩] := by
  have r2 : redundant (at' [⟨0, 0, 1⟩, ⟨10, 10, 1⟩, ⟨20, 20, 1⟩]) 0 2 1 (Real.pi / 4) = true := by
    rw [redundant_iff]
    right
    intro m m1 m2
    obtain rfl : m = 1 := by omega
    refine ⟨?_, angle_small ?_⟩ <;> norm_num [at', between, Cubic.init, Cubic.eval, Cubic.deriv]
  have hout : pruneOuter (at' [⟨0, 0, 1⟩, ⟨10, 10, 1⟩, ⟨20, 20, 1⟩]) 3 1 (Real.pi / 4) 0 (fun _ => false) =
      Function.update (fun _ => false) 1 true := by
    rw [pruneOuter, if_pos (by omega), pruneInner, if_pos (by omega), if_pos r2, pruneInner, if_neg (by omega), pruneOuter,
      if_pos (by omega), pruneInner, if_neg (by omega), pruneOuter, if_neg (by omega)]
  have hk : keptIndices 1 (Real.pi / 4) [⟨0, 0, 1⟩, ⟨10, 10, 1⟩, ⟨20, 20, 1⟩] = [0, 2] := by
    unfold keptIndices
    change (List.range 3).filter (fun i => !pruneOuter (at' [⟨0, 0, 1⟩, ⟨10, 10, 1⟩, ⟨20, 20, 1⟩]) 3 1 (Real.pi / 4) 0 (fun _ => false) i) = _
    rw [hout]; rfl
  rw [pruneNodes_eq, hk, if_neg]
  · simp [at']
  · rintro ⟨h, -⟩; norm_num [at'] at h

/-- A gapless curve: three nodes. -/
example : Gapless 1 (Real.pi / 4) [⟨0, 0, 1⟩, ⟨10, 10, 1⟩, ⟨20, 20, 1⟩] := by
  intro i j j' h1 h2 h3 h4
  simp at h3
  obtain rfl : j' = j := by omega
  exact h4

end
end Motive.Pipeline
