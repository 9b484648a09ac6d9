import Mathlib.Data.List.Range
import Mathlib.Data.Finset.Card
import Mathlib.Tactic.Linarith
import Mathlib.Tactic.SplitIfs

/-!
# Finding the splines to re-initialise in one step and in two steps (C86)

`BulkSplineEvaluator::AdvanceFrame` moves every x forward and collects the indices of the splines that went past the
end of their current cubic.  There are two implementations.  The one for SIMD processors writes a mask of bytes into the
second half of the array that will receive the indices, and then converts the mask to indices in place.  The array is
modelled here as bytes, since the two steps use it with different types.  The arithmetic of `float` is left abstract: any
type with `+`, `*` and `<`.
-/

namespace Motive.Spline.TwoSteps

/-! ### Model -/

/-- The scratch array as bytes (`scratch_`, bulk_spline_evaluator.h:404; `Index` is a 32 bit `int`, line 39). -/
abbrev Mem := ℕ → ℕ

/-- Store a 32 bit `int` at byte `a`, in little-endian order. -/
def write32 (m : Mem) (a v : ℕ) : Mem := fun p =>
  if p = a then v % 256
  else if p = a + 1 then v / 256 % 256
  else if p = a + 2 then v / 65536 % 256
  else if p = a + 3 then v / 16777216 % 256
  else m p

/-- Load a 32 bit `int` from byte `a`. -/
def read32 (m : Mem) (a : ℕ) : ℕ := m a + 256 * m (a + 1) + 65536 * m (a + 2) + 16777216 * m (a + 3)

def writeByte (m : Mem) (a v : ℕ) : Mem := fun p => if p = a then v else m p

variable {K : Type*} [Add K] [Mul K] [LT K] [DecidableRel (α := K) (· < ·)]

/-- The columns of the evaluator that take part: `cubic_xs_`, `cubic_x_ends_`, `sources_[i].rate`. -/
structure Cols (K : Type*) where
  xs : ℕ → K
  ends : ℕ → K
  rates : ℕ → K

/-- `xs[i] += delta_x * rate`. -/
def step (c : Cols K) (delta : K) (i : ℕ) : Cols K :=
  { c with xs := fun j => if j = i then c.xs i + delta * c.rates i else c.xs j }

/-- `UpdateCubicXs_OneStep` (bulk_spline_evaluator.cpp:281-296), the first `k` iterations: the columns and the indices
that were written to `indices_to_init`. -/
def oneStep (c : Cols K) (delta : K) : ℕ → Cols K × List ℕ
  | 0 => (c, [])
  | k + 1 =>
    let (c, found) := oneStep c delta k
    let c := step c delta k
    if c.ends k < c.xs k then (c, found ++ [k]) else (c, found)

/-- The byte of the first mask: `&indices_to_init[num_indices / 2]` (bulk_spline_evaluator.cpp:269). -/
def maskBase (n : ℕ) : ℕ := 4 * (n / 2)

/-- `UpdateCubicXsAndGetMask_C` (bulk_spline_evaluator.cpp:233-243), the first `k` iterations, with `n` splines. -/
def getMask (n : ℕ) (c : Cols K) (delta : K) (m : Mem) : ℕ → Cols K × Mem
  | 0 => (c, m)
  | k + 1 =>
    let (c, m) := getMask n c delta m k
    let c := step c delta k
    (c, writeByte m (maskBase n + k) (if c.ends k < c.xs k then 0xFF else 0))

/-- `ConvertMaskToIndices` (bulk_spline_evaluator.cpp:248-258), the first `k` iterations: the number of indices and the
memory.  The index is cast to `uint16_t`. -/
def convert (n : ℕ) (m : Mem) : ℕ → ℕ × Mem
  | 0 => (0, m)
  | k + 1 =>
    let (num, m) := convert n m k
    let m := write32 m (4 * num) (k % 65536)
    if m (maskBase n + k) ≠ 0 then (num + 1, m) else (num, m)

/-- `UpdateCubicXs_TwoSteps` (bulk_spline_evaluator.cpp:263-277) with `n` splines: the columns, and the indices that
`AdvanceFrame` (bulk_spline_evaluator.cpp:347-350) reads back from the array. -/
def twoSteps (n : ℕ) (c : Cols K) (delta : K) (m : Mem) : Cols K × List ℕ :=
  let (c, m) := getMask n c delta m n
  let (num, m) := convert n m n
  (c, (List.range num).map fun j => read32 m (4 * j))

/-! ### Specification -/

/-- Spline `i` goes past the end of its cubic in this frame. -/
def Expires (c : Cols K) (delta : K) (i : ℕ) : Prop := c.ends i < c.xs i + delta * c.rates i

instance (c : Cols K) (delta : K) : DecidablePred (Expires c delta) := fun _ => inferInstanceAs (Decidable (_ < _))

/-- The x of the first `n` splines is advanced. -/
def Advanced (n : ℕ) (c c' : Cols K) (delta : K) : Prop :=
  c'.ends = c.ends ∧ c'.rates = c.rates ∧ (∀ i < n, c'.xs i = c.xs i + delta * c.rates i) ∧ ∀ i, n ≤ i → c'.xs i = c.xs i

/-- The splines that go past the end of their cubic, in order. -/
def toInit (n : ℕ) (c : Cols K) (delta : K) : List ℕ := (List.range n).filter fun i => decide (Expires c delta i)

/-! ### One step -/

omit [DecidableRel (α := K) (· < ·)] in
theorem advanced_step {c c' : Cols K} {delta : K} {k : ℕ} (h : Advanced k c c' delta) :
    Advanced (k + 1) c (step c' delta k) delta ∧ ((step c' delta k).ends k < (step c' delta k).xs k ↔ Expires c delta k) := by
  obtain ⟨h1, h2, h3, h4⟩ := h
  refine ⟨⟨h1, h2, ?_, ?_⟩, ?_⟩
  · intro i hi
    unfold step
    by_cases e : i = k
    · simp only [e, if_true, h4 k le_rfl, h2]
    · simp only [e, if_false]; exact h3 i (by omega)
  · intro i hi
    unfold step
    simp only [show i ≠ k by omega, if_false]; exact h4 i (by omega)
  · unfold step Expires
    simp only [if_true, h1, h2, h4 k le_rfl]

/-- **C86**: in one step, every x is advanced and exactly the splines that go past their end are found, in order. -/
theorem C86_one_step (n : ℕ) (c : Cols K) (delta : K) :
    Advanced n c (oneStep c delta n).1 delta ∧ (oneStep c delta n).2 = toInit n c delta := by
  induction n with
  | zero => exact ⟨⟨rfl, rfl, by simp, fun _ _ => rfl⟩, rfl⟩
  | succ k ih =>
    obtain ⟨h1, h2⟩ := ih
    obtain ⟨h3, h4⟩ := advanced_step h1
    unfold oneStep
    rcases hs : oneStep c delta k with ⟨c', found⟩
    rw [hs] at h1 h2 h3 h4
    dsimp only at h1 h2 h3 h4 ⊢
    have e : toInit (k + 1) c delta = toInit k c delta ++ (if Expires c delta k then [k] else []) := by
      unfold toInit
      rw [List.range_succ, List.filter_append]
      congr 1
      by_cases hc : Expires c delta k <;> simp [hc]
    rw [e, ← h2]
    by_cases hc : Expires c delta k
    · rw [if_pos (h4.mpr hc), if_pos hc]; exact ⟨h3, rfl⟩
    · rw [if_neg (fun h => hc (h4.mp h)), if_neg hc]; exact ⟨h3, by simp⟩

/-! ### Two steps -/

theorem getMask_spec (n k : ℕ) (c : Cols K) (delta : K) (m : Mem) :
    Advanced k c (getMask n c delta m k).1 delta ∧
    ∀ i < k, (getMask n c delta m k).2 (maskBase n + i) = if Expires c delta i then 0xFF else 0 := by
  induction k with
  | zero => exact ⟨⟨rfl, rfl, by simp, fun _ _ => rfl⟩, by simp⟩
  | succ k ih =>
    obtain ⟨h1, h2⟩ := ih
    obtain ⟨h3, h4⟩ := advanced_step h1
    unfold getMask
    rcases hs : getMask n c delta m k with ⟨c', m'⟩
    rw [hs] at h1 h2 h3 h4
    dsimp only at h1 h2 h3 h4 ⊢
    refine ⟨h3, fun i hi => ?_⟩
    unfold writeByte
    by_cases e : i = k
    · subst e
      simp only [if_true]
      by_cases hc : Expires c delta i
      · rw [if_pos (h4.mpr hc), if_pos hc]
      · rw [if_neg (fun h => hc (h4.mp h)), if_neg hc]
    · rw [if_neg (by omega)]
      exact h2 i (by omega)

theorem read_write_same (m : Mem) (a v : ℕ) (hv : v < 2 ^ 32) : read32 (write32 m a v) a = v := by
  unfold read32 write32
  simp only [if_true, show a + 1 ≠ a by omega, show a + 2 ≠ a by omega, show a + 2 ≠ a + 1 by omega,
    show a + 3 ≠ a by omega, show a + 3 ≠ a + 1 by omega, show a + 3 ≠ a + 2 by omega, if_false]
  omega

theorem read_write_other (m : Mem) {a b v : ℕ} (h : b + 3 < a) : read32 (write32 m a v) b = read32 m b := by
  unfold read32 write32
  simp only [show b ≠ a by omega, show b + 1 ≠ a by omega, show b + 2 ≠ a by omega, show b + 3 ≠ a by omega,
    show b ≠ a + 1 by omega, show b + 1 ≠ a + 1 by omega, show b + 2 ≠ a + 1 by omega, show b + 3 ≠ a + 1 by omega,
    show b ≠ a + 2 by omega, show b + 1 ≠ a + 2 by omega, show b + 2 ≠ a + 2 by omega, show b + 3 ≠ a + 2 by omega,
    show b ≠ a + 3 by omega, show b + 1 ≠ a + 3 by omega, show b + 2 ≠ a + 3 by omega, show b + 3 ≠ a + 3 by omega, if_false]

theorem write_above (m : Mem) {a p v : ℕ} (h : a + 3 < p ∨ p < a) : write32 m a v p = m p := by
  unfold write32
  rw [if_neg (by omega), if_neg (by omega), if_neg (by omega), if_neg (by omega)]

/-- As long as fewer than half of the indices were found, the masks are intact. -/
theorem convert_spec {n : ℕ} {m : Mem} (P : ℕ → Prop) [DecidablePred P]
    (hm : ∀ i < n, (m (maskBase n + i) ≠ 0 ↔ P i)) (hfew : ((List.range n).filter (fun i => decide (P i))).length < n / 2) :
    ∀ k ≤ n, (convert n m k).1 = ((List.range k).filter fun i => decide (P i)).length ∧
      (∀ p, 4 * (n / 2) ≤ p → (convert n m k).2 p = m p) ∧
      (List.range (convert n m k).1).map (fun j => read32 (convert n m k).2 (4 * j)) =
        ((List.range k).filter fun i => decide (P i)).map (· % 65536) := by
  intro k
  induction k with
  | zero => intro _; exact ⟨rfl, fun _ _ => rfl, rfl⟩
  | succ k ih =>
    intro hk
    obtain ⟨h1, h2, h3⟩ := ih (by omega)
    have hsub : ((List.range k).filter fun i => decide (P i)).length ≤
        ((List.range n).filter fun i => decide (P i)).length := by
      refine List.Sublist.length_le (List.Sublist.filter _ ?_)
      exact List.range_sublist.mpr (by omega)
    have e : (List.range (k + 1)).filter (fun i => decide (P i)) =
        (List.range k).filter (fun i => decide (P i)) ++ (if P k then [k] else []) := by
      rw [List.range_succ, List.filter_append]
      congr 1
      by_cases hc : P k <;> simp [hc]
    unfold convert
    rcases hs : convert n m k with ⟨num, m'⟩
    rw [hs] at h1 h2 h3
    dsimp only at h1 h2 h3 ⊢
    have hnum : num < n / 2 := by omega
    have hmask : ∀ p, 4 * (n / 2) ≤ p → write32 m' (4 * num) (k % 65536) p = m p := by
      intro p hp
      rw [write_above m' (Or.inl (by omega)), h2 p hp]
    have hold : (List.range num).map (fun j => read32 (write32 m' (4 * num) (k % 65536)) (4 * j)) =
        (List.range num).map (fun j => read32 m' (4 * j)) := by
      refine List.map_congr_left fun j hj => ?_
      rw [List.mem_range] at hj
      exact read_write_other m' (by omega)
    rw [hmask _ (by unfold maskBase; omega), e]
    by_cases hc : P k
    · rw [if_pos ((hm k (by omega)).mpr hc), if_pos hc]
      refine ⟨by simp [h1], hmask, ?_⟩
      dsimp only
      rw [List.range_succ, List.map_append, hold, h3, List.map_append, List.map_singleton, List.map_singleton,
        read_write_same _ _ _ (by omega)]
    · rw [if_neg (fun h => hc ((hm k (by omega)).mp h)), if_neg hc, List.append_nil]
      exact ⟨h1, hmask, by dsimp only; rw [hold, h3]⟩

/-- **C86**: the two steps find the same splines as the one step when fewer than half of the splines go past their end
and there are at most 65536 splines.  (What is missing is every other case: see below.) -/
theorem C86_two_steps_partial {n : ℕ} (c : Cols K) (delta : K) (m : Mem) (hn : n ≤ 65536)
    (hfew : (toInit n c delta).length < n / 2) :
    Advanced n c (twoSteps n c delta m).1 delta ∧ (twoSteps n c delta m).2 = toInit n c delta := by
  obtain ⟨h1, h2⟩ := getMask_spec n n c delta m
  have h3 := convert_spec (m := (getMask n c delta m n).2) (Expires c delta)
    (fun i hi => by rw [h2 i hi]; by_cases hc : Expires c delta i <;> simp [hc]) hfew n le_rfl
  refine ⟨h1, ?_⟩
  unfold twoSteps
  dsimp only
  rw [h3.2.2]
  refine (List.map_congr_left fun i hi => ?_).trans (List.map_id _)
  have : i < n := List.mem_range.mp (List.mem_of_mem_filter hi)
  simp only [id]
  omega

/-- **C86**: with more than 65536 splines the wrong spline is found: if only spline 65536 goes past its end, it is spline
0 that is re-initialised. -/
theorem C86_many_splines {n : ℕ} (c : Cols K) (delta : K) (m : Mem) (hn : 65536 < n)
    (hexp : ∀ i < n, (Expires c delta i ↔ i = 65536)) : (twoSteps n c delta m).2 = [0] := by
  obtain ⟨h1, h2⟩ := getMask_spec n n c delta m
  have hf : ∀ k, (List.range (65536 + 1 + k)).filter (fun i => decide (i = 65536)) = [65536] := by
    intro k
    rw [List.range_add, List.filter_append, List.range_succ, List.filter_append]
    have e1 : (List.range 65536).filter (fun i => decide (i = 65536)) = [] := by
      rw [List.filter_eq_nil_iff]
      intro i hi
      rw [List.mem_range] at hi
      simp; omega
    have e2 : ((List.range k).map (65536 + 1 + ·)).filter (fun i => decide (i = 65536)) = [] := by
      rw [List.filter_eq_nil_iff]
      intro i hi
      rw [List.mem_map] at hi
      obtain ⟨j, -, rfl⟩ := hi
      simp; omega
    rw [e1, e2]; simp
  have hl : toInit n c delta = [65536] := by
    unfold toInit
    rw [← hf (n - 65537), show 65536 + 1 + (n - 65537) = n by omega]
    refine List.filter_congr fun i hi => ?_
    rw [List.mem_range] at hi
    simp only [hexp i hi]
  have h3 := convert_spec (m := (getMask n c delta m n).2) (Expires c delta)
    (fun i hi => by rw [h2 i hi]; by_cases hc : Expires c delta i <;> simp [hc])
    (by show (toInit n c delta).length < n / 2; rw [hl]; simp; omega) n le_rfl
  unfold twoSteps
  dsimp only
  rw [h3.2.2]
  show (toInit n c delta).map _ = _
  rw [hl]
  rfl

/-- Where the memory is not written, it does not change; what was written at an index that has been passed stays. -/
theorem convert_all (n : ℕ) (m : Mem) : ∀ k, (convert n m k).1 ≤ k ∧ ((convert n m k).1 = k →
    ∀ i < k, ∀ b < 4, (convert n m k).2 (4 * i + b) = write32 m (4 * i) (i % 65536) (4 * i + b)) := by
  intro k
  induction k with
  | zero => exact ⟨le_rfl, fun _ i hi => absurd hi (by omega)⟩
  | succ k ih =>
    obtain ⟨h1, h2⟩ := ih
    unfold convert
    rcases hs : convert n m k with ⟨num, m'⟩
    rw [hs] at h1 h2
    dsimp only at h1 h2 ⊢
    split_ifs with hc
    · refine ⟨by dsimp only; omega, fun he i hi b hb => ?_⟩
      dsimp only at he ⊢
      have hk : num = k := by omega
      subst hk
      by_cases e : i = num
      · subst e
        unfold write32
        by_cases hb0 : b = 0
        · subst hb0; simp
        by_cases hb1 : b = 1
        · subst hb1; simp
        by_cases hb2 : b = 2
        · subst hb2; simp
        have hb3 : b = 3 := by omega
        subst hb3; simp
      · rw [write_above m' (Or.inr (by omega)), h2 rfl i (by omega) b hb]
    · exact ⟨by dsimp only; omega, fun he => by dsimp only at he; omega⟩

/-- The mask of every index that was counted is not 0 after its own index is written. -/
theorem convert_read (n : ℕ) (m : Mem) (k : ℕ) (h : (convert n m (k + 1)).1 = k + 1) :
    (convert n m k).1 = k ∧ write32 (convert n m k).2 (4 * k) (k % 65536) (maskBase n + k) ≠ 0 := by
  have h1 := (convert_all n m k).1
  unfold convert at h
  rcases hs : convert n m k with ⟨num, m'⟩
  rw [hs] at h h1
  dsimp only at h h1 ⊢
  split_ifs at h with hc
  · dsimp only at h
    have : num = k := by omega
    subst this
    exact ⟨rfl, hc⟩
  · dsimp only at h; omega

theorem convert_full (n : ℕ) (m : Mem) (k : ℕ) (h : (convert n m n).1 = n) (hk : k ≤ n) : (convert n m k).1 = k := by
  obtain ⟨d, rfl⟩ : ∃ d, n = k + d := ⟨n - k, by omega⟩
  have : ∀ d, ∀ j, (convert (k + d) m (k + j)).1 = k + j → (convert (k + d) m k).1 = k := by
    intro d j
    induction j with
    | zero => exact fun h => h
    | succ j ih => exact fun h => ih (convert_read _ m (k + j) h).1
  exact this d d h

/-- If every spline goes past its end, not all are counted. -/
theorem convert_misses {n : ℕ} (hn : 1 ≤ n) (m : Mem) : (convert n m n).1 < n := by
  by_contra hc
  have hfull : (convert n m n).1 = n := le_antisymm (convert_all n m n).1 (by omega)
  -- the byte `b` of index `i` lies on the mask of index `j`, which is read when or after `i` is written
  have key : ∀ i j b, i ≤ j → j < n → b < 4 → 4 * i + b = maskBase n + j → write32 m (4 * i) (i % 65536) (4 * i + b) = 0 → False := by
    intro i j b hij hj hb hp hz
    have hr := (convert_read n m j (convert_full n m (j + 1) hfull (by omega))).2
    have hj' := convert_full n m j hfull (by omega)
    rw [← hp] at hr
    by_cases e : i = j
    · subst e
      apply hr
      rw [← hz]
      unfold write32
      by_cases hb0 : b = 0
      · subst hb0; simp
      by_cases hb1 : b = 1
      · subst hb1; simp
      by_cases hb2 : b = 2
      · subst hb2; simp
      have hb3 : b = 3 := by omega
      subst hb3; simp
    · rw [write_above _ (Or.inr (by omega)), (convert_all n m j).2 hj' i (by omega) b hb] at hr
      exact hr hz
  have byte3 : ∀ i, write32 m (4 * i) (i % 65536) (4 * i + 3) = 0 := by
    intro i
    unfold write32
    rw [if_neg (by omega), if_neg (by omega), if_neg (by omega), if_pos rfl]
    omega
  rcases Nat.lt_or_ge n 4 with h4 | h4
  · rcases (by omega : n = 1 ∨ n = 2 ∨ n = 3) with rfl | rfl | rfl
    · exact key 0 0 0 (by omega) (by omega) (by omega) (by unfold maskBase; omega) (by unfold write32; simp)
    · exact key 1 1 1 (by omega) (by omega) (by omega) (by unfold maskBase; omega) (by unfold write32; simp)
    · exact key 1 1 1 (by omega) (by omega) (by omega) (by unfold maskBase; omega) (by unfold write32; simp)
  · refine key ((4 * (n / 2) - 1) / 3) (4 * ((4 * (n / 2) - 1) / 3) + 3 - 4 * (n / 2)) 3 ?_ ?_ (by omega) ?_ (byte3 _)
    · omega
    · omega
    · unfold maskBase; omega

/-- **C86**: whatever the number of splines, if all of them go past their end in the same frame, the two steps miss at
least one: it is not re-initialised. -/
theorem C86_two_steps_miss {n : ℕ} (hn : 1 ≤ n) (c : Cols K) (delta : K) (m : Mem) (hall : ∀ i < n, Expires c delta i) :
    ∃ i ∈ toInit n c delta, i ∉ (twoSteps n c delta m).2 := by
  have hlt := convert_misses hn (getMask n c delta m n).2
  by_contra hc
  push Not at hc
  have hsub : Finset.range n ⊆ (twoSteps n c delta m).2.toFinset := by
    intro i hi
    rw [Finset.mem_range] at hi
    rw [List.mem_toFinset]
    refine hc i ?_
    unfold toInit
    rw [List.mem_filter]
    exact ⟨List.mem_range.mpr hi, by simpa using hall i hi⟩
  have h1 := Finset.card_le_card hsub
  have h2 := List.toFinset_card_le (twoSteps n c delta m).2
  have h3 : (twoSteps n c delta m).2.length = (convert n (getMask n c delta m n).2 n).1 := by
    unfold twoSteps
    simp
  rw [Finset.card_range] at h1
  omega

/-- **C86**: a single spline is never re-initialised by the two steps. -/
theorem C86_single_spline (c : Cols K) (delta : K) (m : Mem) : (twoSteps 1 c delta m).2 = [] := by
  have h := convert_misses (n := 1) le_rfl (getMask 1 c delta m 1).2
  have h3 : (twoSteps 1 c delta m).2.length = (convert 1 (getMask 1 c delta m 1).2 1).1 := by
    unfold twoSteps
    simp
  exact List.length_eq_zero_iff.mp (by omega)

/-! Six splines of length 10, at most two of which go past their end: found.  All six: not all found. -/
example : (twoSteps 6 (⟨fun i => if i = 2 ∨ i = 4 then 9 else 0, fun _ => 10, fun _ => 1⟩ : Cols ℕ) 5 (fun _ => 0)).2 = [2, 4] := by
  rw [(C86_two_steps_partial _ _ _ (by norm_num) (by decide)).2]
  decide

example : ∃ i ∈ toInit 6 (⟨fun _ => 9, fun _ => 10, fun _ => 1⟩ : Cols ℕ) 5,
    i ∉ (twoSteps 6 (⟨fun _ => 9, fun _ => 10, fun _ => 1⟩ : Cols ℕ) 5 (fun _ => 0)).2 :=
  C86_two_steps_miss (by norm_num) _ _ _ fun _ _ => by unfold Expires; norm_num

end Motive.Spline.TwoSteps
