import Mathlib.Algebra.Group.Nat.Even
import Mathlib.Algebra.Order.Ring.Nat
import Mathlib.Tactic.NormNum

/-!
# Memory with an alignment (C130)

Source: include/motive/util.h:29-50, `AlignedAlloc` and `AlignedFree`.

`posix_memalign` and `free` are not part of the repository.  They are modelled by their specification (POSIX.1-2017): `posix_memalign` fails with `EINVAL`
unless the alignment is a power of two and a multiple of `sizeof(void*)`, and then leaves the pointer alone; otherwise a heap chooses the address.
The branch for Visual C++ is not modelled.
-/

namespace Motive.Util

/-- What differs between platforms: `sizeof(void*)` and `sizeof(max_align_t)`. -/
structure Platform where
  ptrSize : ℕ
  maxAlignSize : ℕ

/-- A heap: the address it gives for an alignment and a size, or nothing if there is no memory left. -/
abbrev Heap := ℕ → ℕ → Option ℕ

/-- `posix_memalign` (POSIX.1-2017); `none` is any result but 0. -/
def posixMemalign (pl : Platform) (heap : Heap) (align size : ℕ) : Option ℕ :=
  if align.isPowerOfTwo ∧ pl.ptrSize ∣ align then heap align size else none

/-- `AlignedAlloc` (util.h:31-40): a null pointer is 0, the result of `posix_memalign` is ignored. -/
def alignedAlloc (pl : Platform) (heap : Heap) (size align : ℕ) : ℕ :=
  let minAlign := max align pl.maxAlignSize
  (posixMemalign pl heap minAlign size).getD 0

/-! ### Specification -/

/-- A heap that keeps its promise: what it gives is not null and has the alignment asked for. -/
def Heap.Aligns (heap : Heap) : Prop := ∀ align size a, heap align size = some a → a ≠ 0 ∧ align ∣ a

theorem pow_dvd_max {a b : ℕ} (ha : a.isPowerOfTwo) (hb : b.isPowerOfTwo) : (max a b).isPowerOfTwo ∧ a ∣ max a b ∧ b ∣ max a b := by
  obtain ⟨k, rfl⟩ := ha
  obtain ⟨m, rfl⟩ := hb
  rcases le_total k m with h | h
  · rw [max_eq_right (Nat.pow_le_pow_right (by norm_num) h)]
    exact ⟨⟨m, rfl⟩, pow_dvd_pow 2 h, dvd_rfl⟩
  · rw [max_eq_left (Nat.pow_le_pow_right (by norm_num) h)]
    exact ⟨⟨k, rfl⟩, dvd_rfl, pow_dvd_pow 2 h⟩

/-- C130, on platforms where `sizeof(max_align_t)` is a power of two and not smaller than a pointer: for every alignment that is a power of two, however
small, the block is aligned as asked and as every type needs, and it is only null if the heap has no memory of that kind left. -/
theorem C130_aligned_partial (pl : Platform) (heap : Heap) (hh : heap.Aligns) (hp : pl.ptrSize ∣ pl.maxAlignSize) (hm : pl.maxAlignSize.isPowerOfTwo)
    (size align : ℕ) (ha : align.isPowerOfTwo) :
    align ∣ alignedAlloc pl heap size align ∧ pl.maxAlignSize ∣ alignedAlloc pl heap size align ∧
    (alignedAlloc pl heap size align = 0 ↔ heap (max align pl.maxAlignSize) size = none) := by
  obtain ⟨h1, h2, h3⟩ := pow_dvd_max ha hm
  have e : alignedAlloc pl heap size align = (heap (max align pl.maxAlignSize) size).getD 0 := by
    simp only [alignedAlloc, posixMemalign, if_pos (And.intro h1 (hp.trans h3))]
  rw [e]
  rcases hx : heap (max align pl.maxAlignSize) size with _ | a
  · simp
  · obtain ⟨n0, hd⟩ := hh _ _ _ hx
    exact ⟨h2.trans hd, h3.trans hd, by simp [n0]⟩

theorem not_pow {n : ℕ} (k : ℕ) (h1 : 2 ^ k < n) (h2 : n < 2 ^ (k + 1)) : ¬ n.isPowerOfTwo := by
  rintro ⟨m, rfl⟩
  have a := (Nat.pow_lt_pow_iff_right (by norm_num)).1 h1
  have b := (Nat.pow_lt_pow_iff_right (by norm_num)).1 h2
  omega

/-- C130 is false of platforms where the size, not the alignment, of `max_align_t` is no power of two, such as 32 bit x86 (24 with clang, 48 with gcc; these
sizes come from the headers of the compilers, not from the repository):
every block with an alignment up to that size is null, however much memory there is. -/
theorem C130_null_on_x86 (heap : Heap) (size align : ℕ) :
    (align ≤ 24 → alignedAlloc ⟨4, 24⟩ heap size align = 0) ∧ (align ≤ 48 → alignedAlloc ⟨4, 48⟩ heap size align = 0) := by
  constructor
  · intro h
    have : ¬ (24 : ℕ).isPowerOfTwo := not_pow 4 (by norm_num) (by norm_num)
    simp [alignedAlloc, posixMemalign, max_eq_right h, this]
  · intro h
    have : ¬ (48 : ℕ).isPowerOfTwo := not_pow 5 (by norm_num) (by norm_num)
    simp [alignedAlloc, posixMemalign, max_eq_right h, this]

/-- C130: an alignment that is no power of two gives null as well, unless it is smaller than `max_align_t`.  Then the block need not have it. -/
theorem C130_other_alignments (pl : Platform) (heap : Heap) (size align : ℕ) (ha : ¬ align.isPowerOfTwo) (hl : pl.maxAlignSize ≤ align) :
    alignedAlloc pl heap size align = 0 ∧ ∃ heap' : Heap, heap'.Aligns ∧ alignedAlloc ⟨8, 32⟩ heap' size 24 ≠ 0 ∧ ¬ 24 ∣ alignedAlloc ⟨8, 32⟩ heap' size 24 := by
  refine ⟨by simp [alignedAlloc, posixMemalign, max_eq_left hl, ha], fun a _ => if a = 0 then none else some a, fun a s x h => ?_, ?_⟩
  · by_cases h0 : a = 0
    · simp [h0] at h
    · simp only [h0, if_false, Option.some.injEq] at h
      subst h
      exact ⟨h0, dvd_rfl⟩
  · have : (32 : ℕ).isPowerOfTwo := ⟨5, rfl⟩
    simp [alignedAlloc, posixMemalign, this]

/-- A heap that gives multiples of what is asked for. -/
def exampleHeap : Heap := fun a _ => if a = 0 then none else some (a * 1000)

/-- 64 bit x86, where a `max_align_t` has 32 bytes, meets the hypotheses of `C130_aligned_partial`. -/
example : exampleHeap.Aligns ∧ (32 : ℕ).isPowerOfTwo ∧ (4 : ℕ).isPowerOfTwo ∧ alignedAlloc ⟨8, 32⟩ exampleHeap 100 4 = 32000 := by
  refine ⟨fun a s x h => ?_, ⟨5, rfl⟩, ⟨2, rfl⟩, ?_⟩
  · by_cases ha : a = 0
    · simp [exampleHeap, ha] at h
    · simp only [exampleHeap, ha, if_false, Option.some.injEq] at h
      subst h
      exact ⟨by omega, Dvd.intro _ rfl⟩
  · have : (32 : ℕ).isPowerOfTwo := ⟨5, rfl⟩
    simp [alignedAlloc, posixMemalign, exampleHeap, this]

end Motive.Util
