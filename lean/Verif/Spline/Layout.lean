import Mathlib.Tactic.Ring
import Mathlib.Tactic.Linarith

/-!
# Memory layout of splines (C28)

Model of `CompactSpline::Size`, `ArraySize`, `NextAtIdx` and `CreateArrayInPlace`
(include/motive/math/compact_spline.h:204-225, 414-472, 568-588; compact_spline.cpp:27-29).  Byte counts are
unbounded naturals (`size_t` overflow is not modelled).  The class layout is the one the usual ABIs give: `Range`
(two floats), one float, two 16-bit integers, then the nodes of three 16-bit integers; the alignment is that of
`float`.
-/

namespace Motive.Splines.Layout

/-- Offset of `nodes_`: `y_range_` 8, `x_granularity_` 4, `num_nodes_` 2, `max_nodes_` 2 (compact_spline.h:568-579). -/
def nodesOffset : ℕ := 8 + 4 + 2 + 2
/-- `sizeof(CompactSplineNode)` (compact_spline_node.h:153-164). -/
def nodeSize : ℕ := 6
/-- Round up to a multiple of 4: `(size + kAlignMask) & ~kAlignMask` with `kAlignMask` = 3
(compact_spline.h:457, 460). -/
def align4 (n : ℕ) : ℕ := (n + 3) / 4 * 4
/-- `sizeof(CompactSpline)`: with the default of 7 nodes (compact_spline.h:79, 588), padded to its alignment. -/
def classSize : ℕ := align4 (nodesOffset + 7 * nodeSize)
/-- `kBaseSize` (compact_spline.cpp:27-29). -/
def baseSize : ℕ := classSize - 7 * nodeSize
/-- `Size(max_nodes)` (compact_spline.h:453-462). -/
def size (maxNodes : ℕ) : ℕ := align4 (baseSize + maxNodes * nodeSize)
/-- `ArraySize(num_splines, num_nodes)` (compact_spline.h:469-472). -/
def arraySize (numSplines numNodes : ℕ) : ℕ := numSplines * baseSize + numNodes * nodeSize
/-- Byte offset of the `idx`th spline of an array with `maxNodes` nodes each: `NextAtIdx`
(compact_spline.h:213-222), which is where `CreateArrayInPlace` (429-438) puts it. -/
def splineOffset (maxNodes idx : ℕ) : ℕ := idx * size maxNodes
/-- Byte offset of node `k` of spline `idx`. -/
def nodeOffset (maxNodes idx k : ℕ) : ℕ := splineOffset maxNodes idx + nodesOffset + k * nodeSize

/-- The bytes that a spline with `maxNodes` nodes uses: header and nodes. -/
def bytesUsed (maxNodes : ℕ) : ℕ := nodesOffset + maxNodes * nodeSize

theorem baseSize_eq : baseSize = 18 := rfl

/-- C28: `Size` is a multiple of the alignment and holds the header and all the nodes, with less than 6 bytes to
spare. -/
theorem C28_size_holds (n : ℕ) : size n % 4 = 0 ∧ bytesUsed n ≤ size n ∧ size n < bytesUsed n + 6 := by
  simp only [size, bytesUsed, align4, baseSize_eq, nodesOffset, nodeSize]
  omega

/-- `Size` is not the smallest suitable multiple: for every even node count it is four bytes too long. -/
theorem C28_size_not_smallest (n : ℕ) (h : n % 2 = 0) : bytesUsed n % 4 = 0 ∧ size n = bytesUsed n + 4 := by
  simp only [size, bytesUsed, align4, baseSize_eq, nodesOffset, nodeSize]
  omega

/-- For odd node counts `Size` is the smallest suitable multiple of the alignment. -/
theorem C28_size_smallest_odd (n m : ℕ) (h : n % 2 = 1) (h4 : m % 4 = 0) (hm : bytesUsed n ≤ m) : size n ≤ m := by
  simp only [size, bytesUsed, align4, baseSize_eq, nodesOffset, nodeSize] at *
  omega

/-- C28: in an array created in place every spline is aligned, the bytes used by different splines do not
overlap, nodes of one spline do not overlap, and everything lies inside `Size(max_nodes) * num_splines` bytes. -/
theorem C28_array_disjoint (n num i j : ℕ) (hi : i < num) (hij : i < j) :
    splineOffset n i % 4 = 0 ∧
    splineOffset n i + bytesUsed n ≤ splineOffset n j ∧
    splineOffset n i + bytesUsed n ≤ size n * num ∧
    (∀ k l, k < n → l < n → k < l → nodeOffset n i k + nodeSize ≤ nodeOffset n i l) ∧
    (∀ k, k < n → splineOffset n i + nodesOffset ≤ nodeOffset n i k ∧
      nodeOffset n i k + nodeSize ≤ splineOffset n i + bytesUsed n) := by
  obtain ⟨h4, hle, -⟩ := C28_size_holds n
  have hstep : ∀ a b, a < b → splineOffset n a + bytesUsed n ≤ b * size n := by
    intro a b hab
    have : (a + 1) * size n ≤ b * size n := Nat.mul_le_mul_right _ hab
    simp only [splineOffset]
    rw [Nat.add_mul, Nat.one_mul] at this
    omega
  refine ⟨?_, hstep i j hij, ?_, ?_, ?_⟩
  · simp only [splineOffset]; rw [Nat.mul_mod, h4]; simp
  · have := hstep i num hi; rw [Nat.mul_comm]; exact this
  · intro k l _ _ hkl; simp only [nodeOffset, nodeSize]; omega
  · intro k hk; simp only [nodeOffset, nodeSize, bytesUsed]; omega

/-- C28: `ArraySize` is not always enough: an array of three or more splines with an even number of nodes each
uses more bytes than `ArraySize` returns, because it ignores the padding of each element. -/
theorem C28_arraySize_too_small (k n : ℕ) (hk : 3 ≤ k) (hn : n % 2 = 0) :
    arraySize k (k * n) < splineOffset n (k - 1) + bytesUsed n := by
  obtain ⟨h1, h2⟩ := C28_size_not_smallest n hn
  obtain ⟨m, rfl⟩ : ∃ m, k = m + 1 := ⟨k - 1, by omega⟩
  simp only [arraySize, splineOffset, h2, bytesUsed, baseSize_eq, nodesOffset, nodeSize, Nat.add_sub_cancel]
  nlinarith

/-- C28: `ArraySize` is enough when every spline has an odd number of nodes; `ns` are the node counts of splines
placed one after the other. -/
theorem C28_arraySize_partial (ns : List ℕ) (h : ∀ n ∈ ns, n % 2 = 1) :
    (ns.map size).sum = arraySize ns.length ns.sum := by
  induction ns with
  | nil => rfl
  | cons n ns ih =>
    have h1 := h n (by simp)
    have h2 := ih (fun m hm => h m (List.mem_cons_of_mem _ hm))
    simp only [List.map_cons, List.sum_cons, h2, List.length_cons]
    have : size n = baseSize + n * nodeSize := by
      simp only [size, align4, baseSize_eq, nodeSize]; omega
    simp only [arraySize, this, baseSize_eq, nodeSize]
    ring

example : size 7 = 60 ∧ size 2 = 32 ∧ arraySize 3 6 = 90 ∧ splineOffset 2 2 + bytesUsed 2 = 92 := by decide

end Motive.Splines.Layout
