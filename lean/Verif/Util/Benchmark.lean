import Mathlib.Data.ZMod.Basic
import Mathlib.Analysis.SpecialFunctions.Sqrt
import Mathlib.Tactic.Linarith
import Mathlib.Tactic.Ring
import Mathlib.Tactic.FieldSimp

/-!
# C112: benchmarks

`InitBenchmarks`, `RegisterBenchmark`, `Benchmark`, `ClearBenchmarks` and `OutputBenchmarks`
(include/motive/util/benchmark.h, src/motive/util/benchmark.cpp), as they are compiled with `BENCHMARK_MOTIVE`.
-/

namespace Motive.Bench

noncomputable section

/-! ### Model -/

/-- `BenchmarkTime` has 64 bits (benchmark.h:27). -/
def W : ℕ := 18446744073709551616

/-- Subtraction of two `BenchmarkTime`s. -/
def sub64 (a b : ℕ) : ℕ := (a + (W - b)) % W

/-- The sum in `Average` (benchmark.cpp:71-74). -/
def sum64 (xs : List ℕ) : ℕ := xs.foldl (fun s x => (s + x) % W) 0

/-- `Average` (benchmark.cpp:67-79). Division by zero has no outcome. The number of samples is less than 2^64: they are in memory. -/
def average (xs : List ℕ) : Option ℕ := if xs.length = 0 then none else some ((sum64 xs + xs.length / 2) % W / xs.length)

/-- The sum in `StandardDeviation` (benchmark.cpp:85-89). -/
def devSum (a : ℕ) (xs : List ℕ) : ℕ := xs.foldl (fun s x => (s + sub64 x a * sub64 x a % W) % W) 0

/-- `StandardDeviation` (benchmark.cpp:81-97). Simplification: the square root and the addition of 0.5 are those of real numbers. -/
def standardDeviation (xs : List ℕ) (a : ℕ) : Option ℕ :=
  if xs.length = 0 then none else some ⌊√(((devSum a xs + xs.length / 2) % W / xs.length : ℕ) : ℝ) + 1 / 2⌋₊

/-- `MinMax` (benchmark.cpp:99-109). -/
def minMax (xs : List ℕ) : ℕ × ℕ := (xs.foldl min (W - 1), xs.foldl max 0)

/-- One sample in `Histogram` (benchmark.cpp:131-136) with its assertion. -/
def place (mn mx : ℕ) (bs : List ℕ) (t : ℕ) : Option (List ℕ) :=
  if (bs.length - 1) * sub64 t mn % W / sub64 mx mn < bs.length then
    some (bs.modify ((bs.length - 1) * sub64 t mn % W / sub64 mx mn) fun c => (c + 1) % 65536)
  else none

/-- `Histogram` (benchmark.cpp:111-137); `cap` is the capacity of the vector of buckets, which have 16 bits. -/
def histogram (xs : List ℕ) (mn mx cap : ℕ) : Option (List ℕ) :=
  if sub64 mx mn = 0 then
    if 0 < cap then some ((List.replicate cap 0).set 0 (xs.length % 65536)) else none
  else xs.foldlM (place mn mx) (List.replicate cap 0)

/-- `biggest_bucket` in `Statistics` (benchmark.cpp:160-165). -/
def biggest (bs : List ℕ) (width : ℕ) : ℕ := (List.range' 1 (width - 1)).foldl (fun b j => max b (bs.getD j 0)) 0

/-- A row of the graph (benchmark.cpp:169-173): `true` is `#`, `false` is a blank. The product has 32 bits. -/
def graphRow (bs : List ℕ) (width height i : ℕ) : List Bool :=
  (List.range width).map fun j => decide ((height - i - 1) * biggest bs width % 4294967296 / height < bs.getD j 0)

/-- The graph (benchmark.cpp:167-175). -/
def graph (bs : List ℕ) (width height : ℕ) : List (List Bool) := (List.range height).map (graphRow bs width height)

/-- What `Statistics` writes (benchmark.cpp:139-177), with times in ticks and not as text. -/
structure Report where
  name : String
  average : ℕ
  min : ℕ
  max : ℕ
  deviation : ℕ
  graph : List (List Bool)

/-- `Statistics` (benchmark.cpp:139-177). The capacity of a vector that is made with a size is this size in all implementations. -/
def statistics (name : String) (xs : List ℕ) (width height : ℕ) : Option Report :=
  (average xs).bind fun a =>
    (standardDeviation xs a).bind fun d =>
      (histogram xs (minMax xs).1 (minMax xs).2 width).map fun bs => ⟨name, a, (minMax xs).1, (minMax xs).2, d, graph bs width height⟩

/-- `gTimes` (benchmark.cpp:180-182), the live `Benchmark` objects with their ids and start times (benchmark.h:53-60), and the ticks of the clock. -/
structure State where
  times : List (String × List ℕ)
  live : List (ℕ × ℕ × ℕ)
  now : ℕ

/-- What a program does; objects have numbers. -/
inductive Act where
  | register (name : String)
  | clear
  /-- `Benchmark k(id)` is constructed -/
  | construct (k id : ℕ)
  /-- `k` is destroyed -/
  | destroy (k : ℕ)
  /-- `n` ticks pass -/
  | tick (n : ℕ)

/-- One action (benchmark.cpp:191-201, 213-218, benchmark.h:55). An object is not constructed again while it exists. -/
def step (s : State) : Act → Option State
  | .register name => some { s with times := s.times ++ [(name, [])] }
  | .clear => some { s with times := s.times.map fun p => (p.1, []) }
  | .construct k id => if (s.live.lookup k).isNone then some { s with live := (k, id, s.now % W) :: s.live } else none
  | .destroy k =>
    (s.live.lookup k).bind fun p =>
      if p.1 < s.times.length then
        some { s with
          times := s.times.modify p.1 fun q => (q.1, q.2 ++ [sub64 (s.now % W) p.2])
          live := s.live.filter fun q => q.1 != k }
      else none
  | .tick n => some { s with now := s.now + n }

/-- Any number of actions; the first tick count is `t`. -/
def run (t : ℕ) (acts : List Act) : Option State := acts.foldlM step ⟨[], [], t⟩

/-- `OutputBenchmarks` (benchmark.cpp:203-211) with the default width and height (38-39). -/
def output (s : State) : Option (List Report) :=
  (s.times.filter fun p => decide (0 < p.2.length)).mapM fun p => statistics p.1 p.2 80 10

/-! ### Specification -/

/-- The names that have been registered, in order. -/
def names (acts : List Act) : List String := acts.filterMap fun a => match a with | .register n => some n | _ => none

/-- The id of the object `k`, and how long it has existed. Histories are given backwards: the last action first. -/
def age (k : ℕ) : List Act → Option (ℕ × ℕ)
  | [] => none
  | .construct k' id :: l => if k' = k then some (id, 0) else age k l
  | .tick n :: l => (age k l).map fun p => (p.1, p.2 + n)
  | _ :: l => age k l

/-- How long the objects with this id had existed when they were destroyed, since `ClearBenchmarks` was last called, in the order in which they were
destroyed. Histories are given backwards. -/
def durations (id : ℕ) : List Act → List ℕ
  | [] => []
  | .clear :: _ => []
  | .destroy k :: l =>
    match age k l with
    | some p => if p.1 = id then durations id l ++ [p.2] else durations id l
    | none => durations id l
  | _ :: l => durations id l

/-- The mean of some samples. -/
def mean (xs : List ℕ) : ℝ := (xs.map fun x : ℕ => (x : ℝ)).sum / xs.length

/-- The variance of some samples. -/
def variance (xs : List ℕ) : ℝ := (xs.map fun x : ℕ => ((x : ℝ) - mean xs) ^ 2).sum / xs.length

/-- The part of the range from `mn` to `mx` that `t` is in, of `n` parts, the last of which is `mx` alone and the others of which have the same size. -/
def part (mn mx n t : ℕ) : ℕ := (n - 1) * (t - mn) / (mx - mn)

/-! ### Lemmas -/

theorem W_pos : 0 < W := by decide

theorem sub64_le {a b : ℕ} (h : b ≤ a) (ha : a < W) : sub64 a b = a - b := by
  unfold sub64
  have : a + (W - b) = a - b + W := by omega
  rw [this, Nat.add_mod_right, Nat.mod_eq_of_lt (by omega)]

theorem sub64_mod {a b : ℕ} (h : b ≤ a) : sub64 (a % W) (b % W) = (a - b) % W := by
  unfold sub64
  have hb : b % W < W := Nat.mod_lt _ W_pos
  have key : (a % W + (W - b % W)) ≡ a - b [MOD W] := by
    have h1 : a % W + (W - b % W) + b % W = a % W + W := by omega
    have h2 : a % W + (W - b % W) + b % W ≡ (a - b) + b % W [MOD W] := by
      rw [h1]
      calc a % W + W ≡ a % W [MOD W] := by unfold Nat.ModEq; simp
        _ ≡ a [MOD W] := Nat.mod_modEq a W
        _ ≡ (a - b) + b [MOD W] := by rw [Nat.sub_add_cancel h]
        _ ≡ (a - b) + b % W [MOD W] := (Nat.ModEq.refl _).add (Nat.mod_modEq b W).symm
    exact Nat.ModEq.add_right_cancel' _ h2
  exact key

theorem sum_fold (xs : List ℕ) (s : ℕ) : xs.foldl (fun s x => (s + x) % W) s % W = (s + xs.sum) % W := by
  induction xs generalizing s with
  | nil => simp
  | cons x xs ih => rw [List.foldl_cons, ih, List.sum_cons, Nat.mod_add_mod, add_assoc]

theorem sum_fold_lt (xs : List ℕ) : sum64 xs < W := by
  unfold sum64
  have : ∀ (xs : List ℕ) (s : ℕ), s < W → xs.foldl (fun s x => (s + x) % W) s < W := by
    intro xs
    induction xs with
    | nil => intro s hs; simpa using hs
    | cons x xs ih => intro s _; rw [List.foldl_cons]; exact ih _ (Nat.mod_lt _ W_pos)
  exact this xs 0 W_pos

theorem sum64_eq (xs : List ℕ) : sum64 xs = xs.sum % W := by
  have h := sum_fold xs 0
  rw [zero_add] at h
  rw [← h]
  exact (Nat.mod_eq_of_lt (sum_fold_lt xs)).symm

/-- Dividing with half of the divisor added is rounding to the nearest. -/
theorem round_div (a : ℕ) {n : ℕ} (hn : 0 < n) : (((a + n / 2) / n : ℕ) : ℝ) ≤ a / n + 1 / 2 ∧ (a : ℝ) / n + 1 / 2 < (((a + n / 2) / n : ℕ) : ℝ) + 1 := by
  have h1 := Nat.div_mul_le_self (a + n / 2) n
  have h2 := Nat.lt_div_mul_add (a := a + n / 2) hn
  generalize (a + n / 2) / n = q at h1 h2 ⊢
  have h3 : 2 * (q * n) ≤ 2 * a + n := by omega
  have h4 : 2 * a + n + 1 ≤ 2 * (q * n) + 2 * n := by omega
  have hn' : (0 : ℝ) < n := by exact_mod_cast hn
  have h3' : (2 : ℝ) * (q * n) ≤ 2 * a + n := by exact_mod_cast h3
  have h4' : (2 : ℝ) * a + n + 1 ≤ 2 * (q * n) + 2 * n := by exact_mod_cast h4
  constructor
  · rw [div_add_div _ _ hn'.ne' (by norm_num), le_div_iff₀ (by positivity)]
    linarith
  · rw [div_add_div _ _ hn'.ne' (by norm_num), div_lt_iff₀ (by positivity)]
    linarith

theorem cast_sum (xs : List ℕ) : ((xs.sum : ℕ) : ℝ) = (xs.map fun x : ℕ => (x : ℝ)).sum := by
  induction xs with
  | nil => simp
  | cons x xs ih => simp only [List.sum_cons, List.map_cons, Nat.cast_add, ih]

theorem sub64_cast (x a : ℕ) (ha : a ≤ W) : ((sub64 x a : ℕ) : ZMod W) = (x : ZMod W) - a := by
  unfold sub64
  rw [ZMod.natCast_mod, Nat.cast_add, Nat.cast_sub ha, ZMod.natCast_self]
  ring

theorem dev_cast (a : ℕ) (ha : a ≤ W) (xs : List ℕ) (s : ℕ) :
    ((xs.foldl (fun s x => (s + sub64 x a * sub64 x a % W) % W) s : ℕ) : ZMod W) =
      ((s + (xs.map fun x : ℕ => ((x : ℤ) - a).natAbs ^ 2).sum : ℕ) : ZMod W) := by
  induction xs generalizing s with
  | nil => simp
  | cons x xs ih =>
    rw [List.foldl_cons, ih, List.map_cons, List.sum_cons, Nat.cast_add, ZMod.natCast_mod, Nat.cast_add, ZMod.natCast_mod, Nat.cast_mul, sub64_cast x a ha]
    have h : ((((x : ℤ) - a).natAbs ^ 2 : ℕ) : ZMod W) = ((x : ZMod W) - a) ^ 2 := by
      have h0 : ((((x : ℤ) - a).natAbs ^ 2 : ℕ) : ℤ) = ((x : ℤ) - a) ^ 2 := by
        rw [Nat.cast_pow, Int.natCast_natAbs, sq_abs]
      have h1 := congrArg (Int.cast : ℤ → ZMod W) h0
      rw [Int.cast_natCast] at h1
      rw [h1]
      push_cast
      rfl
    simp only [Nat.cast_add, h]
    ring

theorem dev_lt (a : ℕ) (xs : List ℕ) : devSum a xs < W := by
  unfold devSum
  have : ∀ (xs : List ℕ) (s : ℕ), s < W → xs.foldl (fun s x => (s + sub64 x a * sub64 x a % W) % W) s < W := by
    intro xs
    induction xs with
    | nil => intro s hs; simpa using hs
    | cons x xs ih => intro s _; rw [List.foldl_cons]; exact ih _ (Nat.mod_lt _ W_pos)
  exact this xs 0 W_pos

/-- That differences are unsigned does not matter. -/
theorem devSum_eq (a : ℕ) (ha : a ≤ W) (xs : List ℕ) (hs : (xs.map fun x : ℕ => ((x : ℤ) - a).natAbs ^ 2).sum < W) :
    devSum a xs = (xs.map fun x : ℕ => ((x : ℤ) - a).natAbs ^ 2).sum := by
  have h := dev_cast a ha xs 0
  rw [zero_add] at h
  have h' : devSum a xs % W = _ := (ZMod.natCast_eq_natCast_iff' _ _ _).mp h
  rwa [Nat.mod_eq_of_lt hs, Nat.mod_eq_of_lt (dev_lt a xs)] at h'

theorem cast_squares (a : ℕ) (xs : List ℕ) :
    (((xs.map fun x : ℕ => ((x : ℤ) - a).natAbs ^ 2).sum : ℕ) : ℝ) = (xs.map fun x : ℕ => ((x : ℝ) - a) ^ 2).sum := by
  induction xs with
  | nil => simp
  | cons x xs ih =>
    simp only [List.map_cons, List.sum_cons, Nat.cast_add, ih, Nat.cast_pow]
    congr 1
    have : ((((x : ℤ) - a).natAbs : ℕ) : ℝ) = |(x : ℝ) - a| := by
      rw [Nat.cast_natAbs]; push_cast; rfl
    rw [this, sq_abs]

/-- Squares of distances from two points. -/
theorem squares_shift (xs : List ℕ) (a m : ℝ) :
    (xs.map fun x : ℕ => ((x : ℝ) - a) ^ 2).sum =
      (xs.map fun x : ℕ => ((x : ℝ) - m) ^ 2).sum + 2 * (m - a) * ((xs.map fun x : ℕ => (x : ℝ)).sum - m * xs.length) + xs.length * (m - a) ^ 2 := by
  induction xs with
  | nil => simp
  | cons x xs ih =>
    simp only [List.map_cons, List.sum_cons, List.length_cons, ih]
    push_cast
    ring

theorem fold_min (xs : List ℕ) (s : ℕ) : (xs.foldl min s ∈ xs ∨ xs.foldl min s = s) ∧ xs.foldl min s ≤ s ∧ ∀ x ∈ xs, xs.foldl min s ≤ x := by
  induction xs generalizing s with
  | nil => simp
  | cons x xs ih =>
    obtain ⟨h1, h2, h3⟩ := ih (min s x)
    rw [List.foldl_cons]
    refine ⟨?_, h2.trans (min_le_left _ _), ?_⟩
    · rcases h1 with h1 | h1
      · exact .inl (List.mem_cons_of_mem _ h1)
      · rcases min_choice s x with e | e
        · exact .inr (h1.trans e)
        · exact .inl (by rw [h1, e]; exact List.mem_cons_self)
    · intro y hy
      rcases List.mem_cons.mp hy with rfl | hy
      · exact h2.trans (min_le_right _ _)
      · exact h3 y hy

theorem fold_max (xs : List ℕ) (s : ℕ) : (xs.foldl max s ∈ xs ∨ xs.foldl max s = s) ∧ s ≤ xs.foldl max s ∧ ∀ x ∈ xs, x ≤ xs.foldl max s := by
  induction xs generalizing s with
  | nil => simp
  | cons x xs ih =>
    obtain ⟨h1, h2, h3⟩ := ih (max s x)
    rw [List.foldl_cons]
    refine ⟨?_, (le_max_left _ _).trans h2, ?_⟩
    · rcases h1 with h1 | h1
      · exact .inl (List.mem_cons_of_mem _ h1)
      · rcases max_choice s x with e | e
        · exact .inr (h1.trans e)
        · exact .inl (by rw [h1, e]; exact List.mem_cons_self)
    · intro y hy
      rcases List.mem_cons.mp hy with rfl | hy
      · exact (le_max_right _ _).trans h2
      · exact h3 y hy

theorem minMax_spec {xs : List ℕ} (hx : xs ≠ []) (hw : ∀ x ∈ xs, x < W) :
    (minMax xs).1 ∈ xs ∧ (minMax xs).2 ∈ xs ∧ ∀ x ∈ xs, (minMax xs).1 ≤ x ∧ x ≤ (minMax xs).2 := by
  obtain ⟨h1, h2, h3⟩ := fold_min xs (W - 1)
  obtain ⟨g1, g2, g3⟩ := fold_max xs 0
  obtain ⟨y, hy⟩ := List.exists_mem_of_ne_nil xs hx
  refine ⟨?_, ?_, fun x hx => ⟨h3 x hx, g3 x hx⟩⟩
  · rcases h1 with h1 | h1
    · exact h1
    · have a1 := h3 y hy
      have a2 := hw y hy
      have : xs.foldl min (W - 1) = y := by omega
      show xs.foldl min (W - 1) ∈ xs
      rwa [this]
  · rcases g1 with g1 | g1
    · exact g1
    · have a1 := g3 y hy
      have : xs.foldl max 0 = y := by omega
      show xs.foldl max 0 ∈ xs
      rwa [this]

/-- Placing samples counts them. -/
theorem place_all {mn mx : ℕ} (hlt : mn < mx) (hmx : mx < W) (f : ℕ → ℕ) (n : ℕ) : ∀ (xs : List ℕ)
    (_ : ∀ t ∈ xs, (n - 1) * sub64 t mn % W / sub64 mx mn = f t ∧ f t < n) (bs : List ℕ), bs.length = n → (∀ c ∈ bs, c < 65536) →
    ∃ bs', xs.foldlM (place mn mx) bs = some bs' ∧ bs'.length = n ∧
      ∀ j < n, bs'.getD j 0 = (bs.getD j 0 + xs.countP fun t => decide (f t = j)) % 65536
  | [], _, bs, hl, hb => by
    refine ⟨bs, rfl, hl, fun j hj => ?_⟩
    have : bs.getD j 0 < 65536 := by
      rw [List.getD_eq_getElem?_getD, List.getElem?_eq_getElem (by omega)]
      exact hb _ (List.getElem_mem _)
    simp only [List.countP_nil, Nat.add_zero]
    omega
  | t :: xs, hf, bs, hl, hb => by
    obtain ⟨f1, f2⟩ := hf t List.mem_cons_self
    have e : place mn mx bs t = some (bs.modify (f t) fun c => (c + 1) % 65536) := by
      unfold place
      rw [hl, f1, if_pos f2]
    obtain ⟨bs', h1, h2, h3⟩ := place_all hlt hmx f n xs (fun t ht => hf t (List.mem_cons_of_mem _ ht)) (bs.modify (f t) fun c => (c + 1) % 65536)
      (by rw [List.length_modify, hl]) (by
        intro c hc
        obtain ⟨i, hi, rfl⟩ := List.mem_iff_getElem.mp hc
        rw [List.getElem_modify]
        split
        · exact Nat.mod_lt _ (by norm_num)
        · exact hb _ (List.getElem_mem _))
    refine ⟨bs', by rw [List.foldlM_cons, e]; exact h1, h2, fun j hj => ?_⟩
    rw [h3 j hj, List.countP_cons, List.getD_eq_getElem?_getD, List.getD_eq_getElem?_getD, List.getElem?_modify]
    rw [List.getElem?_eq_getElem (show j < bs.length by omega)]
    by_cases hj' : f t = j
    · simp only [hj', if_true, Option.map_eq_map, Option.map_some, Option.getD_some, decide_true]
      omega
    · simp [hj']

theorem histogram_counts {xs : List ℕ} {mn mx : ℕ} (hmx : mx < W) (hx : ∀ t ∈ xs, mn ≤ t ∧ t ≤ mx) (hle : mn ≤ mx) {n : ℕ} (hn : 0 < n) :
    ∃ (bs : List ℕ) (f : ℕ → ℕ), histogram xs mn mx n = some bs ∧ bs.length = n ∧ (∀ t ∈ xs, f t < n) ∧ ((n - 1) * (mx - mn) < W → ∀ t ∈ xs, f t = part mn mx n t) ∧
      ∀ j < n, bs.getD j 0 = (xs.countP fun t => decide (f t = j)) % 65536 := by
  rcases Nat.eq_or_lt_of_le hle with rfl | hlt
  · refine ⟨_, fun _ => 0, by unfold histogram; rw [sub64_le le_rfl hmx, Nat.sub_self, if_pos rfl, if_pos hn], by simp, fun _ _ => hn, ?_, ?_⟩
    · intro _ t _
      unfold part
      simp
    · intro j hj
      rw [List.getD_eq_getElem?_getD, List.getElem?_set, List.length_replicate]
      by_cases h0 : 0 = j
      · subst h0
        rw [if_pos rfl, if_pos hj]
        simp
      · rw [if_neg h0, List.getElem?_replicate, if_pos hj]
        simp [h0]
  · have hs : sub64 mx mn = mx - mn := sub64_le hle hmx
    have hpos : 0 < mx - mn := by omega
    obtain ⟨bs, h1, h2, h3⟩ := place_all hlt hmx (fun t => (n - 1) * sub64 t mn % W / sub64 mx mn) n xs (by
      intro t ht
      refine ⟨rfl, ?_⟩
      rw [hs, sub64_le (hx t ht).1 (by have := (hx t ht).2; omega)]
      have a1 : (n - 1) * (t - mn) % W ≤ (n - 1) * (mx - mn) := (Nat.mod_le _ _).trans (Nat.mul_le_mul_left _ (by have := (hx t ht).2; omega))
      have a2 : (n - 1) * (t - mn) % W / (mx - mn) ≤ n - 1 := Nat.div_le_of_le_mul (by rw [mul_comm (mx - mn)]; exact a1)
      omega) (List.replicate n 0) (by simp) (by intro c hc; rw [(List.mem_replicate.mp hc).2]; norm_num)
    refine ⟨bs, fun t => (n - 1) * sub64 t mn % W / sub64 mx mn, by unfold histogram; rw [hs, if_neg (by omega)]; exact h1, h2, ?_, ?_, ?_⟩
    · intro t ht
      simp only
      rw [hs, sub64_le (hx t ht).1 (by have := (hx t ht).2; omega)]
      have a1 : (n - 1) * (t - mn) % W ≤ (n - 1) * (mx - mn) := (Nat.mod_le _ _).trans (Nat.mul_le_mul_left _ (by have := (hx t ht).2; omega))
      have a2 : (n - 1) * (t - mn) % W / (mx - mn) ≤ n - 1 := Nat.div_le_of_le_mul (by rw [mul_comm (mx - mn)]; exact a1)
      omega
    · intro hov t ht
      simp only
      rw [hs, sub64_le (hx t ht).1 (by have := (hx t ht).2; omega)]
      unfold part
      rw [Nat.mod_eq_of_lt]
      exact lt_of_le_of_lt (Nat.mul_le_mul_left _ (by have := (hx t ht).2; omega)) hov
    · intro j hj
      rw [h3 j hj, List.getD_eq_getElem?_getD, List.getElem?_replicate, if_pos hj, Option.getD_some, zero_add]

/-! ### The graph -/

theorem fold_biggest (bs : List ℕ) (js : List ℕ) (b : ℕ) :
    (∀ j ∈ js, bs.getD j 0 ≤ js.foldl (fun b j => max b (bs.getD j 0)) b) ∧ b ≤ js.foldl (fun b j => max b (bs.getD j 0)) b ∧
      (js.foldl (fun b j => max b (bs.getD j 0)) b = b ∨ ∃ j ∈ js, bs.getD j 0 = js.foldl (fun b j => max b (bs.getD j 0)) b) := by
  induction js generalizing b with
  | nil => simp
  | cons j js ih =>
    obtain ⟨h1, h2, h3⟩ := ih (max b (bs.getD j 0))
    rw [List.foldl_cons]
    refine ⟨?_, (le_max_left _ _).trans h2, ?_⟩
    · intro i hi
      rcases List.mem_cons.mp hi with rfl | hi
      · exact (le_max_right _ _).trans h2
      · exact h1 i hi
    · rcases h3 with h3 | ⟨i, hi, h3⟩
      · rcases max_choice b (bs.getD j 0) with e | e
        · exact .inl (h3.trans e)
        · exact .inr ⟨j, List.mem_cons_self, by rw [h3, e]⟩
      · exact .inr ⟨i, List.mem_cons_of_mem _ hi, h3⟩

theorem biggest_spec (bs : List ℕ) (width : ℕ) :
    (∀ j, 1 ≤ j → j < width → bs.getD j 0 ≤ biggest bs width) ∧
      (biggest bs width = 0 ∨ ∃ j, 1 ≤ j ∧ j < width ∧ bs.getD j 0 = biggest bs width) := by
  obtain ⟨h1, -, h3⟩ := fold_biggest bs (List.range' 1 (width - 1)) 0
  refine ⟨fun j hj hw => h1 j (by rw [List.mem_range'_1]; omega), ?_⟩
  rcases h3 with h3 | ⟨j, hj, h3⟩
  · exact .inl h3
  · rw [List.mem_range'_1] at hj
    exact .inr ⟨j, by omega, by omega, h3⟩

theorem graph_cell {bs : List ℕ} {width height : ℕ} (hov : (height - 1) * biggest bs width < 4294967296) {i j : ℕ} (hi : i < height) (hj : j < width) :
    ∃ row, (graph bs width height)[i]? = some row ∧ row.length = width ∧
      row[j]? = some (decide ((height - 1 - i) * biggest bs width < height * bs.getD j 0)) := by
  refine ⟨graphRow bs width height i, by unfold graph; simp [hi], by simp [graphRow], ?_⟩
  unfold graphRow
  rw [List.getElem?_map, List.getElem?_range hj]
  have e : height - i - 1 = height - 1 - i := by omega
  have h1 : (height - 1 - i) * biggest bs width ≤ (height - 1) * biggest bs width := Nat.mul_le_mul_right _ (by omega)
  simp only [Option.map_some, e]
  rw [Nat.mod_eq_of_lt (by omega)]
  congr 1
  rw [decide_eq_decide, Nat.div_lt_iff_lt_mul (by omega), mul_comm (bs.getD j 0)]

/-! ### Programs -/

/-- What is known after some actions. -/
structure Inv (s : State) (acts : List Act) : Prop where
  names : s.times.map Prod.fst = names acts
  samples : ∀ id q, s.times[id]? = some q → q.2 = (durations id acts.reverse).map (· % W)
  none : ∀ id, s.times.length ≤ id → durations id acts.reverse = []
  live : ∀ k id t, s.live.lookup k = some (id, t) → ∃ d, age k acts.reverse = some (id, d) ∧ d ≤ s.now ∧ t = (s.now - d) % W

theorem lookup_filter_ne {l : List (ℕ × ℕ × ℕ)} {k k' : ℕ} {p : ℕ × ℕ} (h : (l.filter fun q => q.1 != k).lookup k' = some p) : l.lookup k' = some p := by
  induction l with
  | nil => simp at h
  | cons a l ih =>
    rw [List.filter_cons] at h
    obtain ⟨a1, a2⟩ := a
    by_cases hk : a1 = k
    · subst hk
      simp only [bne_self_eq_false, Bool.false_eq_true, if_false] at h
      rw [List.lookup_cons]
      split
      · rename_i hb
        rw [beq_iff_eq] at hb
        subst hb
        exfalso
        have : ∀ l : List (ℕ × ℕ × ℕ), (l.filter fun q => q.1 != k').lookup k' = none := by
          intro l
          induction l with
          | nil => rfl
          | cons b l ih' =>
            rw [List.filter_cons]
            split
            · rename_i hb
              rw [List.lookup_cons]
              have : (k' == b.1) = false := beq_eq_false_iff_ne.mpr (Ne.symm (bne_iff_ne.mp hb))
              rw [this]
              exact ih'
            · exact ih'
        rw [this] at h
        cases h
      · exact ih h
    · have : (a1 != k) = true := by simpa using hk
      simp only [this, if_true, List.lookup_cons] at h ⊢
      split at h
      · exact h
      · exact ih h

theorem step_inv {s s' : State} {acts : List Act} (hi : Inv s acts) {a : Act} (h : step s a = some s') : Inv s' (acts ++ [a]) := by
  have hr : (acts ++ [a]).reverse = a :: acts.reverse := by simp
  have hn : Bench.names (acts ++ [a]) = Bench.names acts ++ Bench.names [a] := by unfold Bench.names; rw [List.filterMap_append]
  match a with
  | .register name =>
    simp only [step, Option.some.injEq] at h
    subst h
    refine ⟨by rw [hn, List.map_append, hi.names]; rfl, ?_, ?_, ?_⟩
    · intro id q hq
      rw [hr]
      simp only at hq
      rw [List.getElem?_append] at hq
      split at hq
      · exact hi.samples id q hq
      · rw [List.getElem?_singleton] at hq
        split at hq
        · cases hq
          simp only [durations, hi.none id (by omega), List.map_nil]
        · cases hq
    · intro id hid
      rw [hr]
      simp only [List.length_append, List.length_singleton] at hid
      exact hi.none id (by omega)
    · intro k id t hk
      rw [hr]
      exact hi.live k id t hk
  | .clear =>
    simp only [step, Option.some.injEq] at h
    subst h
    refine ⟨by rw [hn, List.map_map]; simpa [Bench.names, Function.comp_def] using hi.names, ?_, ?_, ?_⟩
    · intro id q hq
      rw [hr]
      simp only [List.getElem?_map, Option.map_eq_some_iff] at hq
      obtain ⟨q0, -, rfl⟩ := hq
      rfl
    · intro id _
      rw [hr]
      rfl
    · intro k id t hk
      rw [hr]
      exact hi.live k id t hk
  | .construct k id =>
    simp only [step] at h
    split at h
    · cases h
      refine ⟨by rw [hn]; simpa [Bench.names] using hi.names, fun id q hq => by rw [hr]; exact hi.samples id q hq,
        fun id hid => by rw [hr]; exact hi.none id hid, ?_⟩
      intro k' id' t hk
      rw [hr]
      simp only [List.lookup_cons] at hk
      split at hk
      · rename_i hb
        rw [beq_iff_eq] at hb
        cases hk
        exact ⟨0, by simp [age, hb], Nat.zero_le _, rfl⟩
      · rename_i hb
        have hne : ¬ k = k' := by intro e; rw [e] at hb; simp at hb
        obtain ⟨d, d1, d2⟩ := hi.live k' id' t hk
        exact ⟨d, by simp only [age, if_neg hne]; exact d1, d2⟩
    · cases h
  | .destroy k =>
    simp only [step, Option.bind_eq_some_iff] at h
    obtain ⟨p, hp, h⟩ := h
    split at h
    · rename_i hlen
      cases h
      obtain ⟨d, d1, d2, d3⟩ := hi.live k p.1 p.2 hp
      have e : sub64 (s.now % W) p.2 = d % W := by
        rw [d3, sub64_mod (Nat.sub_le _ _)]
        congr 1
        omega
      have hdur : ∀ id, durations id (acts ++ [Act.destroy k]).reverse =
          if p.1 = id then durations id acts.reverse ++ [d] else durations id acts.reverse := by
        intro id
        rw [hr]
        simp only [durations, d1]
      refine ⟨?_, ?_, ?_, ?_⟩
      · rw [hn]
        have : (s.times.modify p.1 fun q => (q.1, q.2 ++ [sub64 (s.now % W) p.2])).map Prod.fst = s.times.map Prod.fst := by
          apply List.ext_getElem?
          intro i
          rw [List.getElem?_map, List.getElem?_map, List.getElem?_modify]
          cases s.times[i]? with
          | none => rfl
          | some q => simp only [Option.map_eq_map, Option.map_some]; split <;> rfl
        simpa [Bench.names, this] using hi.names
      · intro id q hq
        rw [hdur]
        simp only [List.getElem?_modify, Option.map_eq_map, Option.map_eq_some_iff] at hq
        obtain ⟨q0, h0, rfl⟩ := hq
        have := hi.samples id q0 h0
        split
        · rw [List.map_append, ← this, e]
          rfl
        · exact this
      · intro id hid
        simp only [List.length_modify] at hid
        rw [hdur, if_neg (by omega)]
        exact hi.none id hid
      · intro k' id' t hk
        rw [hr]
        exact hi.live k' id' t (lookup_filter_ne hk)
    · cases h
  | .tick n =>
    simp only [step, Option.some.injEq] at h
    subst h
    refine ⟨by rw [hn]; simpa [Bench.names] using hi.names, fun id q hq => by rw [hr]; exact hi.samples id q hq,
        fun id hid => by rw [hr]; exact hi.none id hid, ?_⟩
    intro k id t hk
    rw [hr]
    obtain ⟨d, d1, d2, d3⟩ := hi.live k id t hk
    refine ⟨d + n, by simp [age, d1], ?_, ?_⟩
    · simp only; omega
    · rw [d3]
      congr 1
      simp only
      omega

theorem run_inv {t : ℕ} (acts : List Act) : ∀ {s : State}, run t acts = some s → Inv s acts := by
  induction acts using List.reverseRecOn with
  | nil =>
    intro s h
    simp only [run, List.foldlM_nil] at h
    cases h
    exact ⟨rfl, by simp, fun _ _ => rfl, by simp⟩
  | append_singleton acts a ih =>
    intro s h
    unfold run at h ih
    rw [List.foldlM_append] at h
    obtain ⟨s0, h0, h1⟩ := Option.bind_eq_some_iff.mp h
    simp only [List.foldlM_cons, List.foldlM_nil, Option.bind_eq_bind] at h1
    obtain ⟨s1, h1, h2⟩ := Option.bind_eq_some_iff.mp h1
    cases h2
    exact step_inv (ih h0) h1

/-! ### C112 -/

/-- C112: the analyser of each id has the name that was registered with it, and its samples are the times for which the `Benchmark` objects with this
id existed (modulo 2^64 ticks), in the order in which they ended, since the last `ClearBenchmarks`. Objects may be nested or overlap. -/
theorem C112_samples {t : ℕ} {acts : List Act} {s : State} (h : run t acts = some s) :
    s.times.map Prod.fst = names acts ∧ ∀ id q, s.times[id]? = some q → q.2 = (durations id acts.reverse).map (· % W) :=
  ⟨(run_inv acts h).names, (run_inv acts h).samples⟩

/-- How many samples are in a part of the range. -/
def inPart (xs : List ℕ) (mn mx n j : ℕ) : ℕ := xs.countP fun t => decide (part mn mx n t = j)

/-- C112: what is reported of samples. Least and greatest sample are reported; the average is the mean, rounded, if the sum fits in 64 bits; the
standard deviation is off by less than one and a half ticks, if the sum of squares fits; and the column `j` of the graph is a bar of the height that
the number of samples in the part `j` of the range has in proportion to the greatest number in all parts but the first. -/
theorem C112_report (name : String) {xs : List ℕ} (hx : xs ≠ []) (hw : ∀ x ∈ xs, x < W) {width : ℕ} (hwid : 0 < width) (height : ℕ) :
    ∃ r, statistics name xs width height = some r ∧ r.name = name ∧
      (r.min ∈ xs ∧ r.max ∈ xs ∧ ∀ x ∈ xs, r.min ≤ x ∧ x ≤ r.max) ∧
      (xs.sum + xs.length / 2 < W → (r.average : ℤ) = ⌊mean xs + 1 / 2⌋) ∧
      (xs.sum + xs.length / 2 < W → (xs.map fun x : ℕ => ((x : ℤ) - r.average).natAbs ^ 2).sum + xs.length / 2 < W →
        |(r.deviation : ℝ) - √(variance xs)| ≤ 7 / 5) ∧
      r.graph.length = height ∧
      (xs.length < 65536 → (width - 1) * (r.max - r.min) < W → (height - 1) * xs.length < 4294967296 → ∃ top,
        (∀ j, 1 ≤ j → j < width → inPart xs r.min r.max width j ≤ top) ∧
        (top = 0 ∨ ∃ j, 1 ≤ j ∧ j < width ∧ inPart xs r.min r.max width j = top) ∧
        ∀ i < height, ∃ row, r.graph[i]? = some row ∧ row.length = width ∧
          ∀ j < width, row[j]? = some (decide ((height - 1 - i) * top < height * inPart xs r.min r.max width j))) := by
  obtain ⟨m1, m2, m3⟩ := minMax_spec hx hw
  have hlen : 0 < xs.length := List.length_pos_iff.mpr hx
  have hn' : (0 : ℝ) < xs.length := by exact_mod_cast hlen
  obtain ⟨bs, f, b1, b2, b3, b4, b5⟩ := histogram_counts (xs := xs) (hw _ m2) m3 ((m3 _ m1).2) hwid
  have hav : average xs = some ((sum64 xs + xs.length / 2) % W / xs.length) := by unfold average; rw [if_neg (by omega)]
  have hdev : ∀ a, standardDeviation xs a = some ⌊√(((devSum a xs + xs.length / 2) % W / xs.length : ℕ) : ℝ) + 1 / 2⌋₊ := by
    intro a; unfold standardDeviation; rw [if_neg (by omega)]
  refine ⟨_, by unfold statistics; rw [hav, Option.bind_some, hdev, Option.bind_some, b1, Option.map_some], rfl, ⟨m1, m2, m3⟩, ?_, ?_, by simp [graph], ?_⟩
  · intro hs
    show (((sum64 xs + xs.length / 2) % W / xs.length : ℕ) : ℤ) = _
    rw [sum64_eq, Nat.mod_eq_of_lt (show xs.sum < W by omega), Nat.mod_eq_of_lt hs]
    obtain ⟨h1, h2⟩ := round_div xs.sum hlen
    symm
    rw [Int.floor_eq_iff]
    unfold mean
    rw [← cast_sum]
    exact ⟨by exact_mod_cast h1, by exact_mod_cast h2⟩
  · simp only
    rw [sum64_eq]
    intro hs
    rw [Nat.mod_eq_of_lt (show xs.sum < W by omega), Nat.mod_eq_of_lt hs]
    obtain ⟨h1, h2⟩ := round_div xs.sum hlen
    have ha : (xs.sum + xs.length / 2) / xs.length ≤ W := (Nat.div_le_self _ _).trans hs.le
    generalize (xs.sum + xs.length / 2) / xs.length = a at h1 h2 ha ⊢
    intro hq
    rw [devSum_eq a ha xs (by omega), Nat.mod_eq_of_lt hq]
    obtain ⟨g1, g2⟩ := round_div (xs.map fun x : ℕ => ((x : ℤ) - a).natAbs ^ 2).sum hlen
    rw [cast_squares, squares_shift xs a (mean xs)] at g1 g2
    have hz : (xs.map fun x : ℕ => (x : ℝ)).sum - mean xs * xs.length = 0 := by unfold mean; field_simp; ring
    rw [hz, mul_zero, add_zero, add_div, mul_div_cancel_left₀ _ hn'.ne'] at g1 g2
    change _ ≤ variance xs + _ + _ at g1
    change variance xs + _ + _ < _ at g2
    rw [cast_sum] at h1 h2
    change _ ≤ mean xs + _ at h1
    change mean xs + _ < _ at h2
    have hv : 0 ≤ variance xs := by
      unfold variance
      exact div_nonneg (List.sum_nonneg (by intro y hy; obtain ⟨x, -, rfl⟩ := List.mem_map.mp hy; positivity)) hn'.le
    generalize hd : ((xs.map fun x : ℕ => ((x : ℤ) - a).natAbs ^ 2).sum + xs.length / 2) / xs.length = d at g1 g2
    have hm : (mean xs - a) ^ 2 ≤ 1 / 4 := by nlinarith
    have hm0 : 0 ≤ (mean xs - a) ^ 2 := sq_nonneg _
    have p1 := Real.sq_sqrt (show (0 : ℝ) ≤ d by positivity)
    have p2 := Real.sq_sqrt hv
    have p3 := Real.sqrt_nonneg (d : ℝ)
    have p4 := Real.sqrt_nonneg (variance xs)
    have q1 := Nat.floor_le (show 0 ≤ √(d : ℝ) + 1 / 2 by positivity)
    have q2 := Nat.lt_floor_add_one (√(d : ℝ) + 1 / 2)
    have key : |√(d : ℝ) - √(variance xs)| ≤ 9 / 10 := by
      rw [abs_le]
      constructor
      · by_contra hc
        push Not at hc
        nlinarith
      · by_contra hc
        push Not at hc
        nlinarith
    rw [abs_le] at key ⊢
    constructor <;> linarith
  · simp only
    intro hl hov hg
    have hcnt : ∀ j < width, bs.getD j 0 = inPart xs (minMax xs).1 (minMax xs).2 width j := by
      intro j hj
      rw [b5 j hj]
      have : (xs.countP fun t => decide (f t = j)) = inPart xs (minMax xs).1 (minMax xs).2 width j := by
        unfold inPart
        apply List.countP_congr
        intro t ht
        rw [b4 hov t ht]
      rw [this, Nat.mod_eq_of_lt]
      exact lt_of_le_of_lt List.countP_le_length hl
    obtain ⟨t1, t2⟩ := biggest_spec bs width
    have hbig : biggest bs width ≤ xs.length := by
      rcases t2 with t2 | ⟨j, j1, j2, t2⟩
      · omega
      · rw [← t2, hcnt j j2]; exact List.countP_le_length
    refine ⟨biggest bs width, fun j j1 j2 => hcnt j j2 ▸ t1 j j1 j2, ?_, ?_⟩
    · rcases t2 with t2 | ⟨j, j1, j2, t2⟩
      · exact .inl t2
      · exact .inr ⟨j, j1, j2, hcnt j j2 ▸ t2⟩
    · intro i hi
      have hov' : (height - 1) * biggest bs width < 4294967296 := lt_of_le_of_lt (Nat.mul_le_mul_left _ hbig) hg
      obtain ⟨row, r1, r2, -⟩ := graph_cell hov' hi hwid
      refine ⟨row, r1, r2, fun j hj => ?_⟩
      obtain ⟨row', r3, -, r4⟩ := graph_cell hov' hi hj
      rw [r1] at r3
      cases r3
      rw [r4, hcnt j hj]

/-- C112: `OutputBenchmarks` always succeeds, and reports on each id that has samples, in the order of registration, with the name of the id and its
samples. -/
theorem C112_output {t : ℕ} {acts : List Act} {s : State} (h : run t acts = some s) : ∃ rs, output s = some rs ∧
    List.Forall₂ (fun p r => statistics p.1 p.2 80 10 = some r) (((names acts).mapIdx fun id n => (n, (durations id acts.reverse).map (· % W))).filter
      fun p => decide (p.2 ≠ [])) rs := by
  obtain ⟨h1, h2⟩ := C112_samples h
  have e : (names acts).mapIdx (fun id n => (n, (durations id acts.reverse).map (· % W))) = s.times := by
    apply List.ext_getElem?
    intro i
    rw [List.getElem?_mapIdx, ← h1, List.getElem?_map]
    cases hq : s.times[i]? with
    | none => rfl
    | some q => simp only [Option.map_some, ← h2 i q hq]
  have e2 : (s.times.filter fun p => decide (p.2 ≠ [])) = s.times.filter fun p => decide (0 < p.2.length) := by
    congr 1
    funext p
    rw [decide_eq_decide, List.length_pos_iff]
  rw [e, e2]
  unfold output
  have hall : ∀ p ∈ s.times.filter (fun p => decide (0 < p.2.length)), ∃ r, statistics p.1 p.2 80 10 = some r := by
    intro p hp
    obtain ⟨p1, p2⟩ := List.mem_filter.mp hp
    obtain ⟨i, hi⟩ := List.mem_iff_getElem?.mp p1
    obtain ⟨r, hr, -⟩ := C112_report p.1 (xs := p.2) (List.length_pos_iff.mp (by simpa using p2)) (by
      intro x hx
      rw [h2 i p hi] at hx
      obtain ⟨y, -, rfl⟩ := List.mem_map.mp hx
      exact Nat.mod_lt _ W_pos) (width := 80) (by norm_num) 10
    exact ⟨r, hr⟩
  generalize s.times.filter (fun p => decide (0 < p.2.length)) = l at hall ⊢
  induction l with
  | nil => exact ⟨[], rfl, .nil⟩
  | cons p l ih =>
    obtain ⟨r, hr⟩ := hall p List.mem_cons_self
    obtain ⟨rs, h1, h2⟩ := ih fun q hq => hall q (List.mem_cons_of_mem _ hq)
    refine ⟨r :: rs, ?_, .cons hr h2⟩
    rw [List.mapM_cons, hr]
    simp only [Option.bind_eq_bind, Option.bind_some, h1]
    rfl

/-- C112 does not hold without the bound on the sum: the average of two samples of 2^63 ticks is reported as 0. -/
theorem C112_average_overflow : ∃ xs : List ℕ, (∀ x ∈ xs, x < W) ∧ ∃ a, average xs = some a ∧ ∀ x ∈ xs, a < x :=
  ⟨[9223372036854775808, 9223372036854775808], by decide, 0, by decide, by decide⟩

/-- C112 does not hold without the bound on the number of samples: the graph of 65536 samples that are all the same is blank. -/
theorem C112_counters_overflow (name : String) {x : ℕ} (hx : x < W) {width : ℕ} (hwid : 0 < width) (height : ℕ) :
    ∃ r, statistics name (List.replicate 65536 x) width height = some r ∧ ∀ row ∈ r.graph, ∀ c ∈ row, c = false := by
  have hne : List.replicate 65536 x ≠ [] := by
    intro h
    have := congrArg List.length h
    rw [List.length_replicate] at this
    cases this
  have hmem : ∀ y ∈ List.replicate 65536 x, y = x := fun y hy => (List.mem_replicate.mp hy).2
  obtain ⟨m1, m2, -⟩ := minMax_spec hne (by intro y hy; rw [hmem y hy]; exact hx)
  have e1 := hmem _ m1
  have e2 := hmem _ m2
  have hl : (List.replicate 65536 x).length = 65536 := List.length_replicate
  refine ⟨_, by
    unfold statistics average standardDeviation histogram
    rw [hl, if_neg (by norm_num), Option.bind_some, if_neg (by norm_num), Option.bind_some, e1, e2, sub64_le le_rfl hx, Nat.sub_self, if_pos rfl,
      if_pos hwid, Option.map_some], ?_⟩
  simp only
  intro row hrow c hc
  have hz : ∀ j, ((List.replicate width 0).set 0 (65536 % 65536)).getD j 0 = 0 := by
    intro j
    rw [List.getD_eq_getElem?_getD, List.getElem?_set]
    split
    · split <;> simp
    · rw [List.getElem?_replicate]
      split <;> rfl
  obtain ⟨i, -, rfl⟩ := List.mem_map.mp hrow
  obtain ⟨j, -, rfl⟩ := List.mem_map.mp hc
  rw [hz]
  simp

/-- The first part is not looked at when the graph is scaled: if all samples but one are the same, and the other one is longer, its bar is as high as
that of all others together. -/
theorem C112_first_bar (name : String) (n : ℕ) (hn : 0 < n) (hn' : n < 65535) :
    ∃ r, statistics name (List.replicate n 0 ++ [1]) 80 10 = some r ∧
      ∀ i < 10, ∃ row, r.graph[i]? = some row ∧ row[0]? = some true ∧ row[79]? = some true := by
  obtain ⟨r, h1, -, ⟨h2, h2', h3⟩, -, -, -, h4⟩ := C112_report name (xs := List.replicate n 0 ++ [1]) (by simp) (by
    intro x hx
    rcases List.mem_append.mp hx with hx | hx
    · rw [(List.mem_replicate.mp hx).2]; exact W_pos
    · rw [List.mem_singleton.mp hx]; decide) (width := 80) (by norm_num) 10
  have hmin : r.min = 0 := by
    have := (h3 0 (List.mem_append_left _ (List.mem_replicate.mpr ⟨by omega, rfl⟩))).1
    omega
  have hmax : r.max = 1 := by
    have h5 := (h3 1 (List.mem_append_right _ (List.mem_singleton.mpr rfl))).2
    rcases List.mem_append.mp h2' with hx | hx
    · have := (List.mem_replicate.mp hx).2; omega
    · exact List.mem_singleton.mp hx
  rw [hmin, hmax] at h4
  have hp : ∀ j, inPart (List.replicate n 0 ++ [1]) 0 1 80 j = (if j = 0 then n else 0) + (if j = 79 then 1 else 0) := by
    intro j
    unfold inPart part
    rw [List.countP_append, List.countP_replicate, List.countP_singleton]
    simp [eq_comm]
  obtain ⟨top, t1, t2, t3⟩ := h4 (by simp; omega) (by decide) (by simp; omega)
  have htop : top = 1 := by
    have a1 := t1 79 (by norm_num) (by norm_num)
    rw [hp] at a1
    simp at a1
    rcases t2 with t2 | ⟨j, j1, j2, t2⟩
    · omega
    · rw [hp, if_neg (by omega)] at t2
      split at t2 <;> omega
  refine ⟨r, h1, fun i hi => ?_⟩
  obtain ⟨row, r1, -, r2⟩ := t3 i hi
  refine ⟨row, r1, ?_, ?_⟩
  · rw [r2 0 (by norm_num), hp, htop]
    simp
    omega
  · rw [r2 79 (by norm_num), hp, htop]
    simp
    omega

/-! ### Examples -/

/-- A program with nested objects of two ids. -/
def nested : List Act := [.register "outer", .register "inner", .construct 0 0, .tick 3, .construct 1 1, .tick 4, .destroy 1, .tick 5, .construct 1 1, .tick 6,
  .destroy 1, .destroy 0]

/-- The objects of "inner" took 4 and 6 ticks, the one of "outer" 18. -/
example : (run 7 nested).map (fun s => s.times) = some [("outer", [18]), ("inner", [4, 6])] := by decide

example : durations 1 nested.reverse = [4, 6] := by decide

/-- The clock wraps around. -/
example : (run 18446744073709551615 nested).map (fun s => s.times) = some [("outer", [18]), ("inner", [4, 6])] := by decide

example : average [4, 6, 6] = some 5 := by decide

example : [4, 6, 6].sum + [4, 6, 6].length / 2 < W ∧ ([4, 6, 6].map fun x : ℕ => ((x : ℤ) - 5).natAbs ^ 2).sum + [4, 6, 6].length / 2 < W ∧
    (80 - 1) * (6 - 4) < W := by decide

example : histogram [4, 6, 6, 5] 4 6 3 = some [1, 1, 2] := by decide

example : graph [1, 1, 2] 3 2 = [[false, false, true], [true, true, true]] := by decide

end

end Motive.Bench
