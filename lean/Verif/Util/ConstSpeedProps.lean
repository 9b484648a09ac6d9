import Verif.Util.ConstSpeed
/-!
# C49: curves of constant speed
-/

namespace Motive.Util

noncomputable section

set_option linter.unusedSectionVars false

variable {E : Type} [NormedAddCommGroup E] [NormedSpace ℝ E]

open Classical in
theorem constSpeedCurve_cons (p q : E) (qs : List E) (totalTime minDist : ℝ) : constSpeedCurve (p :: q :: qs) totalTime minDist =
    if totalDist (p :: q :: qs) = 0 ∨ totalTime = 0 then none
    else match collect (derivative (p :: q :: qs) (wrapsAround (p :: q :: qs) minDist) (totalDist (p :: q :: qs) / totalTime) minDist)
        (p :: q :: qs).length 0 with
      | none => none
      | some ds => some ⟨(0 :: dists p 0 (q :: qs)).map fun d => totalTime / totalDist (p :: q :: qs) * d, ds⟩ := rfl

theorem collect_length {α : Type} (f : ℕ → Option α) (n : ℕ) : ∀ (i : ℕ) (l : List α), collect f n i = some l → l.length = n := by
  induction n with
  | zero => intro i l h; obtain rfl := Option.some.inj h; rfl
  | succ n ih =>
    intro i l h
    unfold collect at h
    cases hf : f i with
    | none => rw [hf] at h; simp at h
    | some d =>
      cases hr : collect f n (i + 1) with
      | none => rw [hf, hr] at h; simp at h
      | some r =>
        rw [hf, hr] at h
        obtain rfl := Option.some.inj h
        simp [ih (i + 1) r hr]

/-! ### Times -/

/-- The length of the path along the first `i` segments. -/
def pathLength (ps : List E) (i : ℕ) : ℝ := ((List.range i).map fun j => ‖ps.getD (j + 1) 0 - ps.getD j 0‖).sum

theorem pathLength_succ (ps : List E) (i : ℕ) : pathLength ps (i + 1) = pathLength ps i + ‖ps.getD (i + 1) 0 - ps.getD i 0‖ := by
  simp [pathLength, List.range_succ]

theorem pathLength_cons (p : E) (ps : List E) (i : ℕ) : pathLength (p :: ps) (i + 1) = ‖ps.getD 0 0 - p‖ + pathLength ps i := by
  simp [pathLength, List.range_succ_eq_map, Function.comp_def]

theorem dists_spec (qs : List E) : ∀ (p : E) (d : ℝ), (dists p d qs).length = qs.length ∧
    ∀ i, i < qs.length → (dists p d qs)[i]? = some (d + pathLength (p :: qs) (i + 1)) := by
  induction qs with
  | nil => intro p d; simp [dists]
  | cons q qs ih =>
    intro p d
    obtain ⟨h1, h2⟩ := ih q (d + ‖q - p‖)
    refine ⟨by simp [dists, h1], ?_⟩
    intro i hi
    cases i with
    | zero => simp [dists, pathLength]
    | succ i =>
      rw [dists, List.getElem?_cons_succ, h2 i (by simpa using hi), pathLength_cons p]
      simp [add_assoc]

theorem totalDist_eq (p q : E) (qs : List E) : totalDist (p :: q :: qs) = pathLength (p :: q :: qs) (qs.length + 1) := by
  obtain ⟨h1, h2⟩ := dists_spec (q :: qs) p 0
  have := h2 qs.length (by simp)
  change (dists p 0 (q :: qs)).getLastD 0 = _
  rw [List.getLastD_eq_getLast?, List.getLast?_eq_getElem?, h1]
  simp only [List.length_cons, Nat.add_sub_cancel]
  rw [this]; simp

theorem pathLength_mono (ps : List E) {i j : ℕ} (h : i ≤ j) : pathLength ps i ≤ pathLength ps j := by
  induction j with
  | zero =>
    obtain rfl : i = 0 := by omega
    exact le_rfl
  | succ j ih =>
    rcases Nat.eq_or_lt_of_le h with rfl | hlt
    · exact le_rfl
    · rw [pathLength_succ]
      have := ih (by omega)
      have := norm_nonneg (ps.getD (j + 1) 0 - ps.getD j 0)
      linarith

/-- **C49** (times). The times start at 0, never decrease, end at the total time, and the time between two positions is proportional to
their distance. -/
theorem C49_times (ps : List E) (hn : 2 ≤ ps.length) (totalTime minDist : ℝ) (ht : 0 < totalTime) (c : Curve E)
    (h : constSpeedCurve ps totalTime minDist = some c) :
    c.times.length = ps.length ∧ c.derivatives.length = ps.length ∧ c.times[0]? = some 0 ∧ c.times[ps.length - 1]? = some totalTime ∧
      (∀ (i j : ℕ) (s t : ℝ), i ≤ j → c.times[i]? = some s → c.times[j]? = some t → s ≤ t) ∧
      ∀ (i : ℕ) (s t : ℝ) (p q : E), c.times[i]? = some s → c.times[i + 1]? = some t → ps[i]? = some p → ps[i + 1]? = some q →
        t - s = totalTime * ‖q - p‖ / pathLength ps (ps.length - 1) := by
  match ps, hn with
  | p0 :: q0 :: qs, _ =>
    rw [constSpeedCurve_cons] at h
    by_cases hz : totalDist (p0 :: q0 :: qs) = 0 ∨ totalTime = 0
    · rw [if_pos hz] at h; simp at h
    rw [if_neg hz] at h
    push Not at hz
    cases hc : collect (derivative (p0 :: q0 :: qs) (wrapsAround (p0 :: q0 :: qs) minDist) (totalDist (p0 :: q0 :: qs) / totalTime) minDist)
        (p0 :: q0 :: qs).length 0 with
    | none => rw [hc] at h; simp at h
    | some ds =>
      rw [hc] at h
      obtain rfl := Option.some.inj h
      obtain ⟨h1, h2⟩ := dists_spec (q0 :: qs) p0 0
      have htot := totalDist_eq p0 q0 qs
      generalize hT : totalDist (p0 :: q0 :: qs) = T at hz htot ⊢
      have hTpos : 0 < T := by
        refine lt_of_le_of_ne ?_ (Ne.symm hz.1)
        rw [htot]
        have := pathLength_mono (p0 :: q0 :: qs) (Nat.zero_le (qs.length + 1))
        simpa [pathLength] using this
      have key : ∀ i, i < (p0 :: q0 :: qs).length →
          ((0 :: dists p0 0 (q0 :: qs)).map fun d => totalTime / T * d)[i]? = some (totalTime / T * pathLength (p0 :: q0 :: qs) i) := by
        intro i hi
        cases i with
        | zero => simp [pathLength]
        | succ i =>
          rw [List.getElem?_map, List.getElem?_cons_succ, h2 i (by simpa using hi)]
          simp
      have kinv : ∀ (i : ℕ) (s : ℝ), ((0 :: dists p0 0 (q0 :: qs)).map fun d => totalTime / T * d)[i]? = some s →
          i < (p0 :: q0 :: qs).length ∧ s = totalTime / T * pathLength (p0 :: q0 :: qs) i := by
        intro i s hs
        have hi : i < (p0 :: q0 :: qs).length := by
          have := (List.getElem?_eq_some_iff.mp hs).1
          simpa [h1] using this
        rw [key i hi] at hs
        exact ⟨hi, (Option.some.inj hs).symm⟩
      have hlast : (p0 :: q0 :: qs).length - 1 = qs.length + 1 := by simp
      refine ⟨by simp [h1], collect_length _ _ _ _ hc, by simp, ?_, ?_, ?_⟩
      · rw [key _ (by simp), hlast, ← htot]
        congr 1
        field_simp
      · intro i j s t hij hs ht'
        obtain ⟨-, rfl⟩ := kinv i s hs
        obtain ⟨-, rfl⟩ := kinv j t ht'
        exact mul_le_mul_of_nonneg_left (pathLength_mono _ hij) (div_nonneg ht.le hTpos.le)
      · intro i s t p q hs ht' hp hq
        obtain ⟨-, rfl⟩ := kinv i s hs
        obtain ⟨-, rfl⟩ := kinv (i + 1) t ht'
        rw [hlast, ← htot, pathLength_succ, List.getD_eq_getElem?_getD, List.getD_eq_getElem?_getD, hp, hq]
        simp only [Option.getD_some]
        ring

/-! ### The search for neighbours -/

/-- The index after `k` steps from `start`: clamped to the positions, or wrapped around. -/
def stepped (n start delta : ℤ) (wraps : Bool) (k : ℕ) : ℤ := normalizeIdx (start + delta * k) n wraps

theorem stepped_range {n start delta : ℤ} (wraps : Bool) {k : ℕ} (h0 : 0 ≤ start) (h1 : start < n) (hd : delta = 1 ∨ delta = -1)
    (hk : (k : ℤ) ≤ n) : 0 ≤ stepped n start delta wraps k ∧ stepped n start delta wraps k < n := by
  unfold stepped normalizeIdx
  rcases hd with rfl | rfl <;> cases wraps <;> simp only [Bool.false_eq_true, if_false, if_true] <;> split_ifs <;> omega

theorem stepped_succ {n start delta : ℤ} (wraps : Bool) {k : ℕ} (h0 : 0 ≤ start) (h1 : start < n) (hd : delta = 1 ∨ delta = -1)
    (hk : (k : ℤ) < n) : normalizeIdx (stepped n start delta wraps k + delta) n wraps = stepped n start delta wraps (k + 1) := by
  unfold stepped normalizeIdx
  push_cast
  rcases hd with rfl | rfl <;> cases wraps <;> simp only [Bool.false_eq_true, if_false, if_true] <;> split_ifs <;> omega

theorem at?_some {ps : List E} {i : ℤ} (h0 : 0 ≤ i) (h1 : i < ps.length) : ∃ p, at? ps i = some p := by
  unfold at?
  rw [if_pos h0]
  exact ⟨_, List.getElem?_eq_getElem (by omega)⟩

/-- The distance of a position from another. -/
def distTo (ps : List E) (i : ℤ) (start : E) : ℝ := ‖(at? ps i).getD start - start‖

theorem findLoop_spec (ps : List E) (wraps : Bool) (start : E) (s delta : ℤ) (minDist : ℝ) (stop : ℤ) (h0 : 0 ≤ s) (h1 : s < ps.length)
    (hd : delta = 1 ∨ delta = -1) (T : ℕ) (hT : (T : ℤ) ≤ ps.length) (hstop : stepped ps.length s delta wraps T = stop) (m : ℕ) :
    ∀ k : ℕ, T - k = m → k ≤ T →
    ∃ k', k ≤ k' ∧ k' ≤ T ∧ findLoop ps wraps start delta minDist stop (stepped ps.length s delta wraps k) = some (stepped ps.length s delta wraps k') ∧
      (∀ j, k ≤ j → j < k' → stepped ps.length s delta wraps j ≠ stop ∧ distTo ps (stepped ps.length s delta wraps j) start < minDist) ∧
      (stepped ps.length s delta wraps k' = stop ∨ minDist ≤ distTo ps (stepped ps.length s delta wraps k') start) := by
  induction m with
  | zero =>
    intro k hk hkT
    obtain rfl : k = T := by omega
    refine ⟨k, le_rfl, le_rfl, ?_, by intro j hj hj'; omega, Or.inl hstop⟩
    unfold findLoop
    rw [if_pos hstop, hstop]
  | succ m ih =>
    intro k hk hkT
    by_cases hs : stepped ps.length s delta wraps k = stop
    · refine ⟨k, le_rfl, hkT, ?_, by intro j hj hj'; omega, Or.inl hs⟩
      unfold findLoop
      rw [if_pos hs, hs]
    · obtain ⟨r0, r1⟩ := stepped_range wraps h0 h1 hd (k := k) (by omega)
      obtain ⟨p, hp⟩ := at?_some r0 r1
      have hdist : distTo ps (stepped ps.length s delta wraps k) start = ‖p - start‖ := by unfold distTo; rw [hp]; rfl
      by_cases hm : ‖p - start‖ ≥ minDist
      · refine ⟨k, le_rfl, hkT, ?_, by intro j hj hj'; omega, Or.inr (by rw [hdist]; exact hm)⟩
        unfold findLoop
        rw [if_neg hs, hp]
        simp only
        rw [if_pos hm]
      · obtain ⟨k', a1, a2, a3, a4, a5⟩ := ih (k + 1) (by omega) (by omega)
        refine ⟨k', by omega, a2, ?_, ?_, a5⟩
        · rw [findLoop, if_neg hs, hp]
          simp only
          rw [if_neg hm, stepped_succ wraps h0 h1 hd (by omega)]
          exact a3
        · intro j hj hj'
          rcases Nat.eq_or_lt_of_le hj with rfl | hlt
          · exact ⟨hs, by rw [hdist]; exact not_le.mp hm⟩
          · exact a4 j hlt hj'

/-- The last index that a search can return: half of the positions away, clamped or wrapped around. -/
def searchEnd (n start delta : ℤ) (wraps : Bool) : ℤ := normalizeIdx (start + delta * (n / 2 - 1)) n wraps

/-- **C49** (neighbours). With four or more positions, or if the positions wrap around, the search for a neighbour terminates. It returns the
first position at least the given distance away, in the order of the steps, or the last position of the search if there is none before it. -/
theorem C49_search (ps : List E) (wraps : Bool) (hn : 4 ≤ ps.length ∨ wraps = true) (i : ℕ) (start : E) (hi : ps[i]? = some start) (delta : ℤ)
    (hd : delta = 1 ∨ delta = -1) (minDist : ℝ) :
    ∃ k : ℕ, findFartherIdx ps wraps i delta minDist = some (stepped ps.length i delta wraps k) ∧ 1 ≤ k ∧ k ≤ ps.length ∧
      (∀ j, 1 ≤ j → j < k → stepped ps.length i delta wraps j ≠ searchEnd ps.length i delta wraps ∧
        distTo ps (stepped ps.length i delta wraps j) start < minDist) ∧
      (stepped ps.length i delta wraps k = searchEnd ps.length i delta wraps ∨ minDist ≤ distTo ps (stepped ps.length i delta wraps k) start) := by
  have hlt : i < ps.length := (List.getElem?_eq_some_iff.mp hi).1
  have hT : ∃ T : ℕ, 1 ≤ T ∧ (T : ℤ) ≤ ps.length ∧ stepped ps.length i delta wraps T = searchEnd ps.length i delta wraps := by
    by_cases h4 : 4 ≤ ps.length
    · refine ⟨ps.length / 2 - 1, by omega, by omega, ?_⟩
      unfold stepped searchEnd
      congr 3
      omega
    · have hw := hn.resolve_left h4
      subst hw
      by_cases h2 : 2 ≤ ps.length
      · refine ⟨ps.length, by omega, le_rfl, ?_⟩
        have hm : (ps.length : ℤ) / 2 - 1 = 0 := by omega
        unfold stepped searchEnd normalizeIdx
        rw [hm]
        rcases hd with rfl | rfl <;> simp only [if_true] <;> split_ifs <;> omega
      · have h1 : ps.length = 1 := by omega
        refine ⟨1, le_rfl, by omega, ?_⟩
        unfold stepped searchEnd normalizeIdx
        rw [h1]
        obtain rfl : i = 0 := by omega
        rcases hd with rfl | rfl <;> norm_num
  obtain ⟨T, t1, t2, t3⟩ := hT
  obtain ⟨k, k1, k2, k3, k4, k5⟩ := findLoop_spec ps wraps start i delta minDist _ (by omega) (by omega) hd T t2 t3 _ 1 rfl t1
  refine ⟨k, ?_, k1, by omega, k4, k5⟩
  have hat : at? ps (i : ℤ) = some start := by unfold at?; rw [if_pos (by omega)]; simpa using hi
  unfold findFartherIdx
  rw [hat]
  simp only
  have h1 : normalizeIdx ((i : ℤ) + delta) ps.length wraps = stepped ps.length i delta wraps 1 := by unfold stepped; simp
  rw [h1]
  exact k3

/-! ### Termination -/

theorem collect_some {α : Type} (f : ℕ → Option α) (n : ℕ) : ∀ i, (∀ j, i ≤ j → j < i + n → (f j).isSome) →
    ∃ l, collect f n i = some l ∧ ∀ j, j < n → f (i + j) = l[j]? := by
  induction n with
  | zero => intro i _; exact ⟨[], rfl, by intro j hj; omega⟩
  | succ n ih =>
    intro i h
    obtain ⟨l, hl, hv⟩ := ih (i + 1) (fun j h1 h2 => h j (by omega) (by omega))
    obtain ⟨d, hd⟩ := Option.isSome_iff_exists.mp (h i le_rfl (by omega))
    refine ⟨d :: l, by rw [collect, hd, hl], ?_⟩
    intro j hj
    cases j with
    | zero => simpa using hd
    | succ j =>
      rw [List.getElem?_cons_succ, ← hv j (by omega)]
      congr 1; omega

theorem collect_get {α : Type} (f : ℕ → Option α) (n : ℕ) : ∀ i l, collect f n i = some l → ∀ j, j < n → f (i + j) = l[j]? := by
  induction n with
  | zero => intro i l _ j hj; omega
  | succ n ih =>
    intro i l h j hj
    unfold collect at h
    cases hf : f i with
    | none => rw [hf] at h; simp at h
    | some d =>
      cases hr : collect f n (i + 1) with
      | none => rw [hf, hr] at h; simp at h
      | some r =>
        rw [hf, hr] at h
        obtain rfl := Option.some.inj h
        cases j with
        | zero => simpa using hf
        | succ j =>
          rw [List.getElem?_cons_succ, ← ih (i + 1) r hr j (by omega)]
          congr 1; omega

theorem derivative_isSome (ps : List E) (wraps : Bool) (speed minDist : ℝ) (i : ℕ)
    (h : ∀ delta : ℤ, delta = 1 ∨ delta = -1 → ∃ r : ℤ, findFartherIdx ps wraps i delta minDist = some r ∧ 0 ≤ r ∧ r < ps.length) :
    (derivative ps wraps speed minDist i).isSome := by
  obtain ⟨a, a1, a2, a3⟩ := h (-1) (Or.inr rfl)
  obtain ⟨b, b1, b2, b3⟩ := h 1 (Or.inl rfl)
  obtain ⟨p, hp⟩ := at?_some a2 a3
  obtain ⟨q, hq⟩ := at?_some b2 b3
  unfold derivative
  rw [a1, b1]
  simp only [hp, hq, Option.isSome_some]

/-- **C49** (termination). The function terminates for every list of positions that is not three positions, provided that the positions are not
all the same. -/
theorem C49_terminates (ps : List E) (hn : ps.length ≠ 3) (totalTime minDist : ℝ) (ht : 0 < totalTime)
    (hp : 2 ≤ ps.length → 0 < pathLength ps (ps.length - 1)) : (constSpeedCurve ps totalTime minDist).isSome := by
  match ps, hn with
  | [], _ => rfl
  | [_], _ => rfl
  | p :: q :: qs, hn =>
    have hpos := hp (by simp)
    have htot := totalDist_eq p q qs
    have hlast : (p :: q :: qs).length - 1 = qs.length + 1 := by simp
    rw [hlast, ← htot] at hpos
    rw [constSpeedCurve_cons]
    rw [if_neg (by push Not; exact ⟨ne_of_gt hpos, ne_of_gt ht⟩)]
    generalize hw : wrapsAround (p :: q :: qs) minDist = wraps
    generalize totalDist (p :: q :: qs) / totalTime = speed
    obtain ⟨l, hl, -⟩ := collect_some (derivative (p :: q :: qs) wraps speed minDist) (p :: q :: qs).length 0 (by
      intro i _ hi
      rw [Nat.zero_add] at hi
      apply derivative_isSome
      intro delta hd
      by_cases h4 : 4 ≤ (p :: q :: qs).length ∨ wraps = true
      · obtain ⟨k, k1, -, k3, -⟩ := C49_search (p :: q :: qs) wraps h4 i _ (List.getElem?_eq_getElem hi) delta hd minDist
        exact ⟨_, k1, stepped_range wraps (by omega) (by omega) hd (by omega)⟩
      · push Not at h4
        obtain ⟨h4, hwf⟩ := h4
        have hwf : wraps = false := by simpa using hwf
        subst hwf
        have hq : qs = [] := by
          rw [← List.length_eq_zero_iff]
          simp only [List.length_cons] at hn h4
          omega
        subst hq
        have hfar : ¬ ‖p - q‖ < minDist := by
          intro hc
          unfold wrapsAround at hw
          simp at hw
          linarith
        have hfar' : ‖q - p‖ ≥ minDist := by rw [norm_sub_rev]; exact not_lt.mp hfar
        have hfar'' : ‖p - q‖ ≥ minDist := not_lt.mp hfar
        simp only [List.length_cons, List.length_nil] at hi
        have h01 : i = 0 ∨ i = 1 := by omega
        rcases h01 with rfl | rfl <;> rcases hd with rfl | rfl
        · refine ⟨1, ?_, by norm_num, by simp⟩
          unfold findFartherIdx
          simp only [at?, normalizeIdx]
          norm_num
          unfold findLoop
          simp [at?, hfar']
        · refine ⟨0, ?_, by norm_num, by simp⟩
          unfold findFartherIdx
          simp only [at?, normalizeIdx]
          norm_num
          unfold findLoop
          simp
        · refine ⟨1, ?_, by norm_num, by simp⟩
          unfold findFartherIdx
          simp only [at?, normalizeIdx]
          norm_num
          unfold findLoop
          simp
        · refine ⟨0, ?_, by norm_num, by simp⟩
          unfold findFartherIdx
          simp only [at?, normalizeIdx]
          norm_num
          unfold findLoop
          simp [at?, hfar''])
    rw [hl]
    rfl

/-! ### Derivatives -/

/-- **C49** (derivatives). Every derivative points from the earlier to the later neighbour that the search finds, and its length is the
constant speed; it is undefined exactly if the two neighbours are at the same place. -/
theorem C49_derivatives (ps : List E) (hn : 2 ≤ ps.length) (totalTime minDist : ℝ) (ht : 0 < totalTime) (c : Curve E)
    (h : constSpeedCurve ps totalTime minDist = some c) (i : ℕ) (hi : i < ps.length) :
    ∃ (prev next : ℤ) (a b : E), findFartherIdx ps (wrapsAround ps minDist) i (-1) minDist = some prev ∧
      findFartherIdx ps (wrapsAround ps minDist) i 1 minDist = some next ∧ at? ps prev = some a ∧ at? ps next = some b ∧
      (a = b → c.derivatives[i]? = some none) ∧
      (a ≠ b → ∃ d, c.derivatives[i]? = some (some d) ∧ ‖d‖ = pathLength ps (ps.length - 1) / totalTime ∧
        ∃ t : ℝ, 0 < t ∧ d = t • (b - a)) := by
  match ps, hn with
  | p0 :: q0 :: qs, _ =>
    rw [constSpeedCurve_cons] at h
    by_cases hz : totalDist (p0 :: q0 :: qs) = 0 ∨ totalTime = 0
    · rw [if_pos hz] at h; simp at h
    rw [if_neg hz] at h
    push Not at hz
    have htot := totalDist_eq p0 q0 qs
    have hlast : (p0 :: q0 :: qs).length - 1 = qs.length + 1 := by simp
    rw [hlast, ← htot]
    have hTpos : 0 < totalDist (p0 :: q0 :: qs) := by
      refine lt_of_le_of_ne ?_ (Ne.symm hz.1)
      rw [htot]
      have := pathLength_mono (p0 :: q0 :: qs) (Nat.zero_le (qs.length + 1))
      simpa [pathLength] using this
    cases hc : collect (derivative (p0 :: q0 :: qs) (wrapsAround (p0 :: q0 :: qs) minDist) (totalDist (p0 :: q0 :: qs) / totalTime) minDist)
        (p0 :: q0 :: qs).length 0 with
    | none => rw [hc] at h; simp at h
    | some ds =>
      rw [hc] at h
      obtain rfl := Option.some.inj h
      have hg := collect_get _ _ 0 ds hc i hi
      rw [Nat.zero_add] at hg
      generalize totalDist (p0 :: q0 :: qs) = T at *
      have hds : ds[i]? ≠ none := by
        intro hnone
        have : ds.length ≤ i := List.getElem?_eq_none_iff.mp hnone
        rw [collect_length _ _ _ _ hc] at this
        omega
      unfold derivative at hg
      cases hp : findFartherIdx (p0 :: q0 :: qs) (wrapsAround (p0 :: q0 :: qs) minDist) i (-1) minDist with
      | none => rw [hp] at hg; exact absurd hg.symm hds
      | some prev =>
        cases hnx : findFartherIdx (p0 :: q0 :: qs) (wrapsAround (p0 :: q0 :: qs) minDist) i 1 minDist with
        | none => rw [hp, hnx] at hg; exact absurd hg.symm hds
        | some next =>
          rw [hp, hnx] at hg
          simp only at hg
          cases ha : at? (p0 :: q0 :: qs) prev with
          | none => rw [ha] at hg; exact absurd hg.symm hds
          | some a =>
            cases hb : at? (p0 :: q0 :: qs) next with
            | none => rw [ha, hb] at hg; exact absurd hg.symm hds
            | some b =>
              rw [ha, hb] at hg
              simp only at hg
              refine ⟨prev, next, a, b, rfl, rfl, ha, hb, ?_, ?_⟩
              · intro hab
                rw [← hg, if_pos (by rw [hab]; simp)]
              · intro hab
                have hne : ‖b - a‖ ≠ 0 := by rw [norm_ne_zero_iff]; exact sub_ne_zero.mpr (Ne.symm hab)
                have hpos : 0 < ‖b - a‖ := lt_of_le_of_ne (norm_nonneg _) (Ne.symm hne)
                rw [if_neg hne] at hg
                refine ⟨_, hg.symm, ?_, T / totalTime * ‖b - a‖⁻¹, by positivity, by rw [mul_smul]⟩
                rw [norm_smul, norm_smul, norm_inv, norm_norm, inv_mul_cancel₀ hne, mul_one, Real.norm_of_nonneg (by positivity)]

/-! ### Disagreements -/

/-- **C49** (disagreement). With three positions that do not wrap around the function does not terminate if the middle position is near the last
one: the search stays at the last position for ever. -/
theorem C49_three_positions (a b c : E) (totalTime minDist : ℝ) (h1 : minDist ≤ ‖a - c‖) (h2 : ‖c - b‖ < minDist) :
    findFartherIdx [a, b, c] (wrapsAround [a, b, c] minDist) 1 1 minDist = none ∧ constSpeedCurve [a, b, c] totalTime minDist = none := by
  have hw : wrapsAround [a, b, c] minDist = false := by
    unfold wrapsAround
    simp [not_lt.mpr h1]
  have key : findFartherIdx [a, b, c] false 1 1 minDist = none := by
    have hloop : ∀ r, findLoop [a, b, c] false b 1 minDist 1 2 = some r → False := by
      intro r hr
      refine findLoop.partial_correctness (E := E) [a, b, c] false b 1 minDist 1 (motive := fun i _ => i = 2 → False) ?_ 2 r hr rfl
      intro F ih i x hx hi
      subst hi
      have hat : at? [a, b, c] 2 = some c := by simp [at?]
      rw [if_neg (by norm_num), hat] at hx
      simp only at hx
      rw [if_neg (not_le.mpr h2)] at hx
      exact ih _ _ hx (by simp [normalizeIdx])
    unfold findFartherIdx
    have h1 : at? [a, b, c] 1 = some b := by simp [at?]
    rw [h1]
    simp only [normalizeIdx]
    norm_num
    cases hf : findLoop [a, b, c] false b 1 minDist 1 2 with
    | none => rfl
    | some r => exact (hloop r hf).elim
  refine ⟨by rw [hw]; exact key, ?_⟩
  rw [constSpeedCurve_cons]
  split_ifs
  · rfl
  · have : collect (derivative [a, b, c] (wrapsAround [a, b, c] minDist) (totalDist [a, b, c] / totalTime) minDist) [a, b, c].length 0 = none := by
      rw [hw]
      have hd : derivative [a, b, c] false (totalDist [a, b, c] / totalTime) minDist 1 = none := by
        unfold derivative
        rw [Nat.cast_one, key]
        cases findFartherIdx [a, b, c] false 1 (-1) minDist <;> rfl
      simp only [List.length_cons, List.length_nil, collect, hd]
      cases derivative [a, b, c] false (totalDist [a, b, c] / totalTime) minDist 0 <;> rfl
    rw [this]

/-- There are such positions, on a line. -/
example : (1 : ℝ) ≤ ‖(0 : ℝ) - 10‖ ∧ ‖(10 : ℝ) - 10‖ < 1 := by norm_num

/-- **C49** (disagreement). A path that turns back has undefined derivatives although all its steps have length: here from 0 to 1, back to 0
and on to 5. -/
theorem C49_turns_back (c : Curve ℝ) (h : constSpeedCurve [(0 : ℝ), 1, 0, 5] 7 (1 / 2) = some c) : c.derivatives[1]? = some none := by
  obtain ⟨prev, next, a, b, h1, h2, h3, h4, h5, -⟩ := C49_derivatives [(0 : ℝ), 1, 0, 5] (by simp) 7 (1 / 2) (by norm_num) c h 1 (by simp)
  have hw : wrapsAround [(0 : ℝ), 1, 0, 5] (1 / 2) = false := by
    unfold wrapsAround
    norm_num
  rw [hw] at h1 h2
  have e1 : findFartherIdx [(0 : ℝ), 1, 0, 5] false (1 : ℕ) (-1) (1 / 2) = some 0 := by
    unfold findFartherIdx
    simp only [at?, normalizeIdx]
    norm_num
    unfold findLoop
    simp
  have e2 : findFartherIdx [(0 : ℝ), 1, 0, 5] false (1 : ℕ) 1 (1 / 2) = some 2 := by
    unfold findFartherIdx
    simp only [at?, normalizeIdx]
    norm_num
    unfold findLoop
    simp
  rw [e1] at h1
  rw [e2] at h2
  obtain rfl := Option.some.inj h1
  obtain rfl := Option.some.inj h2
  apply h5
  simp [at?] at h3 h4
  rw [← h3, ← h4]

/-- The hypotheses of the theorems are met, also by the path that turns back. -/
example : ∃ c, constSpeedCurve [(0 : ℝ), 1, 0, 5] 7 (1 / 2) = some c := by
  refine Option.isSome_iff_exists.mp (C49_terminates _ (by simp) _ _ (by norm_num) ?_)
  intro _
  simp [pathLength, List.range_succ]
  norm_num

end

end Motive.Util
