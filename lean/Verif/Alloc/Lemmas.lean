import Verif.Alloc.Model

/-! Helper lemmas about the allocator model: blocks and tilings of the `counts_` array. -/

namespace Motive.Alloc

/-- `[i, i+n)` is encoded in `c` as one block. -/
def Block (c : List Int) (i n : Nat) : Prop :=
  0 < n ∧ c[i]? = some (n : Int) ∧ ∀ k, 0 < k → k < n → c[i+k]? = some (-(k : Int))

/-- `[a, b)` is tiled by blocks. -/
inductive Tiled (c : List Int) : Nat → Nat → Prop
  | nil (a : Nat) : Tiled c a a
  | cons {a n b : Nat} : Block c a n → Tiled c (a+n) b → Tiled c a b

theorem Block.unique {c : List Int} {i n m : Nat} (h : Block c i n) (h' : Block c i m) : n = m := by
  have := h.2.1; rw [h'.2.1] at this; simp at this; omega

theorem Block.lt_length {c : List Int} {i n : Nat} (h : Block c i n) : i + n ≤ c.length := by
  obtain ⟨h0, h1, h2⟩ := h
  by_cases hn : n = 1
  · have := (List.getElem?_eq_some_iff.mp h1).1; omega
  · have := (List.getElem?_eq_some_iff.mp (h2 (n-1) (by omega) (by omega))).1; omega

/-- Two blocks do not overlap. -/
theorem Block.disjoint {c : List Int} {i n j m : Nat} (h : Block c i n) (h' : Block c j m)
    (hij : i < j) : i + n ≤ j := by
  by_cases hc : j < i + n
  · have h1 := h.2.2 (j - i) (by omega) (by omega)
    rw [show i + (j - i) = j by omega, h'.2.1] at h1
    have := h'.1
    simp at h1; omega
  · omega

theorem Block.congr {c c' : List Int} {i n : Nat} (h : Block c i n)
    (hc : ∀ k, i ≤ k → k < i + n → c'[k]? = c[k]?) : Block c' i n := by
  refine ⟨h.1, ?_, ?_⟩
  · rw [hc i (by omega) (by have := h.1; omega)]; exact h.2.1
  · intro k hk hk'; rw [hc (i+k) (by omega) (by omega)]; exact h.2.2 k hk hk'

theorem Block.shift {c c' : List Int} {i j n : Nat} (h : Block c i n)
    (hc : ∀ k, k < n → c'[j+k]? = c[i+k]?) : Block c' j n := by
  refine ⟨h.1, ?_, ?_⟩
  · have := hc 0 h.1; simp only [Nat.add_zero] at this; rw [this]; exact h.2.1
  · intro k hk hk'; rw [hc k hk']; exact h.2.2 k hk hk'

theorem Tiled.le {c : List Int} {a b : Nat} (h : Tiled c a b) : a ≤ b := by
  induction h with
  | nil => exact Nat.le_refl _
  | cons _ _ ih => omega

theorem Tiled.le_length {c : List Int} {a b : Nat} (h : Tiled c a b) (ha : a ≤ c.length) :
    b ≤ c.length := by
  induction h with
  | nil => exact ha
  | cons hb _ ih => exact ih hb.lt_length

theorem Tiled.single {c : List Int} {i n : Nat} (h : Block c i n) : Tiled c i (i+n) :=
  .cons h (.nil _)

theorem Tiled.single' {c : List Int} {i j : Nat} (h : Block c i (j - i)) : Tiled c i j := by
  have := Tiled.single h
  have h0 := h.1
  rwa [show i + (j - i) = j by omega] at this

theorem Tiled.append {c : List Int} {a b d : Nat} (h : Tiled c a b) (h' : Tiled c b d) :
    Tiled c a d := by
  induction h with
  | nil => exact h'
  | cons hb _ ih => exact .cons hb (ih h')

theorem Tiled.congr {c c' : List Int} {a b : Nat} (h : Tiled c a b)
    (hc : ∀ k, a ≤ k → k < b → c'[k]? = c[k]?) : Tiled c' a b := by
  induction h with
  | nil => exact .nil _
  | cons hb ht ih =>
    have := ht.le
    exact .cons (hb.congr fun k h1 h2 => hc k h1 (by omega))
      (ih fun k h1 h2 => hc k (by omega) h2)

theorem Tiled.shift {c c' : List Int} {a b : Nat} (h : Tiled c a b) : ∀ {a' : Nat},
    (∀ k, k < b - a → c'[a'+k]? = c[a+k]?) → Tiled c' a' (a' + (b - a)) := by
  induction h with
  | nil => intro a' _; simp; exact .nil _
  | @cons a n b hb ht ih =>
    intro a' hc
    have hle := ht.le
    refine .cons (n := n) (hb.shift fun k hk => hc k (by omega)) ?_
    have := @ih (a' + n) (fun k hk => by
      have := hc (n + k) (by omega)
      rwa [show a' + (n + k) = a' + n + k by omega, show a + (n + k) = a + n + k by omega] at this)
    rwa [show a' + n + (b - (a + n)) = a' + (b - a) by omega] at this

/-- A positive entry inside a tiled range starts a block. -/
theorem Tiled.split {c : List Int} {a b i : Nat} {v : Int} (h : Tiled c a b) (ha : a ≤ i) (hb : i < b)
    (hv : c[i]? = some v) (hpos : 0 < v) :
    Tiled c a i ∧ ∃ n : Nat, v = n ∧ Block c i n ∧ Tiled c (i+n) b := by
  induction h with
  | nil => omega
  | @cons a n b hbk ht ih =>
    by_cases hi : i = a
    · subst hi
      refine ⟨.nil _, n, ?_, hbk, ht⟩
      have := hbk.2.1; rw [hv] at this; simpa using this
    · by_cases hin : i < a + n
      · have := hbk.2.2 (i - a) (by omega) (by omega)
        rw [show a + (i - a) = i by omega, hv] at this
        simp at this; omega
      · obtain ⟨h1, h2⟩ := ih (by omega) (by omega)
        exact ⟨.cons hbk h1, h2⟩

theorem Tiled.split_block {c : List Int} {a b i n : Nat} (h : Tiled c a b) (ha : a ≤ i) (hb : i < b)
    (hk : Block c i n) : Tiled c a i ∧ Tiled c (i+n) b := by
  obtain ⟨h1, m, hm, hbm, ht⟩ := h.split ha hb hk.2.1 (by have := hk.1; omega)
  have : n = m := hk.unique hbm
  subst this
  exact ⟨h1, ht⟩

/-- First block of a nonempty tiled range. -/
theorem Tiled.first {c : List Int} {a b : Nat} (h : Tiled c a b) (hab : a < b) :
    ∃ n, Block c a n ∧ Tiled c (a+n) b := by
  cases h with
  | nil => omega
  | cons hb ht => exact ⟨_, hb, ht⟩

/-- Last block of a nonempty tiled range. -/
theorem Tiled.last {c : List Int} {a b : Nat} (h : Tiled c a b) (hab : a < b) :
    ∃ p n, a ≤ p ∧ Tiled c a p ∧ Block c p n ∧ p + n = b := by
  induction h with
  | nil => omega
  | @cons a n b hb ht ih =>
    by_cases hlt : a + n < b
    · obtain ⟨p, m, h1, h2, h3, h4⟩ := ih hlt
      exact ⟨p, m, by omega, .cons hb h2, h3, h4⟩
    · have := ht.le
      exact ⟨a, n, Nat.le_refl _, .nil _, hb, by omega⟩

/-- A block that starts before a tile boundary ends at or before it. -/
theorem Block.le_of_tiled {c : List Int} {i n j : Nat} (h : Block c i n)
    (ht : Tiled c j c.length) (hij : i < j) : i + n ≤ j := by
  by_cases hj : j < c.length
  · obtain ⟨m, hm, _⟩ := ht.first hj
    exact h.disjoint hm hij
  · have := h.lt_length
    omega

/-! ### Primitive operations -/

theorem countFor_block {c : List Int} {i n : Nat} (h : Block c i n) : countFor c i = some n := by
  have h0 := h.1
  simp only [countFor, h.2.1]
  rw [if_pos (by omega)]; simp

theorem countFor_some {c : List Int} {i n : Nat} (h : countFor c i = some n) :
    0 < n ∧ c[i]? = some (n : Int) := by
  unfold countFor at h
  split at h
  · simp at h
  · rename_i v hv
    split at h
    · simp at h; exact ⟨by omega, by rw [hv]; congr 1; omega⟩
    · simp at h

theorem nextIndex_block {c : List Int} {i n : Nat} (h : Block c i n) :
    nextIndex c i = some (i + n) := by
  simp [nextIndex, countFor_block h]

theorem prevIndex_block {c : List Int} {p n e : Nat} (h : Block c p n) (he : p + n = e) :
    prevIndex c e = some p := by
  have hl := h.lt_length
  have h0 := h.1
  unfold prevIndex
  rw [if_pos ⟨by omega, by omega⟩]
  by_cases hn : n = 1
  · subst hn
    have h1 := h.2.1
    rw [show e - 1 = p by omega, h1]
    simp
  · have h1 := h.2.2 (n-1) (by omega) (by omega)
    rw [show e - 1 = p + (n-1) by omega, h1]
    have : ((n - 1 : Nat) : Int) > 0 := by omega
    simp only
    rw [if_pos (Or.inr (Or.inr (by omega))), if_neg (by omega), if_pos (by omega)]
    congr 1; omega

theorem wr_some {l : List Int} {i : Nat} {v : Int} (h : i < l.length) :
    wr l i v = some (l.set i v) := by simp [wr, h]

theorem initFold {index : Nat} : ∀ (m s : Nat) (c : List Int), index + s + m ≤ c.length →
    ∃ c', (List.range' s m).foldlM (fun l i => wr l (index + i) (-(i : Int))) c = some c' ∧
      c'.length = c.length ∧
      (∀ k, s ≤ k → k < s + m → c'[index + k]? = some (-(k : Int))) ∧
      (∀ k, (k < index + s ∨ index + s + m ≤ k) → c'[k]? = c[k]?) := by
  intro m
  induction m with
  | zero => intro s c h; exact ⟨c, by simp, rfl, fun k _ _ => by omega, fun _ _ => rfl⟩
  | succ m ih =>
    intro s c h
    have hlt : index + s < c.length := by omega
    obtain ⟨c', e1, e2, e3, e4⟩ := ih (s+1) (c.set (index+s) (-(s:Int))) (by simp; omega)
    refine ⟨c', ?_, by simpa using e2, ?_, ?_⟩
    · rw [List.range'_succ, List.foldlM_cons]
      simp only [wr_some hlt]
      simpa using e1
    · intro k hk hk'
      by_cases hks : k = s
      · subst hks
        rw [e4 (index + k) (Or.inl (by omega))]
        rw [List.getElem?_set_self (by omega)]
      · exact e3 k (by omega) (by omega)
    · intro k hk
      rw [e4 k (by omega), List.getElem?_set_ne (by omega)]

theorem initializeIndex_spec {c : List Int} {index count : Nat} (h0 : 0 < count)
    (h : index + count ≤ c.length) :
    ∃ c', initializeIndex c index count = some c' ∧ c'.length = c.length ∧ Block c' index count ∧
      ∀ k, (k < index ∨ index + count ≤ k) → c'[k]? = c[k]? := by
  unfold initializeIndex
  have hlt : index < c.length := by omega
  rw [wr_some hlt]
  obtain ⟨c', e1, e2, e3, e4⟩ := initFold (index := index) (count - 1) 1
    (c.set index (count : Int)) (by simp; omega)
  refine ⟨c', e1, by simpa using e2, ⟨h0, ?_, ?_⟩, ?_⟩
  · rw [e4 index (by omega), List.getElem?_set_self (by omega)]
  · intro k hk hk'; exact e3 k (by omega) (by omega)
  · intro k hk
    rw [e4 k (by omega), List.getElem?_set_ne (by omega)]

theorem memmove_spec {c : List Int} {dst src len : Nat} (h1 : src + len ≤ c.length)
    (h2 : dst + len ≤ c.length) :
    ∃ c', memmove c dst src len = some c' ∧ c'.length = c.length ∧
      (∀ k, k < len → c'[dst + k]? = c[src + k]?) ∧
      (∀ k, (k < dst ∨ dst + len ≤ k) → c'[k]? = c[k]?) := by
  refine ⟨_, by simp only [memmove]; rw [if_pos ⟨h1, h2⟩], ?_, ?_, ?_⟩
  · simp; omega
  · intro k hk
    rw [List.append_assoc, List.getElem?_append_right (by simp; omega),
      List.getElem?_append_left (by simp; omega)]
    simp [List.getElem?_take, List.getElem?_drop]
    rw [if_pos (by omega)]; congr 1; omega
  · intro k hk
    rcases hk with hk | hk
    · rw [List.append_assoc, List.getElem?_append_left (by simp; omega)]
      simp [List.getElem?_take, hk]
    · rw [List.getElem?_append_right (by simp; omega)]
      simp [List.getElem?_drop]
      congr 1; omega

theorem verify_tiled {c : List Int} {i : Nat} (h : Tiled c i c.length) : verify c i = true := by
  generalize hb : c.length = b at h
  induction h with
  | nil a => unfold verify; rw [dif_neg (by omega)]
  | @cons a n b hbk ht ih =>
    have := ht.le
    have h0 := hbk.1
    have hlt : a < c.length := by omega
    have hv : c[a] = (n : Int) := by
      have := hbk.2.1; rw [List.getElem?_eq_getElem hlt] at this; simpa using this
    unfold verify
    rw [dif_pos hlt, dif_pos (by omega)]
    have hn : c[a].toNat = n := by omega
    rw [hn, ih hb, Bool.and_true, List.all_eq_true]
    intro j hj
    rw [List.mem_range'_1] at hj
    simp [hbk.2.2 j (by omega) (by omega)]

/-- The converse: the runtime self-check passes only on tiled arrays. -/
theorem tiled_of_verify {c : List Int} (i : Nat) (hi : i ≤ c.length) (h : verify c i = true) :
    Tiled c i c.length := by
  unfold verify at h
  split at h
  · rename_i hlt
    split at h
    · rename_i hpos
      rw [Bool.and_eq_true, List.all_eq_true] at h
      obtain ⟨h1, h2⟩ := h
      have hblk : ∀ k, 0 < k → k < c[i].toNat → c[i+k]? = some (-(k : Int)) := by
        intro k hk hk'
        have := h1 k (by rw [List.mem_range'_1]; omega)
        simpa using this
      have hB : Block c i c[i].toNat := ⟨by omega, by rw [List.getElem?_eq_getElem hlt]; congr 1; omega, hblk⟩
      exact .cons hB (tiled_of_verify _ hB.lt_length h2)
    · simp at h
  · have : i = c.length := by omega
    rw [this]; exact .nil _
termination_by c.length - i

end Motive.Alloc
