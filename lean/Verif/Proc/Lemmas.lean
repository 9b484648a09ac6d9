import Verif.Proc.Model
import Verif.Alloc.ClientLemmas

/-! Compaction as seen by a processor: the two callbacks keep the back-pointers, the motivators and the
slot data consistent. -/

namespace Motive.Proc

open Motive.Alloc

variable {δ : Type}

/-- The representation invariant of processor `p`. -/
structure PInv (p : ProcId) (a : Alloc) (s : PState δ) : Prop where
  inv : Inv a
  blen : s.back.length = a.numIndices
  dlen : s.data.length = a.numIndices
  /-- every block belongs to a motivator that points back at it -/
  own : ∀ i n, Live a i n → ∃ m, s.mots m = some (p, i) ∧ ∀ k, k < n → s.back[i + k]? = some (some m)
  /-- every motivator of this processor points at a block, whose back-pointers name it -/
  ref : ∀ m i, s.mots m = some (p, i) → ∃ n, Live a i n ∧ ∀ k, k < n → s.back[i + k]? = some (some m)
  /-- unallocated slots have no owner -/
  nul : ∀ k, k < a.numIndices → (∀ i n, Live a i n → ¬ (i ≤ k ∧ k < i + n)) → s.back[k]? = some none

theorem setRange_spec {β : Type} {l vs : List β} {i : Nat} (h : i + vs.length ≤ l.length) :
    ∃ l', setRange l i vs = some l' ∧ l'.length = l.length ∧
      (∀ k, k < vs.length → l'[i + k]? = vs[k]?) ∧
      (∀ k, (k < i ∨ i + vs.length ≤ k) → l'[k]? = l[k]?) := by
  refine ⟨l.take i ++ vs ++ l.drop (i + vs.length), by unfold setRange; rw [if_pos h], ?_, ?_, ?_⟩
  · simp; omega
  · intro k hk
    rw [List.append_assoc, List.getElem?_append_right (by simp),
      List.getElem?_append_left (by simp; omega)]
    congr 1; simp; omega
  · intro k hk
    rcases hk with hk | hk
    · rw [List.append_assoc, List.getElem?_append_left (by simp; omega)]
      simp [hk]
    · rw [List.getElem?_append_right (by simp; omega)]
      simp [List.getElem?_drop]
      congr 1; omega

theorem vresize_length {β : Type} (d : β) (n : Nat) (l : List β) : (vresize d n l).length = n := by
  simp [vresize]; omega

theorem vresize_get {β : Type} {d : β} {n : Nat} {l : List β} {k : Nat} (h : k < n)
    (h' : k < l.length) : (vresize d n l)[k]? = l[k]? := by
  unfold vresize
  rw [List.getElem?_append_left (by simp; omega)]
  simp [h]

theorem vresize_new {β : Type} {d : β} {n : Nat} {l : List β} {k : Nat} (h : k < n)
    (h' : l.length ≤ k) : (vresize d n l)[k]? = some d := by
  unfold vresize
  rw [List.getElem?_append_right (by simp; omega)]
  rw [List.getElem?_replicate, if_pos]
  simp; omega

/-- The re-`Init` loop redirects exactly the motivators of the range. -/
theorem reinit_spec {p : ProcId} {a : Alloc} {back : List (Option MotId)} {fs fe t : Nat}
    {mots0 : Mots}
    (hown : ∀ i n, Block a.counts i n → fs ≤ i → i < fe →
      ∃ m, mots0 m = some (p, i) ∧ back[i]? = some (some m))
    (href : ∀ m i, mots0 m = some (p, i) → fs ≤ i → i < fe →
      (∃ n, Block a.counts i n) ∧ back[i]? = some (some m)) :
    ∀ {i : Nat}, Tiled a.counts i fe → fs ≤ i → ∀ mots : Mots,
      ∃ mots', reinit p a back fs fe t i mots = some mots' ∧
        (∀ m j, mots0 m = some (p, j) → i ≤ j → j < fe → mots' m = some (p, j - fs + t)) ∧
        (∀ m, (∀ j, mots0 m = some (p, j) → ¬ (i ≤ j ∧ j < fe)) → mots' m = mots m) := by
  intro i ht
  generalize hfe : fe = e at ht
  induction ht with
  | nil x =>
    intro hi mots
    refine ⟨mots, ?_, ?_, ?_⟩
    · unfold reinit; rw [if_neg (by omega)]
    · intro m j _ h1 h2; omega
    · intro m _; rfl
  | @cons x n b hb ht ih =>
    intro hi mots
    have h0 := hb.1
    have hle := ht.le
    subst hfe
    obtain ⟨m, hm, hbk⟩ := hown x n hb hi (by omega)
    obtain ⟨mots', e1, e2, e3⟩ := ih rfl (by omega) (setMot mots m (some (p, x - fs + t)))
    refine ⟨mots', ?_, ?_, ?_⟩
    · unfold reinit
      rw [if_pos (by omega)]
      simp only [hbk]
      split
      · rename_i hc; rw [countFor_block hb] at hc; simp at hc
      · rename_i n' hc; rw [countFor_block hb] at hc; simp at hc; subst hc; exact e1
    · intro m' j hm' h1 h2
      by_cases hj : x + n ≤ j
      · exact e2 m' j hm' hj h2
      · have hjx : j = x := by
          rcases Nat.lt_or_ge x j with h | h
          · obtain ⟨⟨n', hb'⟩, _⟩ := href m' j hm' (by omega) h2
            have := hb.disjoint hb' h; omega
          · omega
        subst hjx
        have : m' = m := by
          have := (href m' j hm' hi h2).2
          rw [hbk] at this; simp at this; exact this.symm
        subst this
        rw [e3 m']
        · simp [setMot]
        · intro j' hj' hc
          rw [hm] at hj'; simp at hj'; omega
    · intro m' hm'
      have hne : m' ≠ m := by
        rintro rfl
        exact hm' x hm ⟨Nat.le_refl _, by omega⟩
      rw [e3 m' (fun j hj hc => hm' j hj ⟨by omega, hc.2⟩)]
      simp [setMot, hne]


/-- An ascending copy to a lower position is a block move. -/
theorem copyLoop_spec {fs t : Nat} (d : List δ) (hdn : t < fs) :
    ∀ len, fs + len ≤ d.length → ∃ d', copyLoop fs t len d = some d' ∧ d'.length = d.length ∧
      (∀ k, k < len → d'[t + k]? = d[fs + k]?) ∧
      (∀ k, (k < t ∨ t + len ≤ k) → d'[k]? = d[k]?) := by
  intro len
  induction len with
  | zero => intro _; exact ⟨d, rfl, rfl, by intro k hk; omega, fun _ _ => rfl⟩
  | succ len ih =>
    intro hle
    obtain ⟨d', e1, e2, e3, e4⟩ := ih (by omega)
    have hget : d'[fs + len]? = d[fs + len]? := e4 _ (by omega)
    have hlt : fs + len < d.length := by omega
    refine ⟨d'.set (t + len) d[fs + len], ?_, by simp [e2], ?_, ?_⟩
    · unfold copyLoop at e1 ⊢
      rw [List.range_succ, List.foldlM_append, e1]
      simp only [List.foldlM_cons, List.foldlM_nil, Option.bind_eq_bind, Option.bind_some, hget]
      rw [List.getElem?_eq_getElem hlt]
      simp only
      rw [if_pos (by omega)]; rfl
    · intro k hk
      by_cases hkl : k = len
      · subst hkl
        rw [List.getElem?_set_self (by omega), List.getElem?_eq_getElem hlt]
      · rw [List.getElem?_set_ne (by omega)]
        exact e3 k (by omega)
    · intro k hk
      rw [List.getElem?_set_ne (by omega)]
      exact e4 k (by omega)

theorem backLoop_spec {fs t : Nat} (b : List (Option MotId)) (hdn : t < fs) :
    ∀ len, fs + len ≤ b.length → (∀ k, k < len → ∃ m, b[fs + k]? = some (some m)) →
      (∀ k, k < len → t + k < fs → b[t + k]? = some none) →
      ∃ b', backLoop fs t len b = some b' ∧ b'.length = b.length ∧
      (∀ k, k < len → b'[t + k]? = b[fs + k]?) ∧
      (∀ k, fs ≤ k → k < fs + len → t + len ≤ k → b'[k]? = some none) ∧
      (∀ k, (k < t ∨ t + len ≤ k) → (k < fs ∨ fs + len ≤ k) → b'[k]? = b[k]?) := by
  intro len
  induction len with
  | zero =>
    intro _ _ _
    exact ⟨b, rfl, rfl, by intro k hk; omega, by intro k _ _ _; omega, fun _ _ _ => rfl⟩
  | succ len ih =>
    intro hle hsrc hdst
    obtain ⟨b', e1, e2, e3, e4, e5⟩ := ih (by omega) (fun k hk => hsrc k (by omega))
      (fun k hk => hdst k (by omega))
    obtain ⟨m, hm⟩ := hsrc len (by omega)
    have hget : b'[fs + len]? = some (some m) := by rw [e5 _ (by omega) (by omega), hm]
    have hnul : b'[t + len]? = some none := by
      by_cases h : t + len < fs
      · rw [e5 _ (by omega) (by omega)]; exact hdst len (by omega) h
      · exact e4 _ (by omega) (by omega) (by omega)
    refine ⟨(b'.set (t + len) (some m)).set (fs + len) none, ?_, by simp [e2], ?_, ?_, ?_⟩
    · unfold backLoop at e1 ⊢
      rw [List.range_succ, List.foldlM_append, e1]
      simp only [List.foldlM_cons, List.foldlM_nil, hget, hnul, Option.bind_eq_bind,
        Option.bind_some]
      rfl
    · intro k hk
      rw [List.getElem?_set_ne (by omega)]
      by_cases hkl : k = len
      · subst hkl
        rw [List.getElem?_set_self (by omega), hm]
      · rw [List.getElem?_set_ne (by omega)]
        exact e3 k (by omega)
    · intro k h1 h2 h3
      by_cases hk : k = fs + len
      · subst hk
        rw [List.getElem?_set_self (by simp; omega)]
      · rw [List.getElem?_set_ne (by omega), List.getElem?_set_ne (by omega)]
        exact e4 k h1 (by omega) (by omega)
    · intro k h1 h2
      rw [List.getElem?_set_ne (by omega), List.getElem?_set_ne (by omega)]
      exact e5 k (by omega) (by omega)

theorem Live.block_le {a : Alloc} {i n : Nat} (h : Live a i n) : i + n ≤ a.numIndices :=
  h.1.lt_length

theorem Live.start_unique {a : Alloc} {i n j m k : Nat} (h : Live a i n) (h' : Live a j m)
    (h1 : i ≤ k) (h2 : k < i + n) (h3 : j ≤ k) (h4 : k < j + m) : i = j ∧ n = m := by
  have hij : i = j := by
    rcases Nat.lt_trichotomy i j with h5 | h5 | h5
    · have := h.1.disjoint h'.1 h5; omega
    · exact h5
    · have := h'.1.disjoint h.1 h5; omega
  subst hij
  exact ⟨rfl, h.1.unique h'.1⟩

theorem HoleCell.not_live {a : Alloc} {k : Nat} (h : HoleCell a.counts a.unused k) :
    ∀ i n, Live a i n → ¬ (i ≤ k ∧ k < i + n) := by
  rintro i n hl ⟨h1, h2⟩
  obtain ⟨u, m, hu, hb, q1, q2⟩ := h
  have hne : u ≠ i := fun he => hl.2 (he ▸ hu)
  rcases Nat.lt_or_gt_of_ne hne with h5 | h5
  · have := hb.disjoint hl.1 h5; omega
  · have := hl.1.disjoint hb h5; omega

/-- A held block is moved as a whole, or is clear of source and target. -/
theorem MoveSpec.case {a a' : Alloc} {fs fe t : Nat} (hm : MoveSpec a fs fe t a') {i n : Nat}
    (hl : Live a i n) : (fs ≤ i ∧ i + n ≤ fe) ∨
      ((i + n ≤ fs ∨ fe ≤ i) ∧ (i + n ≤ t ∨ t + (fe - fs) ≤ i)) := by
  have hlt := hm.lt
  have hdn := hm.down
  have h0 := hl.1.1
  by_cases h1 : fs ≤ i ∧ i < fe
  · left; exact ⟨h1.1, (hm.src i n hl.1 h1.1 h1.2).2⟩
  · right
    have hs : i + n ≤ fs ∨ fe ≤ i := by
      by_cases h2 : i < fs
      · left
        obtain ⟨m, hb, _⟩ := hm.tiled.first hlt
        exact hl.1.disjoint hb h2
      · right; omega
    refine ⟨hs, ?_⟩
    rcases hs with hs | hs
    · by_cases h3 : i + n ≤ t
      · left; exact h3
      · by_cases h4 : t + (fe - fs) ≤ i
        · right; exact h4
        · exfalso
          exact HoleCell.not_live (hm.dst (max i t) (by omega) (by omega) (by omega)) i n hl
            ⟨by omega, by omega⟩
    · right; omega

/-- Motivator `m` belongs to `p` and its slots contain `l`. -/
def PReads (p : ProcId) (a : Alloc) (s : PState δ) (m : MotId) (l : List δ) : Prop :=
  ∃ i n, s.mots m = some (p, i) ∧ Live a i n ∧ l = (s.data.drop i).take n

/-- What compaction of `p` carries along, relative to the state `(a0, s0)` at its start. -/
structure Carry (p : ProcId) (a0 : Alloc) (s0 : PState δ) (a : Alloc) (s : PState δ) : Prop where
  pinv : PInv p a s
  reads : ∀ m l, PReads p a0 s0 m l → PReads p a s m l
  others : ∀ m, (∀ i, s0.mots m ≠ some (p, i)) → s.mots m = s0.mots m

theorem PInv.congr {p : ProcId} {a a' : Alloc} {s : PState δ} (h : PInv p a s) (hinv' : Inv a')
    (hnum : a'.numIndices = a.numIndices) (hlive : ∀ j m, Live a' j m ↔ Live a j m) :
    PInv p a' s := by
  refine ⟨hinv', by rw [h.blen, hnum], by rw [h.dlen, hnum], ?_, ?_, ?_⟩
  · intro i n hl; exact h.own i n ((hlive i n).mp hl)
  · intro m i hm
    obtain ⟨n, hl, hb⟩ := h.ref m i hm
    exact ⟨n, (hlive i n).mpr hl, hb⟩
  · intro k hk hno
    exact h.nul k (by omega) (fun i n hl => hno i n ((hlive i n).mpr hl))

theorem stable_proc (p : ProcId) (dflt : δ) (a0 : Alloc) (s0 : PState δ) :
    Stable (callbacks p dflt) (Carry p a0 s0) := by
  constructor
  · intro a a' s _ hinv' hnum hlive h
    refine ⟨h.pinv.congr hinv' hnum hlive, ?_, h.others⟩
    intro m l hr
    obtain ⟨i, n, h1, h2, h3⟩ := h.reads m l hr
    exact ⟨i, n, h1, (hlive i n).mpr h2, h3⟩
  · intro a s fs fe t a' hinv hinv' hm h
    have hp := h.pinv
    have hdn := hm.down
    have hlt := hm.lt
    have hle := hm.le
    have hlive_src : ∀ i n, Block a.counts i n → fs ≤ i → i < fe → Live a i n :=
      fun i n hb h1 h2 => ⟨hb, (hm.src i n hb h1 h2).1⟩
    obtain ⟨mots', m1, m2, m3⟩ := reinit_spec (p := p) (a := a) (back := s.back) (fs := fs) (fe := fe)
      (t := t) (mots0 := s.mots)
      (fun i n hb h1 h2 => by
        obtain ⟨m, hm1, hm2⟩ := hp.own i n (hlive_src i n hb h1 h2)
        exact ⟨m, hm1, by simpa using hm2 0 hb.1⟩)
      (fun m i hmi h1 h2 => by
        obtain ⟨n, hl, hb⟩ := hp.ref m i hmi
        exact ⟨⟨n, hl.1⟩, by simpa using hb 0 hl.1.1⟩)
      hm.tiled (Nat.le_refl _) s.mots
    obtain ⟨data', d1, d2, d3, d4⟩ := copyLoop_spec s.data hdn (fe - fs) (by rw [hp.dlen]; omega)
    obtain ⟨back', b1, b2, b3, b4, b5⟩ := backLoop_spec s.back hdn (fe - fs) (by rw [hp.blen]; omega)
      (fun k hk => by
        obtain ⟨i, n, hb, r1, r2, r3, r4⟩ := hm.tiled.cover (k := fs + k) (by omega) (by omega)
        obtain ⟨m, _, hm2⟩ := hp.own i n (hlive_src i n hb r1 (by omega))
        have := hm2 (fs + k - i) (by omega)
        rw [show i + (fs + k - i) = fs + k by omega] at this
        exact ⟨m, this⟩)
      (fun k hk hlt' => hp.nul _ (by omega)
        (HoleCell.not_live (hm.dst _ (by omega) (by omega) hlt')))
    refine ⟨⟨back', data', mots'⟩, ?_, ⟨hinv', ?_, ?_, ?_, ?_, ?_⟩, ?_, ?_⟩
    · simp only [callbacks, m1, d1, b1]
    · simp only [b2, hp.blen, hm.num]
    · simp only [d2, hp.dlen, hm.num]
    · -- own
      intro j n hl
      rcases (hm.live j n).mp hl with ⟨hl', hout⟩ | ⟨i, hl', h1, h2, h3⟩
      · obtain ⟨m, q1, q2⟩ := hp.own j n hl'
        have h0 := hl'.1.1
        refine ⟨m, ?_, ?_⟩
        · simp only
          rw [m3 m]; exact q1
          intro j' hj'; rw [q1] at hj'; simp at hj'; omega
        · intro k hk
          simp only
          rcases MoveSpec.case hm hl' with hc | hc
          · omega
          · rw [b5 _ (by omega) (by omega)]; exact q2 k hk
      · obtain ⟨m, q1, q2⟩ := hp.own i n hl'
        have h0 := hl'.1.1
        refine ⟨m, ?_, ?_⟩
        · simp only
          rw [m2 m i q1 h1 (by omega)]
          congr 2; omega
        · intro k hk
          simp only
          have := b3 (i - fs + k) (by omega)
          rw [show t + (i - fs + k) = j + k by omega,
            show fs + (i - fs + k) = i + k by omega] at this
          rw [this]; exact q2 k hk
    · -- ref
      intro m j hmj
      simp only at hmj
      by_cases hex : ∃ i, s.mots m = some (p, i) ∧ fs ≤ i ∧ i < fe
      · obtain ⟨i, q1, q2, q3⟩ := hex
        rw [m2 m i q1 q2 q3] at hmj
        simp at hmj
        obtain ⟨n, hl, hb⟩ := hp.ref m i q1
        have hend := (hm.src i n hl.1 q2 q3).2
        refine ⟨n, (hm.live j n).mpr (Or.inr ⟨i, hl, q2, hend, by omega⟩), ?_⟩
        intro k hk
        simp only
        have := b3 (i - fs + k) (by omega)
        rw [show t + (i - fs + k) = j + k by omega,
          show fs + (i - fs + k) = i + k by omega] at this
        rw [this]; exact hb k hk
      · rw [m3 m (fun i hi hc => hex ⟨i, hi, hc⟩)] at hmj
        obtain ⟨n, hl, hb⟩ := hp.ref m j hmj
        have h0 := hl.1.1
        rcases MoveSpec.case hm hl with hc | hc
        · exact absurd ⟨j, hmj, hc.1, by omega⟩ hex
        · refine ⟨n, (hm.live j n).mpr (Or.inl ⟨hl, hc.1⟩), ?_⟩
          intro k hk
          simp only
          rw [b5 _ (by omega) (by omega)]; exact hb k hk
    · -- nul
      intro k hk hno
      rw [hm.num] at hk
      simp only
      by_cases hin : t ≤ k ∧ k < t + (fe - fs)
      · exfalso
        obtain ⟨i, n, hb, r1, r2, r3, r4⟩ := hm.tiled.cover (k := fs + (k - t)) (by omega) (by omega)
        have h0 := hb.1
        exact hno (i - fs + t) n ((hm.live _ n).mpr (Or.inr
          ⟨i, hlive_src i n hb r1 (by omega), r1, r2, by omega⟩)) ⟨by omega, by omega⟩
      · by_cases hsrc : fs ≤ k ∧ k < fe
        · exact b4 k hsrc.1 (by omega) (by omega)
        · rw [b5 k (by omega) (by omega)]
          apply hp.nul k hk
          intro i n hl hc
          rcases MoveSpec.case hm hl with h1 | h1
          · omega
          · exact hno i n ((hm.live i n).mpr (Or.inl ⟨hl, h1.1⟩)) hc
    · -- reads
      intro m l hr
      obtain ⟨i, n, q1, q2, q3⟩ := h.reads m l hr
      have h0 := q2.1.1
      rcases MoveSpec.case hm q2 with hc | hc
      · refine ⟨i - fs + t, n, m2 m i q1 hc.1 (by omega),
          (hm.live _ n).mpr (Or.inr ⟨i, q2, hc.1, hc.2, by omega⟩), ?_⟩
        rw [q3]
        symm
        apply slice_ext
        intro k hk
        have := d3 (i - fs + k) (by omega)
        rw [show t + (i - fs + k) = i - fs + t + k by omega,
          show fs + (i - fs + k) = i + k by omega] at this
        exact this
      · refine ⟨i, n, ?_, (hm.live _ n).mpr (Or.inl ⟨q2, hc.1⟩), ?_⟩
        · simp only
          rw [m3 m]; exact q1
          intro j' hj'; rw [q1] at hj'; simp at hj'; omega
        · rw [q3]
          symm
          apply slice_ext
          intro k hk
          exact d4 _ (by omega)
    · -- others
      intro m hm'
      have hs := h.others m hm'
      simp only
      rw [m3 m, hs]
      intro j hj; rw [hs] at hj; exact absurd hj (hm' j)
  · intro a s n a' hinv hinv' hn hnum hlive h
    have hp := h.pinv
    refine ⟨{ s with back := vresize none n s.back, data := vresize dflt n s.data }, rfl,
      ⟨hinv', ?_, ?_, ?_, ?_, ?_⟩, ?_, h.others⟩
    · simp only [vresize_length, hnum]
    · simp only [vresize_length, hnum]
    · intro i m hl
      obtain ⟨mo, q1, q2⟩ := hp.own i m ((hlive i m).mp hl)
      have := Live.block_le hl
      refine ⟨mo, q1, fun k hk => ?_⟩
      simp only
      rw [vresize_get (by omega) (by rw [hp.blen]; omega)]
      exact q2 k hk
    · intro mo i hmo
      obtain ⟨m, hl, hb⟩ := hp.ref mo i hmo
      have hl' := (hlive i m).mpr hl
      have := Live.block_le hl'
      refine ⟨m, hl', fun k hk => ?_⟩
      simp only
      rw [vresize_get (by omega) (by rw [hp.blen]; omega)]
      exact hb k hk
    · intro k hk hno
      simp only
      rw [vresize_get (by omega) (by rw [hp.blen]; omega)]
      exact hp.nul k (by omega) (fun i m hl => hno i m ((hlive i m).mpr hl))
    · intro mo l hr
      obtain ⟨i, m, q1, q2, q3⟩ := h.reads mo l hr
      have hl' := (hlive i m).mpr q2
      have := Live.block_le hl'
      refine ⟨i, m, q1, hl', ?_⟩
      rw [q3]
      symm
      apply slice_ext
      intro k hk
      simp only
      rw [vresize_get (by omega) (by rw [hp.dlen]; omega)]

end Motive.Proc
