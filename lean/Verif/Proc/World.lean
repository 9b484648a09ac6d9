import Verif.Proc.Lemmas
import Verif.Proc.Spec

/-! The invariant of the whole program state, and one lemma per API call. -/

namespace Motive.Proc

open Motive.Alloc

variable {δ : Type}

structure WInv (w : World δ) : Prop where
  procs : ∀ p pr, w.procs p = some pr → PInv p pr.alloc (pr.pstate w.mots)
  mots : ∀ m p i, w.mots m = some (p, i) → ∃ pr, w.procs p = some pr

theorem winv_empty : WInv (World.empty : World δ) :=
  ⟨fun _ _ h => by simp [World.empty] at h, fun _ _ _ h => by simp [World.empty] at h⟩

theorem view_empty : (World.empty : World δ).view = Abs.empty := rfl

theorem PInv.mots_congr {p : ProcId} {a : Alloc} {b : List (Option MotId)} {d d' : List δ} {f g : Mots}
    (h : PInv p a ⟨b, d, f⟩) (hd : d'.length = d.length)
    (hfg : ∀ m i, g m = some (p, i) ↔ f m = some (p, i)) :
    PInv p a ⟨b, d', g⟩ := by
  refine ⟨h.inv, h.blen, by rw [← h.dlen]; exact hd, ?_, ?_, h.nul⟩
  · intro i n hl
    obtain ⟨m, h1, h2⟩ := h.own i n hl
    exact ⟨m, (hfg m i).mpr h1, h2⟩
  · intro m i hm
    exact h.ref m i ((hfg m i).mp hm)

theorem WInv.update {w : World δ} (h : WInv w) {p : ProcId} {pr' : Proc δ} {mots' : Mots}
    (hp : PInv p pr'.alloc (pr'.pstate mots'))
    (ho : ∀ m q i, q ≠ p → (mots' m = some (q, i) ↔ w.mots m = some (q, i))) :
    WInv (⟨(w.setProc p (some pr')).procs, mots'⟩ : World δ) := by
  constructor
  · intro q pr hq
    simp only [World.setProc] at hq
    split at hq
    · rename_i hqp; subst hqp; simp at hq; subst hq; exact hp
    · rename_i hqp
      exact (h.procs q pr hq).mots_congr rfl (fun m i => ho m q i hqp)
  · intro m q i hm
    by_cases hqp : q = p
    · subst hqp; exact ⟨pr', by simp [World.setProc]⟩
    · obtain ⟨pr, hpr⟩ := h.mots m q i ((ho m q i hqp).mp hm)
      exact ⟨pr, by simp [World.setProc, hqp, hpr]⟩

theorem view_some {w : World δ} {m : MotId} {p : ProcId} {i n : Nat} {pr : Proc δ}
    (h1 : w.mots m = some (p, i)) (h2 : w.procs p = some pr) (h3 : Live pr.alloc i n) :
    w.view.vals m = some (p, (pr.data.drop i).take n) := by
  simp [World.view, h1, h2, Proc.dimensions, countFor_block h3.1]

theorem view_none {w : World δ} {m : MotId} (h1 : w.mots m = none) : w.view.vals m = none := by
  simp [World.view, h1]

theorem view_iff {w : World δ} (h : WInv w) {m : MotId} {p : ProcId} {l : List δ} :
    w.view.vals m = some (p, l) ↔ ∃ i n pr, w.mots m = some (p, i) ∧ w.procs p = some pr ∧
      Live pr.alloc i n ∧ l = (pr.data.drop i).take n := by
  constructor
  · intro hv
    match hm : w.mots m with
    | none => rw [view_none hm] at hv; simp at hv
    | some (q, i) =>
      obtain ⟨pr, hpr⟩ := h.mots m q i hm
      obtain ⟨n, hl, _⟩ := (h.procs q pr hpr).ref m i hm
      rw [view_some hm hpr hl] at hv
      simp at hv
      obtain ⟨rfl, rfl⟩ := hv
      exact ⟨i, n, pr, rfl, hpr, hl, rfl⟩
  · rintro ⟨i, n, pr, h1, h2, h3, rfl⟩
    exact view_some h1 h2 h3

theorem view_none_iff {w : World δ} (h : WInv w) {m : MotId} :
    w.view.vals m = none ↔ w.mots m = none := by
  constructor
  · intro hv
    match hm : w.mots m with
    | none => rfl
    | some (q, i) =>
      obtain ⟨pr, hpr⟩ := h.mots m q i hm
      obtain ⟨n, hl, _⟩ := (h.procs q pr hpr).ref m i hm
      rw [view_some hm hpr hl] at hv; simp at hv
  · exact view_none

/-- Storing processor `p` back keeps the list of processors. -/
theorem view_procs_set {w : World δ} {p : ProcId} {pr pr' : Proc δ} (h : w.procs p = some pr)
    (hc : pr'.cloning = pr.cloning) (mots' : Mots) :
    (⟨(w.setProc p (some pr')).procs, mots'⟩ : World δ).view.procs = w.view.procs := by
  funext q
  simp only [World.view, World.setProc]
  split
  · rename_i hq; subst hq; simp [h, hc]
  · rfl

/-! ### Index checks -/

theorem PInv.validIndex {p : ProcId} {pr : Proc δ} {mots : Mots}
    (h : PInv p pr.alloc (pr.pstate mots)) {m : MotId} {i n : Nat} (hm : mots m = some (p, i))
    (hl : Live pr.alloc i n) {k : Nat} (hk : k < n) : pr.validIndex p mots (i + k) = true := by
  obtain ⟨n', hl', hb⟩ := h.ref m i hm
  have : n = n' := hl.1.unique hl'.1
  subst this
  have h1 := Live.block_le hl
  have h2 := hb k hk
  simp only [Proc.pstate] at h2
  simp only [Proc.validIndex, h2, hm]
  simp; omega

theorem PInv.allValid {p : ProcId} {pr : Proc δ} {mots : Mots}
    (h : PInv p pr.alloc (pr.pstate mots)) {m : MotId} {i n : Nat} (hm : mots m = some (p, i))
    (hl : Live pr.alloc i n) : pr.allValid p mots i n = true := by
  simp only [Proc.allValid, List.all_eq_true, List.mem_range]
  intro k hk
  exact h.validIndex hm hl hk

/-- A slot's owner, read off the back-pointers. -/
theorem PInv.owner {p : ProcId} {a : Alloc} {s : PState δ} (h : PInv p a s) {k : Nat} {m : MotId}
    (hb : s.back[k]? = some (some m)) :
    ∃ i n, s.mots m = some (p, i) ∧ Live a i n ∧ i ≤ k ∧ k < i + n := by
  have hk : k < a.numIndices := by rw [← h.blen]; exact (List.getElem?_eq_some_iff.mp hb).1
  by_cases hex : ∃ i n, Live a i n ∧ i ≤ k ∧ k < i + n
  · obtain ⟨i, n, hl, h1, h2⟩ := hex
    obtain ⟨m', q1, q2⟩ := h.own i n hl
    have := q2 (k - i) (by omega)
    rw [show i + (k - i) = k by omega, hb] at this
    simp at this; subst this
    exact ⟨i, n, q1, hl, h1, h2⟩
  · have := h.nul k hk (fun i n hl hc => hex ⟨i, n, hl, hc⟩)
    rw [hb] at this; simp at this

theorem PInv.validMotivatorIndex {p : ProcId} {pr : Proc δ} {mots : Mots}
    (h : PInv p pr.alloc (pr.pstate mots)) {m : MotId} {i : Nat} (hm : mots m = some (p, i)) :
    pr.validMotivatorIndex p mots i = true := by
  obtain ⟨n, hl, hb⟩ := h.ref m i hm
  have h0 := hl.1.1
  have h1 := h.validIndex hm hl h0
  have h2 := hb 0 h0
  simp only [Nat.add_zero, Proc.pstate] at h1 h2
  simp only [Proc.validMotivatorIndex, h1, Proc.isMotivatorIndex, h2, Bool.true_and, Bool.or_eq_true,
    beq_iff_eq, bne_iff_ne]
  by_cases hi : i = 0
  · left; exact hi
  · right
    intro hc
    obtain ⟨j, n', q1, q2, q3, q4⟩ := h.owner (k := i - 1) (m := m) hc
    simp only [Proc.pstate] at q1
    rw [hm] at q1; simp at q1
    omega

/-- Distinct motivators have distinct indices. -/
theorem PInv.inj {p : ProcId} {a : Alloc} {s : PState δ} (h : PInv p a s) {m m' : MotId} {i : Nat}
    (h1 : s.mots m = some (p, i)) (h2 : s.mots m' = some (p, i)) : m = m' := by
  obtain ⟨n, hl, hb⟩ := h.ref m i h1
  obtain ⟨n', hl', hb'⟩ := h.ref m' i h2
  have e1 := hb 0 hl.1.1
  have e2 := hb' 0 hl'.1.1
  rw [e1] at e2; simpa using e2

theorem setMot_self (f : Mots) (m : MotId) (v : Option (ProcId × Nat)) : setMot f m v m = v := by
  simp [setMot]

theorem setMot_ne (f : Mots) {m x : MotId} (v : Option (ProcId × Nat)) (h : x ≠ m) :
    setMot f m v x = f x := by simp [setMot, h]

theorem replicate_get {β : Type} {n k : Nat} {v : β} (h : k < n) :
    (List.replicate n v)[k]? = some v := by simp [h]

/-! ### Removing -/

theorem removeQuiet_spec {p : ProcId} {pr : Proc δ} {mots : Mots}
    (h : PInv p pr.alloc (pr.pstate mots)) {m : MotId} {i n : Nat} (hm : mots m = some (p, i))
    (hl : Live pr.alloc i n) :
    ∃ pr', removeQuiet i pr mots = some (pr', setMot mots m none) ∧
      PInv p pr'.alloc (pr'.pstate (setMot mots m none)) ∧ pr'.data = pr.data ∧
      pr'.cloning = pr.cloning ∧ pr'.dflt = pr.dflt ∧ pr'.alloc.counts = pr.alloc.counts ∧
      pr'.alloc.unused = pr.alloc.unused ++ [i] ∧
      (∀ j n', Live pr'.alloc j n' ↔ Live pr.alloc j n' ∧ j ≠ i) ∧
      (∀ k, (k < i ∨ i + n ≤ k) → pr'.back[k]? = pr.back[k]?) := by
  obtain ⟨n', hl', hb⟩ := h.ref m i hm
  have : n = n' := hl.1.unique hl'.1
  subst this
  have h0 := hl.1.1
  have hle := Live.block_le hl
  obtain ⟨back', b1, b2, b3, b4⟩ := setRange_spec (l := pr.back) (i := i)
    (vs := List.replicate n none) (by simp; have := h.blen; simp only [Proc.pstate] at this; omega)
  obtain ⟨a', f1, f2, f3, f4, f5⟩ := free_spec h.inv hl
  have hnum : a'.numIndices = pr.alloc.numIndices := by simp [Alloc.numIndices, f3]
  simp only [List.length_replicate] at b3 b4
  refine ⟨{ pr with back := back', alloc := a' }, ?_, ⟨f2, ?_, ?_, ?_, ?_, ?_⟩, rfl, rfl, rfl, f3, f4,
    f5, b4⟩
  · have := hb 0 h0
    simp only [Nat.add_zero, Proc.pstate] at this
    simp [removeQuiet, this, Proc.dimensions, countFor_block hl.1, b1, f1]
  · simp only [Proc.pstate, b2, hnum]; exact h.blen
  · simp only [Proc.pstate, hnum]; exact h.dlen
  · intro j nj hj
    obtain ⟨hj1, hj2⟩ := (f5 j nj).mp hj
    obtain ⟨mo, q1, q2⟩ := h.own j nj hj1
    simp only [Proc.pstate] at q1 q2 ⊢
    have hne : mo ≠ m := by rintro rfl; rw [hm] at q1; simp at q1; exact hj2 q1.symm
    refine ⟨mo, by rw [setMot_ne _ _ hne]; exact q1, ?_⟩
    intro k hk
    have hap := Live.apart hl hj1 (by intro hc; simp at hc; exact hj2 hc.1.symm)
    simp only [Apart] at hap
    rw [b4 _ (by omega)]; exact q2 k hk
  · intro x j hx
    simp only [Proc.pstate] at hx ⊢
    have hne : x ≠ m := by rintro rfl; rw [setMot_self] at hx; simp at hx
    rw [setMot_ne _ _ hne] at hx
    obtain ⟨nj, hj1, hj2⟩ := h.ref x j hx
    have hji : j ≠ i := by rintro rfl; exact hne (h.inj hx hm)
    refine ⟨nj, (f5 j nj).mpr ⟨hj1, hji⟩, ?_⟩
    intro k hk
    have hap := Live.apart hl hj1 (by intro hc; simp at hc; exact hji hc.1.symm)
    simp only [Apart] at hap
    rw [b4 _ (by omega)]; exact hj2 k hk
  · intro k hk hno
    simp only [Proc.pstate]
    by_cases hin : i ≤ k ∧ k < i + n
    · have := b3 (k - i) (by omega)
      rw [show i + (k - i) = k by omega] at this
      rw [this]; exact replicate_get (by omega)
    · rw [b4 _ (by omega)]
      apply h.nul k (by rw [← hnum]; exact hk)
      intro j nj hj hc
      by_cases hji : j = i
      · subst hji; have := hj.1.unique hl.1; subst this; exact hin hc
      · exact hno j nj ((f5 j nj).mpr ⟨hj, hji⟩) hc

/-- `check` of a true condition. -/
theorem check_true {b : Bool} (h : b = true) : check b = some () := by simp [check, h]

theorem removeMotivator_spec {w : World δ} (h : WInv w) {m : MotId} {p : ProcId} {i : Nat}
    (hm : w.mots m = some (p, i)) :
    ∃ w', w.removeMotivator p i = some w' ∧ WInv w' ∧ w'.mots = setMot w.mots m none ∧
      w'.view = w.view.set m none ∧
      (∃ pr pr' n, w.procs p = some pr ∧ Live pr.alloc i n ∧ w'.procs p = some pr' ∧
        pr'.dflt = pr.dflt ∧ (pr'.data.drop i).take n = List.replicate n pr.dflt) := by
  obtain ⟨pr, hpr⟩ := h.mots m p i hm
  have hp := h.procs p pr hpr
  obtain ⟨n, hl, hb⟩ := hp.ref m i hm
  have hle := Live.block_le hl
  have hdl : pr.data.length = pr.alloc.numIndices := hp.dlen
  obtain ⟨data', d1, d2, d3, d4⟩ := setRange_spec (l := pr.data) (i := i)
    (vs := List.replicate n pr.dflt) (by simp; omega)
  simp only [List.length_replicate] at d3 d4
  obtain ⟨pr', r1, r2, r3, r4, r4', r5, r6, r7, r8⟩ := removeQuiet_spec (p := p)
    (pr := { pr with data := data' }) (mots := w.mots) (hp.mots_congr d2 (fun _ _ => Iff.rfl)) hm hl
  have hw' : WInv (⟨(w.setProc p (some pr')).procs, setMot w.mots m none⟩ : World δ) := by
    apply h.update r2
    intro x q j hq
    by_cases hx : x = m
    · subst hx; rw [setMot_self, hm]; simp; intro hc; exact absurd hc.symm hq
    · rw [setMot_ne _ _ hx]
  refine ⟨⟨(w.setProc p (some pr')).procs, setMot w.mots m none⟩, ?_, hw', rfl, ?_, ?_⟩
  · simp [World.removeMotivator, hpr, check_true (hp.validMotivatorIndex hm), Proc.dimensions,
      countFor_block hl.1, check_true (hp.allValid hm hl), d1, r1]
  · ext1
    · exact view_procs_set hpr r4 _
    · funext x
      simp only [Abs.set]
      split
      · rename_i hx; subst hx; exact view_none (setMot_self _ _ _)
      · rename_i hx
        match hwx : w.mots x with
        | none =>
          rw [view_none hwx]
          exact view_none (by simp only; rw [setMot_ne _ _ hx]; exact hwx)
        | some (q, j) =>
          obtain ⟨prq, hprq⟩ := h.mots x q j hwx
          obtain ⟨nj, hlj, _⟩ := (h.procs q prq hprq).ref x j hwx
          have hwx' : (setMot w.mots m none) x = some (q, j) := by rw [setMot_ne _ _ hx]; exact hwx
          rw [view_some hwx hprq hlj]
          by_cases hqp : q = p
          · subst hqp
            rw [hpr] at hprq; simp at hprq; subst hprq
            have hji : j ≠ i := by
              rintro rfl; exact hx (hp.inj hwx hm)
            rw [view_some (w := ⟨_, _⟩) hwx' (pr := pr') (by simp [World.setProc])
              ((r7 j nj).mpr ⟨hlj, hji⟩)]
            rw [r3]
            congr 2
            apply slice_ext
            intro k hk
            have hap := Live.apart hl hlj (by intro hc; simp at hc; exact hji hc.1.symm)
            simp only [Apart] at hap
            exact d4 _ (by omega)
          · rw [view_some (w := ⟨_, _⟩) hwx' (pr := prq) (by simp [World.setProc, hqp, hprq]) hlj]
  · refine ⟨pr, pr', n, hpr, hl, by simp [World.setProc], r4', ?_⟩
    rw [r3]
    apply List.ext_getElem?
    intro k
    by_cases hk : k < n
    · rw [List.getElem?_take, if_pos hk, List.getElem?_drop]; exact d3 k hk
    · rw [List.getElem?_take, if_neg hk, List.getElem?_replicate, if_neg hk]

theorem setMot_none {f : Mots} {m : MotId} (h : f m = none) : setMot f m none = f := by
  funext x; simp only [setMot]; split
  · rename_i hx; subst hx; exact h.symm
  · rfl

theorem Abs.set_same {s : Abs δ} {m : MotId} {v} (h : s.vals m = v) : s.set m v = s := by
  ext1
  · rfl
  · funext x; simp only [Abs.set]; split
    · rename_i hx; subst hx; exact h.symm
    · rfl

theorem invalidate_spec {w : World δ} (h : WInv w) (m : MotId) :
    ∃ w', w.invalidate m = some w' ∧ WInv w' ∧ w'.mots = setMot w.mots m none ∧
      w'.view = w.view.set m none := by
  unfold World.invalidate
  match hm : w.mots m with
  | none =>
    exact ⟨w, rfl, h, (setMot_none hm).symm, (Abs.set_same (view_none hm)).symm⟩
  | some (p, i) =>
    obtain ⟨w', h1, h2, h3, h4, _⟩ := removeMotivator_spec h hm
    exact ⟨w', h1, h2, h3, h4⟩

/-! ### Allocating -/

theorem allocate_spec {w : World δ} (h : WInv w) {m : MotId} {p : ProcId} {pr : Proc δ} {n : Nat}
    (hm : w.mots m = none) (hpr : w.procs p = some pr) (h0 : 0 < n) :
    ∃ w' i pr', w.allocate p m n = some (w', i) ∧ WInv w' ∧ w'.procs p = some pr' ∧
      pr'.cloning = pr.cloning ∧ w'.mots = setMot w.mots m (some (p, i)) ∧ Live pr'.alloc i n ∧
      (∀ x, x ≠ m → w'.view.vals x = w.view.vals x) ∧ w'.view.procs = w.view.procs ∧
      (∀ j nj, Live pr.alloc j nj → Live pr'.alloc j nj ∧
        (pr'.data.drop j).take nj = (pr.data.drop j).take nj) := by
  have hp := h.procs p pr hpr
  obtain ⟨a', s', i, e1, e2, e3⟩ := alloc_spec (cb := callbacks p pr.dflt) hp.inv h0
    (pr.pstate w.mots) (Or.inr ⟨_, rfl⟩)
  -- effect of the (possible) growth on the client state
  have hs' : s'.mots = w.mots ∧ s'.back.length = a'.numIndices ∧ s'.data.length = a'.numIndices ∧
      (∀ k, k < pr.alloc.numIndices → s'.back[k]? = pr.back[k]? ∧ s'.data[k]? = pr.data[k]?) ∧
      (∀ k, pr.alloc.numIndices ≤ k → k < a'.numIndices → i ≤ k ∧ k < i + n) := by
    have hbl : pr.back.length = pr.alloc.numIndices := hp.blen
    have hdl : pr.data.length = pr.alloc.numIndices := hp.dlen
    rcases e3 with ⟨n', _, _, _, h4, h5⟩ | ⟨_, h2, h3, h4⟩
    · subst h5
      exact ⟨rfl, by rw [h4]; exact hp.blen, by rw [h4]; exact hp.dlen, fun k _ => ⟨rfl, rfl⟩,
        fun k h1 h2 => by omega⟩
    · simp only [callbacks, Option.some.injEq] at h4
      subst h4
      refine ⟨rfl, by simp only [vresize_length, h3], by simp only [vresize_length, h3], ?_, ?_⟩
      · intro k hk
        exact ⟨vresize_get (by omega) (by simp only [Proc.pstate]; omega),
          vresize_get (by omega) (by simp only [Proc.pstate]; omega)⟩
      · intro k h5 h6; omega
  obtain ⟨g1, g2, g3, g4, g5⟩ := hs'
  have hlive : Live a' i n := (e2.live i n).mpr (Or.inr ⟨rfl, rfl⟩)
  have hle := Live.block_le hlive
  obtain ⟨back', b1, b2, b3, b4⟩ := setRange_spec (l := s'.back) (i := i)
    (vs := List.replicate n (some m)) (by simp; omega)
  simp only [List.length_replicate] at b3 b4
  have b3' : ∀ k, k < n → back'[i + k]? = some (some m) := fun k hk => by
    rw [b3 k hk]; exact replicate_get hk
  let pr' : Proc δ := { pr with alloc := a', back := back', data := s'.data }
  have hold : ∀ j nj, Live pr.alloc j nj → ∀ k, k < nj →
      back'[j + k]? = pr.back[j + k]? := by
    intro j nj hj k hk
    have := e2.fresh j nj hj
    have := Live.block_le hj
    rw [b4 _ (by omega)]; exact (g4 _ (by omega)).1
  have hpinv : PInv p pr'.alloc (pr'.pstate (setMot w.mots m (some (p, i)))) := by
    refine ⟨e2.inv, by simp only [Proc.pstate, pr', b2, g2], g3, ?_, ?_, ?_⟩
    · intro j nj hj
      rcases (e2.live j nj).mp hj with hj | ⟨rfl, rfl⟩
      · obtain ⟨mo, q1, q2⟩ := hp.own j nj hj
        simp only [Proc.pstate] at q1 q2 ⊢
        have hne : mo ≠ m := by rintro rfl; rw [hm] at q1; simp at q1
        refine ⟨mo, by rw [setMot_ne _ _ hne]; exact q1, ?_⟩
        intro k hk
        rw [hold j nj hj k hk]; exact q2 k hk
      · exact ⟨m, setMot_self _ _ _, b3'⟩
    · intro x j hx
      simp only [Proc.pstate] at hx ⊢
      by_cases hxm : x = m
      · subst hxm; rw [setMot_self] at hx; simp at hx; subst hx
        exact ⟨n, hlive, b3'⟩
      · rw [setMot_ne _ _ hxm] at hx
        obtain ⟨nj, hj1, hj2⟩ := hp.ref x j hx
        refine ⟨nj, (e2.live j nj).mpr (Or.inl hj1), ?_⟩
        intro k hk
        rw [hold j nj hj1 k hk]; exact hj2 k hk
    · intro k hk hno
      simp only [Proc.pstate]
      have hni := hno i n hlive
      have hk' : k < pr.alloc.numIndices := by
        by_contra hc
        exact hni (g5 k (by omega) hk)
      rw [b4 _ (by omega), (g4 k hk').1]
      exact hp.nul k hk' (fun j nj hj hc => hno j nj ((e2.live j nj).mpr (Or.inl hj)) hc)
  have hslice : ∀ j nj, Live pr.alloc j nj →
      (pr'.data.drop j).take nj = (pr.data.drop j).take nj := by
    intro j nj hj
    apply slice_ext
    intro k hk
    have := Live.block_le hj
    exact (g4 _ (by omega)).2
  have hother : ∀ x q j, q ≠ p →
      (setMot w.mots m (some (p, i)) x = some (q, j) ↔ w.mots x = some (q, j)) := by
    intro x q j hq
    by_cases hx : x = m
    · subst hx; rw [setMot_self, hm]; simp; intro hc; exact absurd hc.symm hq
    · rw [setMot_ne _ _ hx]
  refine ⟨⟨(w.setProc p (some pr')).procs, setMot w.mots m (some (p, i))⟩, i, pr', ?_,
    h.update hpinv hother, by simp [World.setProc], rfl, rfl, hlive, ?_, view_procs_set (pr' := pr') hpr rfl _,
    fun j nj hj => ⟨(e2.live j nj).mpr (Or.inl hj), hslice j nj hj⟩⟩
  · simp [World.allocate, hpr, e1, b1, g1, pr']
  · intro x hx
    match hwx : w.mots x with
    | none =>
      rw [view_none hwx]
      exact view_none (by simp only; rw [setMot_ne _ _ hx]; exact hwx)
    | some (q, j) =>
      obtain ⟨prq, hprq⟩ := h.mots x q j hwx
      obtain ⟨nj, hlj, _⟩ := (h.procs q prq hprq).ref x j hwx
      have hwx' : (setMot w.mots m (some (p, i))) x = some (q, j) := by
        rw [setMot_ne _ _ hx]; exact hwx
      rw [view_some hwx hprq hlj]
      by_cases hqp : q = p
      · subst hqp
        rw [hpr] at hprq; simp at hprq; subst hprq
        rw [view_some (w := ⟨_, _⟩) hwx' (pr := pr') (by simp [World.setProc])
          ((e2.live j nj).mpr (Or.inl hlj)), hslice j nj hlj]
      · rw [view_some (w := ⟨_, _⟩) hwx' (pr := prq) (by simp [World.setProc, hqp, hprq]) hlj]

/-- Overwriting the slots of one motivator. -/
theorem setData_spec {w : World δ} (h : WInv w) {m : MotId} {p : ProcId} {pr : Proc δ} {i n : Nat}
    (hm : w.mots m = some (p, i)) (hpr : w.procs p = some pr) (hl : Live pr.alloc i n)
    {data' : List δ} (hd : data'.length = pr.data.length)
    (hout : ∀ k, (k < i ∨ i + n ≤ k) → data'[k]? = pr.data[k]?) :
    WInv (w.setProc p (some { pr with data := data' })) ∧
      (w.setProc p (some { pr with data := data' })).view =
        w.view.set m (some (p, (data'.drop i).take n)) := by
  have hp := h.procs p pr hpr
  have hw' := h.update (pr' := { pr with data := data' }) (mots' := w.mots)
    (hp.mots_congr hd (fun _ _ => Iff.rfl)) (fun _ _ _ _ => Iff.rfl)
  refine ⟨hw', ?_⟩
  ext1
  · exact view_procs_set (pr' := { pr with data := data' }) hpr rfl _
  · funext x
    simp only [Abs.set]
    split
    · rename_i hx; subst hx
      exact view_some (w := w.setProc p _) hm (pr := { pr with data := data' })
        (by simp [World.setProc]) hl
    · rename_i hx
      match hwx : w.mots x with
      | none =>
        rw [view_none hwx]
        exact view_none hwx
      | some (q, j) =>
        obtain ⟨prq, hprq⟩ := h.mots x q j hwx
        obtain ⟨nj, hlj, _⟩ := (h.procs q prq hprq).ref x j hwx
        rw [view_some hwx hprq hlj]
        by_cases hqp : q = p
        · subst hqp
          rw [hpr] at hprq; simp at hprq; subst hprq
          have hji : j ≠ i := by
            rintro rfl; exact hx (hp.inj hwx hm)
          rw [view_some (w := w.setProc q _) hwx (pr := { pr with data := data' })
            (by simp [World.setProc]) hlj]
          congr 2
          apply slice_ext
          intro k hk
          have hap := Live.apart hl hlj (by intro hc; simp at hc; exact hji hc.1.symm)
          simp only [Apart] at hap
          exact hout _ (by omega)
        · rw [view_some (w := w.setProc p _) hwx (pr := prq) (by simp [World.setProc, hqp, hprq]) hlj]

theorem setRange_slice {β : Type} {l' vs : List β} {i : Nat}
    (h : ∀ k, k < vs.length → l'[i + k]? = vs[k]?) : (l'.drop i).take vs.length = vs := by
  apply List.ext_getElem?
  intro k
  by_cases hk : k < vs.length
  · rw [List.getElem?_take, if_pos hk, List.getElem?_drop]; exact h k hk
  · rw [List.getElem?_take, if_neg hk]; symm; rw [List.getElem?_eq_none_iff]; omega

theorem Abs.set_set {s : Abs δ} {m : MotId} {v v'} : (s.set m v).set m v' = s.set m v' := by
  ext1
  · rfl
  · funext x; simp only [Abs.set]; split <;> rfl

theorem initialize_spec {w : World δ} (h : WInv w) {m : MotId} {p : ProcId} {vals : List δ}
    (hp : (w.procs p).isSome) (h0 : 0 < vals.length) :
    ∃ w', w.initialize m p vals = some w' ∧ WInv w' ∧ w'.view = w.view.set m (some (p, vals)) := by
  obtain ⟨w1, i1, i2, i3, i4⟩ := invalidate_spec h m
  have hp1 : ∃ pr, w1.procs p = some pr := by
    have : w1.view.procs p = w.view.procs p := by rw [i4]; rfl
    simp only [World.view] at this
    rw [Option.isSome_iff_exists] at hp
    obtain ⟨pr, hpr⟩ := hp
    rw [hpr] at this
    match hw : w1.procs p with
    | none => rw [hw] at this; simp at this
    | some pr1 => exact ⟨pr1, rfl⟩
  obtain ⟨pr1, hpr1⟩ := hp1
  obtain ⟨w2, i, pr2, a1, a2, a3, a4, a5, a6, a7, a8, _⟩ := allocate_spec (m := m) i2
    (by rw [i3]; exact setMot_self _ _ _) hpr1 h0
  have hm2 : w2.mots m = some (p, i) := by rw [a5]; exact setMot_self _ _ _
  have hp2 := a2.procs p pr2 a3
  have hle := Live.block_le a6
  have hdl : pr2.data.length = pr2.alloc.numIndices := hp2.dlen
  obtain ⟨data', d1, d2, d3, d4⟩ := setRange_spec (l := pr2.data) (i := i) (vs := vals) (by omega)
  obtain ⟨s1, s2⟩ := setData_spec a2 hm2 a3 a6 d2 d4
  refine ⟨w2.setProc p (some { pr2 with data := data' }), ?_, s1, ?_⟩
  · simp [World.initialize, i1, a1, World.initializeIndices, a3, check_true (hp2.allValid hm2 a6), d1]
  · rw [s2, setRange_slice d3]
    ext1
    · show w2.view.procs = w.view.procs
      rw [a8, i4]; rfl
    · funext x
      simp only [Abs.set]
      split
      · rfl
      · rename_i hx; rw [a7 x hx, i4]; simp [Abs.set, hx]


/-! ### Moving and cloning -/

theorem transfer_spec {w : World δ} (h : WInv w) {src dst : MotId} {p : ProcId} {i : Nat}
    (hs : w.mots src = some (p, i)) (hd : w.mots dst = none) :
    ∃ w', w.transfer p i dst = some w' ∧ WInv w' ∧
      w'.view = (w.view.set dst (w.view.vals src)).set src none := by
  obtain ⟨pr, hpr⟩ := h.mots src p i hs
  have hp := h.procs p pr hpr
  obtain ⟨n, hl, hb⟩ := hp.ref src i hs
  have h0 := hl.1.1
  have hne : dst ≠ src := by rintro rfl; rw [hs] at hd; simp at hd
  have hle := Live.block_le hl
  have hbl : pr.back.length = pr.alloc.numIndices := hp.blen
  obtain ⟨back', b1, b2, b3, b4⟩ := setRange_spec (l := pr.back) (i := i)
    (vs := List.replicate n (some dst)) (by simp; omega)
  simp only [List.length_replicate] at b3 b4
  have b3' : ∀ k, k < n → back'[i + k]? = some (some dst) := fun k hk => by
    rw [b3 k hk]; exact replicate_get hk
  let mots' := setMot (setMot w.mots src none) dst (some (p, i))
  have m1 : mots' dst = some (p, i) := setMot_self _ _ _
  have m2 : mots' src = none := by
    simp only [mots']; rw [setMot_ne _ _ (Ne.symm hne), setMot_self]
  have m3 : ∀ x, x ≠ dst → x ≠ src → mots' x = w.mots x := by
    intro x h1 h2; simp only [mots']; rw [setMot_ne _ _ h1, setMot_ne _ _ h2]
  let pr' : Proc δ := { pr with back := back' }
  have hpinv : PInv p pr'.alloc (pr'.pstate mots') := by
    refine ⟨hp.inv, by simp only [Proc.pstate, pr', b2]; exact hp.blen, hp.dlen, ?_, ?_, ?_⟩
    · intro j nj hj
      by_cases hji : j = i
      · subst hji
        have := hj.1.unique hl.1; subst this
        exact ⟨dst, m1, b3'⟩
      · obtain ⟨mo, q1, q2⟩ := hp.own j nj hj
        simp only [Proc.pstate] at q1 q2
        have e1 : mo ≠ dst := by rintro rfl; rw [hd] at q1; simp at q1
        have e2 : mo ≠ src := by rintro rfl; rw [hs] at q1; simp at q1; exact hji q1.symm
        refine ⟨mo, by simp only [Proc.pstate]; rw [m3 mo e1 e2]; exact q1, ?_⟩
        intro k hk
        have hap := Live.apart hl hj (by intro hc; simp at hc; exact hji hc.1.symm)
        simp only [Apart] at hap
        simp only [Proc.pstate, pr']
        rw [b4 _ (by omega)]; exact q2 k hk
    · intro x j hx
      simp only [Proc.pstate] at hx
      by_cases e1 : x = dst
      · subst e1; rw [m1] at hx; simp at hx; subst hx; exact ⟨n, hl, b3'⟩
      · by_cases e2 : x = src
        · subst e2; rw [m2] at hx; simp at hx
        · rw [m3 x e1 e2] at hx
          obtain ⟨nj, hj1, hj2⟩ := hp.ref x j hx
          have hji : j ≠ i := by rintro rfl; exact e2 (hp.inj hx hs)
          refine ⟨nj, hj1, ?_⟩
          intro k hk
          have hap := Live.apart hl hj1 (by intro hc; simp at hc; exact hji hc.1.symm)
          simp only [Apart] at hap
          simp only [Proc.pstate, pr']
          rw [b4 _ (by omega)]; exact hj2 k hk
    · intro k hk hno
      have hni := hno i n hl
      simp only [Proc.pstate, pr']
      rw [b4 _ (by omega)]
      exact hp.nul k hk hno
  refine ⟨⟨(w.setProc p (some pr')).procs, mots'⟩, ?_, h.update hpinv ?_, ?_⟩
  · have := hb 0 h0
    simp only [Nat.add_zero, Proc.pstate] at this
    simp [World.transfer, hpr, check_true (hp.validMotivatorIndex hs), this, Proc.dimensions,
      countFor_block hl.1, b1, pr', mots']
  · intro x q j hq
    by_cases e1 : x = dst
    · subst e1; rw [m1, hd]; simp; intro hc; exact absurd hc.symm hq
    · by_cases e2 : x = src
      · subst e2; rw [m2, hs]; simp; intro hc; exact absurd hc.symm hq
      · rw [m3 x e1 e2]
  · ext1
    · exact view_procs_set (pr' := pr') hpr rfl _
    · funext x
      simp only [Abs.set]
      by_cases e2 : x = src
      · subst e2; rw [if_pos rfl]; exact view_none m2
      · rw [if_neg e2]
        by_cases e1 : x = dst
        · subst e1; rw [if_pos rfl, view_some hs hpr hl]
          exact view_some (w := ⟨_, _⟩) m1 (pr := pr') (by simp [World.setProc]) hl
        · rw [if_neg e1]
          match hwx : w.mots x with
          | none =>
            rw [view_none hwx]
            exact view_none (by simp only; rw [m3 x e1 e2]; exact hwx)
          | some (q, j) =>
            obtain ⟨prq, hprq⟩ := h.mots x q j hwx
            obtain ⟨nj, hlj, _⟩ := (h.procs q prq hprq).ref x j hwx
            rw [view_some hwx hprq hlj]
            have hwx' : mots' x = some (q, j) := by rw [m3 x e1 e2]; exact hwx
            by_cases hqp : q = p
            · subst hqp
              rw [hpr] at hprq; simp at hprq; subst hprq
              exact view_some (w := ⟨_, _⟩) hwx' (pr := pr') (by simp [World.setProc]) hlj
            · exact view_some (w := ⟨_, _⟩) hwx' (pr := prq) (by simp [World.setProc, hqp, hprq]) hlj

theorem moveAssign_spec {w : World δ} (h : WInv w) (dst src : MotId) :
    ∃ w', w.moveAssign dst src = some w' ∧ WInv w' ∧
      w'.view = if dst = src then w.view.set dst none
        else (w.view.set dst (w.view.vals src)).set src none := by
  obtain ⟨w1, i1, i2, i3, i4⟩ := invalidate_spec h dst
  simp only [World.moveAssign, i1, Option.bind_eq_bind, Option.bind_some]
  by_cases he : dst = src
  · subst he
    rw [if_pos rfl]
    have : w1.mots dst = none := by rw [i3]; exact setMot_self _ _ _
    rw [this]
    exact ⟨w1, rfl, i2, i4⟩
  · rw [if_neg he]
    have hsrc : w1.mots src = w.mots src := by rw [i3]; exact setMot_ne _ _ (Ne.symm he)
    have hv : w1.view.vals src = w.view.vals src := by rw [i4]; simp [Abs.set, Ne.symm he]
    match hm : w1.mots src with
    | none =>
      refine ⟨w1, rfl, i2, ?_⟩
      have hn := view_none hm
      rw [i4]
      rw [hv] at hn
      rw [hn]
      symm
      apply Abs.set_same
      simp [Abs.set, hn]
    | some (p, i) =>
      obtain ⟨w', t1, t2, t3⟩ := transfer_spec i2 hm (dst := dst) (by rw [i3]; exact setMot_self _ _ _)
      refine ⟨w', t1, t2, ?_⟩
      rw [t3, hv, i4, Abs.set_set]

theorem moveConstruct_spec {w : World δ} (h : WInv w) {dst src : MotId}
    (hd : w.mots dst = none) :
    ∃ w', w.moveConstruct dst src = some w' ∧ WInv w' ∧
      w'.view = (w.view.set dst (w.view.vals src)).set src none := by
  unfold World.moveConstruct
  match hm : w.mots src with
  | none =>
    refine ⟨w, ?_, h, ?_⟩
    · simp only; rw [setMot_none hd]
    · rw [view_none hm, Abs.set_same (s := w.view) (view_none hd), Abs.set_same (view_none hm)]
  | some (p, i) => exact transfer_spec h hm hd

theorem cloneFrom_spec {w : World δ} (h : WInv w) (dst : MotId) (src : Option MotId) :
    ∃ w', w.cloneFrom dst src = some w' ∧ WInv w' ∧
      w'.view = absStep (.cloneFrom dst src) w.view := by
  obtain ⟨w1, i1, i2, i3, i4⟩ := invalidate_spec h dst
  simp only [World.cloneFrom, i1, Option.bind_eq_bind, Option.bind_some, absStep]
  match src with
  | none => exact ⟨w1, rfl, i2, i4⟩
  | some src =>
    simp only
    by_cases he : dst = src
    · subst he
      have : w1.mots dst = none := by rw [i3]; exact setMot_self _ _ _
      rw [this, if_pos rfl]
      exact ⟨w1, rfl, i2, i4⟩
    · rw [if_neg he]
      have hv : w1.view.vals src = w.view.vals src := by rw [i4]; simp [Abs.set, Ne.symm he]
      match hm : w1.mots src with
      | none =>
        have hn := view_none hm
        rw [hv] at hn
        rw [hn]
        exact ⟨w1, rfl, i2, i4⟩
      | some (p, i) =>
        obtain ⟨pr, hpr⟩ := i2.mots src p i hm
        obtain ⟨n, hl, hb⟩ := (i2.procs p pr hpr).ref src i hm
        have hvs := view_some hm hpr hl
        rw [hv] at hvs
        have hcl : w.view.procs p = some pr.cloning := by
          have : w1.view.procs p = w.view.procs p := by rw [i4]; rfl
          rw [← this]; simp [World.view, hpr]
        rw [hvs]
        simp only [World.cloneMotivator, hpr, Option.bind_eq_bind, Option.bind_some, hcl,
          Option.some.injEq]
        by_cases hc : pr.cloning = true
        · obtain ⟨w2, i', pr2, a1, a2, a3, a4, a5, a6, a7, a8, a9⟩ := allocate_spec (m := dst) i2
            (by rw [i3]; exact setMot_self _ _ _) hpr hl.1.1
          have hm2 : w2.mots dst = some (p, i') := by rw [a5]; exact setMot_self _ _ _
          have hp2 := a2.procs p pr2 a3
          have hle := Live.block_le a6
          have hle' := Live.block_le (a9 i n hl).1
          have hdl : pr2.data.length = pr2.alloc.numIndices := hp2.dlen
          have hlen : ((pr2.data.drop i).take n).length = n := by simp; omega
          obtain ⟨data', d1, d2, d3, d4⟩ := setRange_spec (l := pr2.data) (i := i')
            (vs := (pr2.data.drop i).take n) (by omega)
          rw [hlen] at d4
          obtain ⟨s1, s2⟩ := setData_spec a2 hm2 a3 a6 d2 d4
          refine ⟨w2.setProc p (some { pr2 with data := data' }), ?_, s1, ?_⟩
          · simp [hc, Proc.dimensions, countFor_block hl.1, a1, a3, d1]
          · rw [if_pos hc, s2]
            have hsl := setRange_slice d3
            rw [hlen] at hsl
            rw [hsl, (a9 i n hl).2]
            ext1
            · show w2.view.procs = w.view.procs
              rw [a8, i4]; rfl
            · funext x
              simp only [Abs.set]
              split
              · rfl
              · rename_i hx; rw [a7 x hx, i4]; simp [Abs.set, hx]
        · refine ⟨w1, by simp [hc], i2, ?_⟩
          rw [if_neg hc]; exact i4

/-! ### Writing, compaction, frames -/

theorem write_spec {w : World δ} (h : WInv w) (m : MotId) (off : Nat) (v : δ) :
    ∃ w', step (.write m off v) w = some w' ∧ WInv w' ∧
      w'.view = absStep (.write m off v) w.view := by
  simp only [step, absStep]
  match hm : w.mots m with
  | none =>
    refine ⟨w, by simp [World.dimensions, hm], h, ?_⟩
    rw [view_none hm]
  | some (p, i) =>
    obtain ⟨pr, hpr⟩ := h.mots m p i hm
    have hp := h.procs p pr hpr
    obtain ⟨n, hl, hb⟩ := hp.ref m i hm
    have hle := Live.block_le hl
    have hdl : pr.data.length = pr.alloc.numIndices := hp.dlen
    have hlen : ((pr.data.drop i).take n).length = n := by simp; omega
    rw [view_some hm hpr hl]
    simp only [hlen]
    have hdim : w.dimensions m = some n := by
      simp [World.dimensions, hm, hpr, Proc.dimensions, countFor_block hl.1]
    rw [hdim]
    simp only [Option.any_some, decide_eq_true_eq]
    by_cases ho : off < n
    · rw [if_pos ho, if_pos ho]
      obtain ⟨data', d1, d2, d3, d4⟩ := setRange_spec (l := pr.data) (i := i + off)
        (vs := [v]) (by simp; omega)
      simp only [List.length_singleton] at d3 d4
      obtain ⟨s1, s2⟩ := setData_spec h hm hpr hl d2 (fun k hk => d4 k (by omega))
      refine ⟨_, ?_, s1, ?_⟩
      · simp [World.write, hm, hpr, check_true (hp.validIndex hm hl ho), d1]
      · rw [s2]
        congr 3
        apply List.ext_getElem?
        intro k
        by_cases hk : k < n
        · rw [List.getElem?_take, if_pos hk, List.getElem?_drop]
          by_cases hko : k = off
          · subst hko
            rw [List.getElem?_set_self (by omega)]
            have := d3 0 (by omega)
            simpa using this
          · rw [List.getElem?_set_ne (by omega), d4 _ (by omega), List.getElem?_take, if_pos hk,
              List.getElem?_drop]
        · rw [List.getElem?_take, if_neg hk]; symm
          rw [List.getElem?_eq_none_iff]; simp; omega
    · rw [if_neg ho, if_neg ho]
      exact ⟨w, rfl, h, rfl⟩

theorem defragment_spec' {w : World δ} (h : WInv w) {p : ProcId} {pr : Proc δ}
    (hpr : w.procs p = some pr) :
    ∃ w' pr', w.defragment p = some w' ∧ WInv w' ∧ w'.view = w.view ∧ w'.procs p = some pr' ∧
      pr'.alloc.unused = [] ∧ pr'.dflt = pr.dflt := by
  have hp := h.procs p pr hpr
  have hcarry : Carry p pr.alloc (pr.pstate w.mots) pr.alloc (pr.pstate w.mots) :=
    ⟨hp, fun _ _ hr => hr, fun _ _ => rfl⟩
  obtain ⟨a', s', e1, e2, e3, e4, e5⟩ := Motive.Alloc.defragment_spec
    (stable_proc p pr.dflt pr.alloc (pr.pstate w.mots)) pr.alloc (pr.pstate w.mots) hp.inv hcarry
  let pr' : Proc δ := { pr with alloc := a', back := s'.back, data := s'.data }
  have hother : ∀ x q j, q ≠ p → (s'.mots x = some (q, j) ↔ w.mots x = some (q, j)) := by
    intro x q j hq
    by_cases hx : ∃ i, w.mots x = some (p, i)
    · obtain ⟨i, hi⟩ := hx
      obtain ⟨n, hl, _⟩ := hp.ref x i hi
      obtain ⟨i', n', q1, _, _⟩ := e3.reads x _ ⟨i, n, hi, hl, rfl⟩
      rw [q1, hi]; simp; intro hc; exact absurd hc.symm hq
    · rw [e3.others x (fun i hi => hx ⟨i, hi⟩)]; rfl
  refine ⟨⟨(w.setProc p (some pr')).procs, s'.mots⟩, pr', ?_, h.update e3.pinv hother, ?_,
    by simp [World.setProc], e4, rfl⟩
  · simp [World.defragment, hpr, e1, pr']
  · ext1
    · exact view_procs_set (pr' := pr') hpr rfl _
    · funext x
      match hwx : w.mots x with
      | none =>
        rw [view_none hwx]
        refine view_none ?_
        simp only
        rw [e3.others x (fun i hi => by simp only [Proc.pstate] at hi; rw [hwx] at hi; simp at hi)]
        exact hwx
      | some (q, j) =>
        obtain ⟨prq, hprq⟩ := h.mots x q j hwx
        obtain ⟨nj, hlj, _⟩ := (h.procs q prq hprq).ref x j hwx
        rw [view_some hwx hprq hlj]
        by_cases hqp : q = p
        · subst hqp
          rw [hpr] at hprq; simp at hprq; subst hprq
          obtain ⟨i', n', q1, q2, q3⟩ := e3.reads x _ ⟨j, nj, hwx, hlj, rfl⟩
          rw [view_some (w := ⟨_, _⟩) q1 (pr := pr') (by simp [World.setProc]) q2]
          simp only [Proc.pstate] at q3
          rw [q3]
        · exact view_some (w := ⟨_, _⟩) ((hother x q j hqp).mpr hwx) (pr := prq)
            (by simp [World.setProc, hqp, hprq]) hlj

theorem advance_spec {w : World δ} (h : WInv w) {p : ProcId} (hsome : (w.procs p).isSome)
    (f : δ → δ) :
    ∃ w', w.advance p f = some w' ∧ WInv w' ∧ w'.view = absStep (.advance p f) w.view := by
  obtain ⟨pr, hpr⟩ := Option.isSome_iff_exists.mp hsome
  obtain ⟨w1, pr1, e1, e2, e3, e4, e5, _⟩ := defragment_spec' h hpr
  have hp1 := e2.procs p pr1 e4
  have hw' := e2.update (pr' := { pr1 with data := pr1.data.map f }) (mots' := w1.mots)
    (hp1.mots_congr (by simp) (fun _ _ => Iff.rfl)) (fun _ _ _ _ => Iff.rfl)
  refine ⟨w1.setProc p (some { pr1 with data := pr1.data.map f }), ?_, hw', ?_⟩
  · simp [World.advance, e1, e4]
  · have hs : (w.view.procs p).isSome := by simp [World.view, hpr]
    simp only [absStep]
    rw [if_pos hs, ← e3]
    ext1
    · exact view_procs_set (pr' := { pr1 with data := pr1.data.map f }) e4 rfl _
    · funext x
      simp only
      match hwx : w1.mots x with
      | none =>
        rw [view_none hwx]
        exact view_none hwx
      | some (q, j) =>
        obtain ⟨prq, hprq⟩ := e2.mots x q j hwx
        obtain ⟨nj, hlj, _⟩ := (e2.procs q prq hprq).ref x j hwx
        rw [view_some hwx hprq hlj]
        by_cases hqp : q = p
        · subst hqp
          rw [e4] at hprq; simp at hprq; subst hprq
          rw [view_some (w := w1.setProc q _) hwx (pr := { pr1 with data := pr1.data.map f })
            (by simp [World.setProc]) hlj]
          simp
        · rw [view_some (w := w1.setProc p _) hwx (pr := prq) (by simp [World.setProc, hqp, hprq]) hlj]
          simp [hqp]

/-! ### Destroying a processor -/

theorem destroyLoop_spec {p : ProcId} {c : List Int} :
    ∀ {i : Nat}, Tiled c i c.length → ∀ (pr : Proc δ) (mots : Mots), pr.alloc.counts = c →
      PInv p pr.alloc (pr.pstate mots) → (∀ j n, Live pr.alloc j n → i ≤ j) →
      ∃ pr' mots', destroyLoop i pr mots = some (pr', mots') ∧
        PInv p pr'.alloc (pr'.pstate mots') ∧ (∀ j n, ¬ Live pr'.alloc j n) ∧
        (∀ m q j, mots' m = some (q, j) ↔ (mots m = some (q, j) ∧ q ≠ p)) := by
  intro i ht
  generalize he : c.length = e at ht
  induction ht with
  | nil x =>
    intro pr mots hc hp hlo
    have hnl : ∀ j n, ¬ Live pr.alloc j n := by
      intro j n hl
      have := hlo j n hl
      have := Live.block_le hl
      have := hl.1.1
      simp only [Alloc.numIndices, hc] at *
      omega
    refine ⟨pr, mots, ?_, hp, hnl, ?_⟩
    · rw [destroyLoop, if_neg (by simp only [Alloc.numIndices, hc]; omega)]
    · intro m q j
      constructor
      · intro hm
        refine ⟨hm, ?_⟩
        rintro rfl
        obtain ⟨n, hl, _⟩ := hp.ref m j hm
        exact hnl j n hl
      · exact fun hm => hm.1
  | @cons x n b hb ht ih =>
    intro pr mots hc hp hlo
    have h0 := hb.1
    have hle := ht.le
    have hlt : x < pr.alloc.numIndices := by simp only [Alloc.numIndices, hc]; omega
    have hb' : Block pr.alloc.counts x n := by rw [hc]; exact hb
    rw [destroyLoop, if_pos hlt]
    by_cases hun : x ∈ pr.alloc.unused
    · have hnul : pr.back[x]? = some none := hp.nul x hlt (by
        rintro j m hl ⟨h1, h2⟩
        exact HoleCell.not_live (a := pr.alloc) ⟨x, n, hun, hb', by omega, by omega⟩ j m hl ⟨h1, h2⟩)
      simp only [hnul, Proc.dimensions, countFor_block hb']
      apply ih he pr mots hc hp
      intro j m hl
      have h1 := hlo j m hl
      have hne : j ≠ x := by rintro rfl; exact hl.2 hun
      have := hb'.disjoint hl.1 (by omega)
      exact this
    · have hl : Live pr.alloc x n := ⟨hb', hun⟩
      obtain ⟨m, q1, q2⟩ := hp.own x n hl
      obtain ⟨pr', r1, r2, r3, r4, r4', r5, r6, r7, r8⟩ := removeQuiet_spec hp q1 hl
      have q20 := q2 0 h0
      simp only [Nat.add_zero, Proc.pstate] at q20
      have hb'' : Block pr'.alloc.counts x n := by rw [r5]; exact hb'
      simp only [q20, r1, Proc.dimensions, countFor_block hb'']
      obtain ⟨pr2, mots2, s1, s2, s3, s4⟩ := ih he pr' (setMot mots m none) (by rw [r5, hc]) r2 (by
        intro j m' hj
        obtain ⟨hj1, hj2⟩ := (r7 j m').mp hj
        have h1 := hlo j m' hj1
        exact hb'.disjoint hj1.1 (by omega))
      refine ⟨pr2, mots2, s1, s2, s3, ?_⟩
      intro m' q j
      rw [s4]
      by_cases hm' : m' = m
      · subst hm'
        rw [setMot_self]
        simp only [Proc.pstate] at q1
        rw [q1]
        simp
        intro hc' _; exact hc'.symm
      · rw [setMot_ne _ _ hm']

theorem hsum_total {a : Alloc} (h : Inv a) (hno : ∀ j n, ¬ Live a j n) :
    hsum a.counts a.unused = a.numIndices := by
  obtain ⟨L, h1, _, h3, h4⟩ := h.tiled.list
  have hperm : (a.unused.map fun u => (u, (countFor a.counts u).getD 0)).Perm L := by
    rw [List.perm_ext_iff_of_nodup (h.nodup.map (fun x y hxy => (Prod.mk.inj hxy).1)) h1]
    rintro ⟨i, n⟩
    rw [h3, List.mem_map]
    constructor
    · rintro ⟨u, hu, he⟩
      obtain ⟨k, hk⟩ := h.holes u hu
      rw [countFor_block hk] at he
      simp at he
      obtain ⟨rfl, rfl⟩ := he
      have := hk.lt_length
      have := hk.1
      exact ⟨hk, Nat.zero_le _, by omega⟩
    · rintro ⟨hb, _, _⟩
      refine ⟨i, ?_, by rw [countFor_block hb]; rfl⟩
      by_contra hc
      exact hno i n ⟨hb, hc⟩
  have := (hperm.map Prod.snd).sum_nat
  rw [h4, List.map_map] at this
  exact this

theorem isEmpty_of_no_live {a : Alloc} (h : Inv a) (hno : ∀ j n, ¬ Live a j n) :
    isEmpty a = some true := by
  simp only [isEmpty, numUnused_eq h, Option.map_some, hsum_total h hno, decide_true]

theorem destroyProc_spec {w : World δ} (h : WInv w) {p : ProcId} (hsome : (w.procs p).isSome) :
    ∃ w', w.destroyProc p = some w' ∧ WInv w' ∧ w'.view = absStep (.destroyProc p) w.view := by
  obtain ⟨pr, hpr⟩ := Option.isSome_iff_exists.mp hsome
  have hp := h.procs p pr hpr
  obtain ⟨pr', mots', e1, e2, e3, e4⟩ := destroyLoop_spec (p := p) hp.inv.tiled pr w.mots rfl hp
    (fun _ _ _ => Nat.zero_le _)
  refine ⟨⟨(w.setProc p none).procs, mots'⟩, ?_, ⟨?_, ?_⟩, ?_⟩
  · simp [World.destroyProc, hpr, e1, isEmpty_of_no_live e2.inv e3, check]
  · intro q prq hq
    simp only [World.setProc] at hq
    split at hq
    · simp at hq
    · rename_i hqp
      exact (h.procs q prq hq).mots_congr rfl (fun m i => by rw [e4]; simp [hqp])
  · intro m q i hm
    obtain ⟨h1, h2⟩ := (e4 m q i).mp hm
    obtain ⟨prq, hprq⟩ := h.mots m q i h1
    exact ⟨prq, by simp [World.setProc, h2, hprq]⟩
  · have hs : (w.view.procs p).isSome := by simp [World.view, hpr]
    simp only [absStep]
    rw [if_pos hs]
    ext1
    · funext q
      simp only [World.view, World.setProc]
      split <;> rfl
    · funext x
      simp only
      match hwx : w.mots x with
      | none =>
        rw [view_none hwx]
        refine view_none ?_
        simp only
        match hm' : mots' x with
        | none => rfl
        | some (q, j) => have := ((e4 x q j).mp hm').1; rw [hwx] at this; simp at this
      | some (q, j) =>
        obtain ⟨prq, hprq⟩ := h.mots x q j hwx
        obtain ⟨nj, hlj, _⟩ := (h.procs q prq hprq).ref x j hwx
        rw [view_some hwx hprq hlj]
        by_cases hqp : q = p
        · subst hqp
          simp only [ne_eq, not_true_eq_false, decide_false, Option.filter_some, Bool.false_eq_true,
            if_false]
          refine view_none ?_
          simp only
          match hm' : mots' x with
          | none => rfl
          | some (q', j') =>
            obtain ⟨g1, g2⟩ := (e4 x q' j').mp hm'
            rw [hwx] at g1; simp at g1; exact absurd g1.1.symm g2
        · have hm' : mots' x = some (q, j) := (e4 x q j).mpr ⟨hwx, hqp⟩
          rw [view_some (w := ⟨_, _⟩) hm' (pr := prq) (by simp [World.setProc, hqp, hprq]) hlj]
          rw [Option.filter_some, if_pos (by simp [hqp])]

theorem create_spec {w : World δ} (h : WInv w) (p : ProcId) (dflt : δ) (cl : Bool) :
    ∃ w', step (.create p dflt cl) w = some w' ∧ WInv w' ∧
      w'.view = absStep (.create p dflt cl) w.view := by
  simp only [step, absStep]
  match hpr : w.procs p with
  | some pr =>
    refine ⟨w, by simp, h, ?_⟩
    rw [if_pos (by simp [World.view, hpr])]
  | none =>
    refine ⟨w.setProc p (some (Proc.new dflt cl)), by simp, ?_, ?_⟩
    · have hnl : ∀ i n, ¬ Live Alloc.init i n := by
        intro i n hl
        have := Live.block_le hl
        have := hl.1.1
        simp [Alloc.numIndices, Alloc.init] at *
        omega
      apply h.update (pr' := Proc.new dflt cl) (mots' := w.mots)
      · refine ⟨inv_init, rfl, rfl, ?_, ?_, ?_⟩
        · intro i n hl; exact absurd hl (hnl i n)
        · intro m i hm
          obtain ⟨pr, hpr'⟩ := h.mots m p i hm
          rw [hpr] at hpr'; simp at hpr'
        · intro k hk; simp [Proc.new, Alloc.numIndices, Alloc.init] at hk
      · intro _ _ _ _; exact Iff.rfl
    · rw [if_neg (by simp [World.view, hpr])]
      ext1
      · funext q
        simp only [World.view, World.setProc]
        split <;> rfl
      · funext x
        simp only
        match hwx : w.mots x with
        | none => rw [view_none hwx]; exact view_none hwx
        | some (q, j) =>
          obtain ⟨prq, hprq⟩ := h.mots x q j hwx
          obtain ⟨nj, hlj, _⟩ := (h.procs q prq hprq).ref x j hwx
          rw [view_some hwx hprq hlj]
          have hqp : q ≠ p := by rintro rfl; rw [hpr] at hprq; simp at hprq
          exact view_some (w := w.setProc p _) hwx (by simp [World.setProc, hqp, hprq]) hlj

/-! ### All API calls -/

theorem step_spec {w : World δ} (h : WInv w) (op : Op δ) :
    ∃ w', step op w = some w' ∧ WInv w' ∧ w'.view = absStep op w.view := by
  have hps : ∀ p, (w.view.procs p).isSome = (w.procs p).isSome := by
    intro p; simp [World.view]
  match op with
  | .create p d cl => exact create_spec h p d cl
  | .initialize m p vals =>
    simp only [step, absStep, hps]
    split
    · rename_i hc; exact initialize_spec h hc.1 hc.2
    · exact ⟨w, rfl, h, rfl⟩
  | .invalidate m =>
    obtain ⟨w', h1, h2, _, h4⟩ := invalidate_spec h m
    exact ⟨w', h1, h2, h4⟩
  | .moveAssign dst src => exact moveAssign_spec h dst src
  | .moveConstruct dst src =>
    simp only [step, absStep, view_none_iff h]
    by_cases hc : dst ≠ src ∧ w.mots dst = none
    · rw [if_pos hc, if_pos (by simpa [World.valid] using hc)]
      exact moveConstruct_spec h hc.2
    · rw [if_neg hc, if_neg (by simpa [World.valid] using hc)]
      exact ⟨w, rfl, h, rfl⟩
  | .cloneFrom dst src => exact cloneFrom_spec h dst src
  | .write m off v => exact write_spec h m off v
  | .advance p f =>
    by_cases hc : (w.procs p).isSome
    · simp only [step]; rw [if_pos hc]; exact advance_spec h hc f
    · simp only [step, absStep, hps]; rw [if_neg hc, if_neg hc]; exact ⟨w, rfl, h, rfl⟩
  | .destroyProc p =>
    by_cases hc : (w.procs p).isSome
    · simp only [step]; rw [if_pos hc]; exact destroyProc_spec h hc
    · simp only [step, absStep, hps]; rw [if_neg hc, if_neg hc]; exact ⟨w, rfl, h, rfl⟩

theorem runFrom_spec : ∀ (ops : List (Op δ)) (w : World δ), WInv w →
    ∃ w', runFrom w ops = some w' ∧ WInv w' ∧
      w'.view = ops.foldl (fun s op => absStep op s) w.view := by
  intro ops
  induction ops with
  | nil => intro w h; exact ⟨w, rfl, h, rfl⟩
  | cons op ops ih =>
    intro w h
    obtain ⟨w1, h1, h2, h3⟩ := step_spec h op
    obtain ⟨w2, g1, g2, g3⟩ := ih w1 h2
    exact ⟨w2, by simp [runFrom, h1, g1], g2, by rw [g3, h3]; rfl⟩

theorem run_winv {ops : List (Op δ)} {w : World δ} (h : run ops = some w) :
    WInv w ∧ w.view = absRun ops := by
  obtain ⟨w', h1, h2, h3⟩ := runFrom_spec ops World.empty winv_empty
  rw [run, h1] at h
  simp at h; subst h
  exact ⟨h2, h3⟩

end Motive.Proc
