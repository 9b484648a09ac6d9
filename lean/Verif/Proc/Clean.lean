import Verif.Proc.World
import Verif.Proc.Props
/-!
# Unallocated slots hold the default value

At every moment between API calls, each slot that belongs to no motivator holds what `T()` puts there. Processors whose `InitializeIndices`
does not write every member of a slot (spline_processor.cpp:205-210) rely on it.
-/

namespace Motive.Proc

open Motive.Alloc

variable {δ : Type}

/-- Every slot outside the allocated blocks holds the default value. -/
def Proc.Clean (pr : Proc δ) : Prop :=
  ∀ k, k < pr.alloc.numIndices → (∀ i n, Live pr.alloc i n → ¬ (i ≤ k ∧ k < i + n)) → pr.data[k]? = some pr.dflt

def World.Clean (w : World δ) : Prop := ∀ p pr, w.procs p = some pr → pr.Clean

theorem World.Clean.set {w : World δ} (h : w.Clean) {p : ProcId} {pr' : Proc δ} (hp : pr'.Clean) (mots : Mots) :
    (⟨(w.setProc p (some pr')).procs, mots⟩ : World δ).Clean := by
  intro q pr hq
  simp only [World.setProc] at hq
  split at hq
  · simp at hq; subst hq; exact hp
  · exact h q pr hq

/-- Changing slots of a live block keeps the rest clean. -/
theorem Proc.Clean.setData {pr : Proc δ} (h : pr.Clean) {i n : Nat} (hl : Live pr.alloc i n) {data' : List δ}
    (hout : ∀ k, (k < i ∨ i + n ≤ k) → data'[k]? = pr.data[k]?) : ({ pr with data := data' } : Proc δ).Clean := by
  intro k hk hno
  have := hno i n hl
  simp only
  rw [hout k (by omega)]
  exact h k hk hno

theorem removeMotivator_clean {w w' : World δ} (h : WInv w) (hc : w.Clean) {m : MotId} {p : ProcId} {i : Nat}
    (hm : w.mots m = some (p, i)) (hr : w.removeMotivator p i = some w') :
    w'.Clean ∧ ∀ q, (w'.procs q).map Proc.dflt = (w.procs q).map Proc.dflt := by
  obtain ⟨pr, hpr⟩ := h.mots m p i hm
  have hp := h.procs p pr hpr
  obtain ⟨n, hl, hb⟩ := hp.ref m i hm
  have hle := Live.block_le hl
  have hdl : pr.data.length = pr.alloc.numIndices := hp.dlen
  obtain ⟨data', d1, d2, d3, d4⟩ := setRange_spec (l := pr.data) (i := i)
    (vs := List.replicate n pr.dflt) (by simp; omega)
  simp only [List.length_replicate] at d3 d4
  obtain ⟨pr', r1, r2, r3, r4, r4', r5, r6, r7, r8⟩ := removeQuiet_spec (p := p)
    (pr := { pr with data := data' }) (mots := w.mots) (hp.mots_congr d2 (fun _ _ => Iff.rfl)) hm hl
  simp [World.removeMotivator, hpr, check_true (hp.validMotivatorIndex hm), Proc.dimensions,
      countFor_block hl.1, check_true (hp.allValid hm hl), d1, r1] at hr
  subst hr
  refine ⟨hc.set (pr' := pr') ?_ _, ?_⟩
  · intro k hk hno
    rw [r3, r4']
    simp only
    have hk' : k < pr.alloc.numIndices := by
      have : pr'.alloc.numIndices = pr.alloc.numIndices := by simp only [Alloc.numIndices, r5]
      omega
    by_cases hin : i ≤ k ∧ k < i + n
    · have := d3 (k - i) (by omega)
      rw [show i + (k - i) = k by omega, replicate_get (by omega)] at this
      exact this
    · rw [d4 k (by omega)]
      refine hc p pr hpr k hk' fun j nj hj => ?_
      by_cases hji : j = i
      · subst hji
        rw [hj.1.unique hl.1]; exact hin
      · exact hno j nj ((r7 j nj).mpr ⟨hj, hji⟩)
  · intro q
    simp only [World.setProc]
    split
    · rename_i hq; subst hq; rw [hpr]; simp [r4']
    · rfl

theorem invalidate_clean {w w' : World δ} (h : WInv w) (hc : w.Clean) {m : MotId} (hr : w.invalidate m = some w') :
    w'.Clean ∧ ∀ q, (w'.procs q).map Proc.dflt = (w.procs q).map Proc.dflt := by
  unfold World.invalidate at hr
  match hm : w.mots m with
  | none => rw [hm] at hr; simp at hr; subst hr; exact ⟨hc, fun _ => rfl⟩
  | some (p, i) => rw [hm] at hr; exact removeMotivator_clean h hc hm hr

/-- Newly allocated slots hold the default value. -/
theorem allocate_clean {w w' : World δ} (h : WInv w) (hc : w.Clean) {m : MotId} {p : ProcId} {pr : Proc δ} {n i : Nat}
    (hm : w.mots m = none) (hpr : w.procs p = some pr) (h0 : 0 < n) (hr : w.allocate p m n = some (w', i)) :
    w'.Clean ∧ (∀ q, (w'.procs q).map Proc.dflt = (w.procs q).map Proc.dflt) ∧
      w'.view = w.view.set m (some (p, List.replicate n pr.dflt)) := by
  have hp := h.procs p pr hpr
  obtain ⟨w'', i', pr'', f1, f2, f3, f4, f5, f6, f7, f8, f9⟩ := allocate_spec h hm hpr h0
  rw [hr] at f1
  simp only [Option.some.injEq, Prod.mk.injEq] at f1
  obtain ⟨rfl, rfl⟩ := f1
  obtain ⟨a', s', i2, e1, e2, e3⟩ := alloc_spec (cb := callbacks p pr.dflt) hp.inv h0
    (pr.pstate w.mots) (Or.inr ⟨_, rfl⟩)
  have hdl : pr.data.length = pr.alloc.numIndices := hp.dlen
  have hnew : ∀ k, i2 ≤ k → k < i2 + n → s'.data[k]? = some pr.dflt := by
    intro k h1 h2
    rcases e3 with ⟨n', g1, g2, g3, g4, rfl⟩ | ⟨_, g2, g3, g4⟩
    · refine hc p pr hpr k (by have := g1.1.lt_length; simp only [Alloc.numIndices]; omega) fun j nj hj hin => ?_
      have := e2.fresh j nj hj
      omega
    · simp only [callbacks, Option.some.injEq] at g4
      subst g4
      exact vresize_new (by omega) (by simp only [Proc.pstate]; omega)
  have hold : ∀ k, k < pr.alloc.numIndices → s'.data[k]? = pr.data[k]? := by
    intro k hk
    rcases e3 with ⟨n', g1, g2, g3, g4, rfl⟩ | ⟨_, g2, g3, g4⟩
    · rfl
    · simp only [callbacks, Option.some.injEq] at g4
      subst g4
      exact vresize_get (by omega) (by simp only [Proc.pstate]; omega)
  have hgrow : ∀ k, pr.alloc.numIndices ≤ k → k < a'.numIndices → i2 ≤ k ∧ k < i2 + n := by
    intro k h1 h2
    rcases e3 with ⟨n', g1, g2, g3, g4, rfl⟩ | ⟨_, g2, g3, g4⟩ <;> omega
  have hlive : Live a' i2 n := (e2.live i2 n).mpr (Or.inr ⟨rfl, rfl⟩)
  -- read off the result
  simp only [World.allocate, hpr, Option.bind_eq_bind, Option.bind_some, e1] at hr
  cases hb : setRange s'.back i2 (List.replicate n (some m)) with
  | none => rw [hb] at hr; simp at hr
  | some back =>
    rw [hb] at hr
    simp only [Option.bind_some, Option.pure_def, Option.some.injEq, Prod.mk.injEq] at hr
    obtain ⟨rfl, rfl⟩ := hr
    have hpr'' : pr'' = { pr with alloc := a', back := back, data := s'.data } := by
      simpa [World.setProc, eq_comm] using f3
    refine ⟨hc.set (fun k hk hno => ?_) _, fun q => ?_, ?_⟩
    · simp only at hk hno ⊢
      have := hno i2 n hlive
      have hk' : k < pr.alloc.numIndices := by
        by_contra hcon
        exact this (hgrow k (by omega) hk)
      rw [hold k hk']
      exact hc p pr hpr k hk' fun j nj hj => hno j nj ((e2.live j nj).mpr (Or.inl hj))
    · simp only [World.setProc]
      split
      · rename_i hq; subst hq; rw [hpr]; rfl
      · rfl
    · ext1
      · exact f8
      · funext x
        simp only [Abs.set]
        split
        · rename_i hx; subst hx
          refine (view_some (i := i2) (n := n) (pr := pr'') ?_ f3 f6).trans ?_
          · exact setMot_self _ _ _
          · subst hpr''
            congr 2
            apply List.ext_getElem?
            intro k
            by_cases hk : k < n
            · rw [List.getElem?_take, if_pos hk, List.getElem?_drop, replicate_get hk]
              exact hnew _ (by omega) (by omega)
            · rw [List.getElem?_take, if_neg hk, List.getElem?_replicate, if_neg hk]
        · rename_i hx; exact f7 x hx

theorem initializeIndices_clean {w w' : World δ} (h : WInv w) (hc : w.Clean) {m : MotId} {p : ProcId} {i : Nat}
    {vals : List δ} (hm : w.mots m = some (p, i)) (hn : w.dimensions m = some vals.length)
    (hr : w.initializeIndices p i vals = some w') :
    w'.Clean ∧ ∀ q, (w'.procs q).map Proc.dflt = (w.procs q).map Proc.dflt := by
  obtain ⟨pr, hpr⟩ := h.mots m p i hm
  have hp := h.procs p pr hpr
  obtain ⟨n, hl, hb⟩ := hp.ref m i hm
  have hnl : n = vals.length := by
    simp [World.dimensions, hm, hpr, Proc.dimensions, countFor_block hl.1] at hn; exact hn
  subst hnl
  have hle := Live.block_le hl
  have hdl : pr.data.length = pr.alloc.numIndices := hp.dlen
  obtain ⟨data', d1, d2, d3, d4⟩ := setRange_spec (l := pr.data) (i := i) (vs := vals) (by omega)
  simp [World.initializeIndices, hpr, check_true (hp.allValid hm hl), d1] at hr
  subst hr
  refine ⟨hc.set (p := p) ((hc p pr hpr).setData hl d4) w.mots, fun q => ?_⟩
  simp only [World.setProc]
  split
  · rename_i hq; subst hq; rw [hpr]; rfl
  · rfl

theorem transfer_clean {w w' : World δ} (hc : w.Clean) {p : ProcId} {i : Nat} {m : MotId}
    (hr : w.transfer p i m = some w') : w'.Clean ∧ ∀ q, (w'.procs q).map Proc.dflt = (w.procs q).map Proc.dflt := by
  unfold World.transfer at hr
  simp only [Option.bind_eq_bind, Option.bind_eq_some_iff, Option.pure_def, Option.some.injEq] at hr
  obtain ⟨pr, hpr, _, _, old, _, n, _, back, _, rfl⟩ := hr
  refine ⟨hc.set (p := p) (pr' := { pr with back := back }) (fun k hk hno => hc p pr hpr k hk hno) _, fun q => ?_⟩
  simp only [World.setProc]
  split
  · rename_i hq; subst hq; rw [hpr]; rfl
  · rfl

theorem write_clean {w w' : World δ} (h : WInv w) (hc : w.Clean) {m : MotId} {off n : Nat} {v : δ}
    (hn : w.dimensions m = some n) (ho : off < n) (hr : w.write m off v = some w') :
    w'.Clean ∧ ∀ q, (w'.procs q).map Proc.dflt = (w.procs q).map Proc.dflt := by
  unfold World.write at hr
  simp only [Option.bind_eq_bind, Option.bind_eq_some_iff, Option.pure_def, Option.some.injEq] at hr
  obtain ⟨⟨p, i⟩, hm, pr, hpr, _, _, data', d1, rfl⟩ := hr
  have hp := h.procs p pr hpr
  obtain ⟨n', hl, hb⟩ := hp.ref m i hm
  have hnl : n' = n := by
    simp [World.dimensions, hm, hpr, Proc.dimensions, countFor_block hl.1] at hn; exact hn
  subst hnl
  have hle := Live.block_le hl
  have hdl : pr.data.length = pr.alloc.numIndices := hp.dlen
  obtain ⟨data2, e1, e2, e3, e4⟩ := setRange_spec (l := pr.data) (i := i + off) (vs := [v]) (by simp; omega)
  simp only at d1
  rw [e1] at d1
  simp only [Option.some.injEq] at d1
  subst d1
  refine ⟨hc.set (p := p) ((hc p pr hpr).setData hl fun k hk => e4 k (by simp; omega)) w.mots, fun q => ?_⟩
  simp only [World.setProc]
  split
  · rename_i hq; subst hq; rw [hpr]; rfl
  · rfl

theorem clean_of_no_holes {p : ProcId} {pr : Proc δ} {mots : Mots} (hp : PInv p pr.alloc (pr.pstate mots))
    (hu : pr.alloc.unused = []) : pr.Clean := by
  intro k hk hno
  obtain ⟨i, n, hb, -, -, h1, h2⟩ := hp.inv.tiled.cover (Nat.zero_le k) hk
  exact absurd ⟨h1, h2⟩ (hno i n ⟨hb, by rw [hu]; simp⟩)

theorem defragment_clean {w w' : World δ} (h : WInv w) (hc : w.Clean) {p : ProcId} (hr : w.defragment p = some w') :
    w'.Clean ∧ (∀ q, (w'.procs q).map Proc.dflt = (w.procs q).map Proc.dflt) ∧
      ∀ pr', w'.procs p = some pr' → pr'.alloc.unused = [] := by
  cases hpr : w.procs p with
  | none => simp [World.defragment, hpr] at hr
  | some pr =>
    obtain ⟨w2, pr', e1, e2, e3, e4, e5, e6⟩ := defragment_spec' h hpr
    rw [hr] at e1
    simp only [Option.some.injEq] at e1
    subst e1
    have hother : ∀ q, q ≠ p → w'.procs q = w.procs q := by
      intro q hq
      simp only [World.defragment, hpr, Option.bind_eq_bind, Option.bind_some, Option.bind_eq_some_iff, Option.pure_def,
        Option.some.injEq] at hr
      obtain ⟨⟨a, s⟩, -, rfl⟩ := hr
      simp [World.setProc, hq]
    refine ⟨fun q prq hq => ?_, fun q => ?_, fun pr2 h2 => ?_⟩
    · by_cases hqp : q = p
      · subst hqp; rw [e4] at hq; simp at hq; subst hq
        exact clean_of_no_holes (e2.procs q pr' e4) e5
      · rw [hother q hqp] at hq; exact hc q prq hq
    · by_cases hqp : q = p
      · subst hqp; rw [e4, hpr]; simp [e6]
      · rw [hother q hqp]
    · rw [e4] at h2; simp at h2; subst h2; exact e5

theorem step_clean {w w' : World δ} (h : WInv w) (hc : w.Clean) (op : Op δ) (hr : step op w = some w') : w'.Clean := by
  match op with
  | .create p d cl =>
    simp only [step] at hr
    split at hr
    · simp at hr; subst hr; exact hc
    · simp at hr; subst hr
      exact hc.set (p := p) (pr' := Proc.new d cl) (fun k hk => by simp [Proc.new, Alloc.init, Alloc.numIndices] at hk) w.mots
  | .initialize m p vals =>
    simp only [step] at hr
    split at hr
    · rename_i hp
      obtain ⟨w1, i1, i2, i3, i4⟩ := invalidate_spec h m
      obtain ⟨c1, -⟩ := invalidate_clean h hc i1
      simp only [World.initialize, i1, Option.bind_eq_bind, Option.bind_some, Option.bind_eq_some_iff] at hr
      obtain ⟨⟨w2, i⟩, a1, a2⟩ := hr
      have hm1 : w1.mots m = none := by rw [i3]; exact setMot_self _ _ _
      cases hpr : w1.procs p with
      | none => simp [World.allocate, hpr] at a1
      | some pr1 =>
        obtain ⟨w2', i', pr2, b1, b2, b3, b4, b5, b6, -⟩ := allocate_spec i2 hm1 hpr hp.2
        rw [a1] at b1
        simp only [Option.some.injEq, Prod.mk.injEq] at b1
        obtain ⟨rfl, rfl⟩ := b1
        obtain ⟨c2, -⟩ := allocate_clean i2 c1 hm1 hpr hp.2 a1
        have hm2 : w2.mots m = some (p, i) := by rw [b5]; exact setMot_self _ _ _
        exact (initializeIndices_clean b2 c2 hm2
          (by simp [World.dimensions, hm2, b3, Proc.dimensions, countFor_block b6.1]) a2).1
    · simp at hr; subst hr; exact hc
  | .invalidate m => exact (invalidate_clean h hc hr).1
  | .moveAssign dst src =>
    simp only [step, World.moveAssign, Option.bind_eq_bind, Option.bind_eq_some_iff] at hr
    obtain ⟨w1, i1, hr⟩ := hr
    have c1 := (invalidate_clean h hc i1).1
    split at hr
    · simp at hr; subst hr; exact c1
    · exact (transfer_clean c1 hr).1
  | .moveConstruct dst src =>
    simp only [step] at hr
    split at hr
    · unfold World.moveConstruct at hr
      split at hr
      · simp at hr; subst hr; exact hc
      · exact (transfer_clean hc hr).1
    · simp at hr; subst hr; exact hc
  | .cloneFrom dst src =>
    simp only [step, World.cloneFrom, Option.bind_eq_bind, Option.bind_eq_some_iff] at hr
    obtain ⟨w1, i1, hr⟩ := hr
    have c1 := (invalidate_clean h hc i1).1
    obtain ⟨w1', j1, i2, i3, i4⟩ := invalidate_spec h dst
    rw [i1] at j1; simp only [Option.some.injEq] at j1; subst j1
    split at hr
    · simp at hr; subst hr; exact c1
    · split at hr
      · simp at hr; subst hr; exact c1
      · rename_i s _ p i hm
        obtain ⟨pr, hpr⟩ := i2.mots s p i hm
        obtain ⟨n, hl, -⟩ := (i2.procs p pr hpr).ref s i hm
        simp only [World.cloneMotivator, hpr, Option.bind_eq_bind, Option.bind_some] at hr
        split at hr
        · simp only [Proc.dimensions, countFor_block hl.1, Option.bind_some, Option.bind_eq_some_iff, Option.pure_def,
            Option.some.injEq] at hr
          obtain ⟨⟨w2, i'⟩, a1, pr2, hpr2, data', d1, rfl⟩ := hr
          have hm1 : w1.mots dst = none := by rw [i3]; exact setMot_self _ _ _
          obtain ⟨w2', i'', pr2', b1, b2, b3, b4, b5, b6, b7, b8, b9⟩ := allocate_spec i2 hm1 hpr hl.1.1
          rw [a1] at b1
          simp only [Option.some.injEq, Prod.mk.injEq] at b1
          obtain ⟨rfl, rfl⟩ := b1
          simp only at hpr2
          rw [b3] at hpr2; simp only [Option.some.injEq] at hpr2; subst hpr2
          obtain ⟨c2, -⟩ := allocate_clean i2 c1 hm1 hpr hl.1.1 a1
          have hle := Live.block_le b6
          have hle' := Live.block_le (b9 i n hl).1
          have hdl : pr2'.data.length = pr2'.alloc.numIndices := (b2.procs p pr2' b3).dlen
          have hlen : ((pr2'.data.drop i).take n).length = n := by simp; omega
          obtain ⟨data2, e1, e2, e3, e4⟩ := setRange_spec (l := pr2'.data) (i := i')
            (vs := (pr2'.data.drop i).take n) (by omega)
          simp only at d1
          rw [e1] at d1; simp only [Option.some.injEq] at d1; subst d1
          rw [hlen] at e4
          exact c2.set (p := p) ((c2 p pr2' b3).setData b6 e4) w2.mots
        · simp at hr; subst hr; exact c1
  | .write m off v =>
    simp only [step] at hr
    split at hr
    · rename_i hd
      rw [Option.any_eq_true] at hd
      obtain ⟨n, hn, ho⟩ := hd
      exact (write_clean h hc hn (by simpa using ho) hr).1
    · simp at hr; subst hr; exact hc
  | .advance p f =>
    simp only [step] at hr
    split at hr
    · simp only [World.advance, Option.bind_eq_bind, Option.bind_eq_some_iff, Option.pure_def, Option.some.injEq] at hr
      obtain ⟨w1, d1, pr1, hpr1, rfl⟩ := hr
      obtain ⟨c1, -, c3⟩ := defragment_clean h hc d1
      have hs : ∃ pr, w.procs p = some pr := by
        cases hpr : w.procs p with
        | none => simp [World.defragment, hpr] at d1
        | some pr => exact ⟨pr, rfl⟩
      obtain ⟨pr, hpr⟩ := hs
      obtain ⟨w2, pr', e1, e2, -⟩ := defragment_spec' h hpr
      rw [d1] at e1; simp only [Option.some.injEq] at e1; subst e1
      have hp1 := e2.procs p pr1 hpr1
      exact c1.set (p := p) (clean_of_no_holes (p := p) (pr := { pr1 with data := pr1.data.map f }) (mots := w1.mots)
        (hp1.mots_congr (d' := pr1.data.map f) (by simp) (fun _ _ => Iff.rfl)) (c3 pr1 hpr1)) w1.mots
    · simp at hr; subst hr; exact hc
  | .destroyProc p =>
    simp only [step] at hr
    split at hr
    · simp only [World.destroyProc, Option.bind_eq_bind, Option.bind_eq_some_iff, Option.pure_def, Option.some.injEq] at hr
      obtain ⟨pr, hpr, ⟨pr', mots'⟩, -, e, -, _, -, rfl⟩ := hr
      intro q prq hq
      simp only [World.setProc] at hq
      split at hq
      · simp at hq
      · exact hc q prq hq
    · simp at hr; subst hr; exact hc

/-- **C39**, freed slots: after any history of API calls, every slot of a processor that belongs to no motivator holds the
default value, whatever was stored in it before. -/
theorem C39_unused_slots_are_default {ops : List (Op δ)} {w : World δ} (h : run ops = some w) {p : ProcId} {pr : Proc δ}
    (hpr : w.procs p = some pr) {k : Nat} {x : δ} (hk : pr.data[k]? = some x)
    (hfree : ∀ m i n, w.mots m = some (p, i) → w.dimensions m = some n → ¬ (i ≤ k ∧ k < i + n)) : x = pr.dflt := by
  have hall : ∀ (ops : List (Op δ)) (w w' : World δ), WInv w → w.Clean → runFrom w ops = some w' → WInv w' ∧ w'.Clean := by
    intro ops
    induction ops with
    | nil => intro w w' h1 h2 h3; simp [runFrom] at h3; subst h3; exact ⟨h1, h2⟩
    | cons op ops ih =>
      intro w w' h1 h2 h3
      obtain ⟨w1, g1, g2, -⟩ := step_spec h1 op
      simp only [runFrom, g1, Option.bind_some] at h3
      exact ih w1 w' g2 (step_clean h1 h2 op g1) h3
  obtain ⟨hw, hc⟩ := hall ops World.empty w winv_empty (fun q pr hq => by simp [World.empty] at hq) h
  have hp := hw.procs p pr hpr
  have hdl : pr.data.length = pr.alloc.numIndices := hp.dlen
  have hklt : k < pr.data.length := (List.getElem?_eq_some_iff.mp hk).1
  have := hc p pr hpr k (by omega) fun i n hl hin => by
    obtain ⟨m, hm, -⟩ := hp.own i n hl
    exact hfree m i n hm (by simp only [Proc.pstate] at hm; simp [World.dimensions, hm, hpr, Proc.dimensions, countFor_block hl.1]) hin
  rw [this] at hk
  simpa using hk.symm

example : ∃ w pr, run [.create 0 (0 : Int) true, .initialize 1 0 [5, 6], .initialize 2 0 [7], .invalidate 1] = some w ∧
    w.procs 0 = some pr ∧ pr.data = [0, 0, 7] := by
  obtain ⟨w, h1, -⟩ := runFrom_spec (δ := Int)
    [.create 0 (0 : Int) true, .initialize 1 0 [5, 6], .initialize 2 0 [7], .invalidate 1] World.empty winv_empty
  have h2 : ((run [.create 0 (0 : Int) true, .initialize 1 0 [5, 6], .initialize 2 0 [7], .invalidate 1]).bind
      fun w => (w.procs 0).map Proc.data) = some [0, 0, 7] := by decide +kernel
  rw [show run [.create 0 (0 : Int) true, .initialize 1 0 [5, 6], .initialize 2 0 [7], .invalidate 1] = some w from h1] at h2
  simp only [Option.bind_some, Option.map_eq_some_iff] at h2
  obtain ⟨pr, h3, h4⟩ := h2
  exact ⟨w, pr, h1, h3, h4⟩

end Motive.Proc
