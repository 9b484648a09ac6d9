import Verif.Proc.Clean

/-! The value of an unused slot of a processor never changes. -/

namespace Motive.Proc

variable {δ : Type}

/-- The unused slots of every processor hold a value that satisfies `P`. -/
def World.Dflt (P : δ → Prop) (w : World δ) : Prop := ∀ p pr, w.procs p = some pr → P pr.dflt

theorem World.Dflt.set {P : δ → Prop} {w : World δ} (h : w.Dflt P) {p : ProcId} {pr pr' : Proc δ} (hp : w.procs p = some pr)
    (hd : pr'.dflt = pr.dflt) (mots : Mots) : World.Dflt P ⟨(w.setProc p (some pr')).procs, mots⟩ := by
  intro q pq hq
  simp only [World.setProc] at hq
  split at hq
  · rename_i hqp; subst hqp
    simp at hq; subst hq
    rw [hd]; exact h q pr hp
  · exact h q pq hq

theorem removeMotivator_dflt {P : δ → Prop} {w w' : World δ} (h : w.Dflt P) {p : ProcId} {i : Nat}
    (hr : w.removeMotivator p i = some w') : w'.Dflt P := by
  simp only [World.removeMotivator, removeQuiet, Option.bind_eq_bind, Option.bind_eq_some_iff, Option.pure_def, Option.some.injEq] at hr
  obtain ⟨pr, hpr, -, -, n, -, -, -, data, -, ⟨pr', mots'⟩, ⟨m, -, n', -, back, -, a, -, e⟩, rfl⟩ := hr
  simp only [Prod.mk.injEq] at e
  obtain ⟨rfl, -⟩ := e
  exact h.set hpr (by rfl) _

theorem invalidate_dflt {P : δ → Prop} {w w' : World δ} (h : w.Dflt P) {m : MotId} (hr : w.invalidate m = some w') : w'.Dflt P := by
  unfold World.invalidate at hr
  split at hr
  · simp at hr; subst hr; exact h
  · exact removeMotivator_dflt h hr

theorem allocate_dflt {P : δ → Prop} {w w' : World δ} (h : w.Dflt P) {p : ProcId} {m : MotId} {n i : Nat}
    (hr : w.allocate p m n = some (w', i)) : w'.Dflt P := by
  simp only [World.allocate, Option.bind_eq_bind, Option.bind_eq_some_iff, Option.pure_def, Option.some.injEq, Prod.mk.injEq] at hr
  obtain ⟨pr, hpr, ⟨⟨a, s⟩, i'⟩, -, back, -, rfl, -⟩ := hr
  exact h.set hpr (by rfl) _

theorem transfer_dflt {P : δ → Prop} {w w' : World δ} (h : w.Dflt P) {p : ProcId} {i : Nat} {m : MotId}
    (hr : w.transfer p i m = some w') : w'.Dflt P := by
  simp only [World.transfer, Option.bind_eq_bind, Option.bind_eq_some_iff, Option.pure_def, Option.some.injEq] at hr
  obtain ⟨pr, hpr, -, -, old, -, n, -, back, -, rfl⟩ := hr
  exact h.set hpr (by rfl) _

theorem defragment_dflt {P : δ → Prop} {w w' : World δ} (h : w.Dflt P) {p : ProcId} (hr : w.defragment p = some w') : w'.Dflt P := by
  simp only [World.defragment, Option.bind_eq_bind, Option.bind_eq_some_iff, Option.pure_def, Option.some.injEq] at hr
  obtain ⟨pr, hpr, ⟨a, s⟩, -, rfl⟩ := hr
  exact h.set hpr (by rfl) _

theorem step_dflt {P : δ → Prop} {w w' : World δ} (h : w.Dflt P) (op : Op δ) (hc : ∀ p d cl, op = .create p d cl → P d)
    (hr : step op w = some w') : w'.Dflt P := by
  cases op with
  | create p d cl =>
    simp only [step] at hr
    split at hr
    · simp at hr; subst hr; exact h
    · simp at hr; subst hr
      intro q pq hq
      simp only [World.setProc] at hq
      split at hq
      · simp at hq; subst hq; exact hc p d cl rfl
      · exact h q pq hq
  | «initialize» m p vals =>
    simp only [step] at hr
    split at hr
    · simp only [World.initialize, Option.bind_eq_bind, Option.bind_eq_some_iff] at hr
      obtain ⟨w1, h1, ⟨w2, i⟩, h2, h3⟩ := hr
      have g2 := allocate_dflt (invalidate_dflt h h1) h2
      simp only [World.initializeIndices, Option.bind_eq_bind, Option.bind_eq_some_iff, Option.pure_def, Option.some.injEq] at h3
      obtain ⟨pr, hpr, -, -, data, -, rfl⟩ := h3
      exact g2.set hpr (by rfl) w2.mots
    · simp at hr; subst hr; exact h
  | invalidate m => exact invalidate_dflt h hr
  | moveAssign dst src =>
    simp only [step, World.moveAssign, Option.bind_eq_bind, Option.bind_eq_some_iff] at hr
    obtain ⟨w1, h1, h2⟩ := hr
    have g1 := invalidate_dflt h h1
    split at h2
    · simp at h2; subst h2; exact g1
    · exact transfer_dflt g1 h2
  | moveConstruct dst src =>
    simp only [step] at hr
    split at hr
    · unfold World.moveConstruct at hr
      split at hr
      · simp at hr; subst hr; exact h
      · exact transfer_dflt h hr
    · simp at hr; subst hr; exact h
  | cloneFrom dst src =>
    simp only [step, World.cloneFrom, Option.bind_eq_bind, Option.bind_eq_some_iff] at hr
    obtain ⟨w1, h1, h2⟩ := hr
    have g1 := invalidate_dflt h h1
    split at h2
    · simp at h2; subst h2; exact g1
    · split at h2
      · simp at h2; subst h2; exact g1
      · simp only [World.cloneMotivator, Option.bind_eq_bind, Option.bind_eq_some_iff] at h2
        obtain ⟨pr, hpr, h2⟩ := h2
        split at h2
        · simp only [Option.bind_eq_some_iff, Option.pure_def, Option.some.injEq] at h2
          obtain ⟨n, -, ⟨w2, i⟩, h3, pr2, hpr2, data, -, rfl⟩ := h2
          exact (allocate_dflt g1 h3).set hpr2 (by rfl) w2.mots
        · simp at h2; subst h2; exact g1
  | write m off v =>
    simp only [step] at hr
    split at hr
    · simp only [World.write, Option.bind_eq_bind, Option.bind_eq_some_iff, Option.pure_def, Option.some.injEq] at hr
      obtain ⟨⟨p, i⟩, -, pr, hpr, -, -, data, -, rfl⟩ := hr
      exact h.set hpr (by rfl) w.mots
    · simp at hr; subst hr; exact h
  | advance p f =>
    simp only [step] at hr
    split at hr
    · simp only [World.advance, Option.bind_eq_bind, Option.bind_eq_some_iff, Option.pure_def, Option.some.injEq] at hr
      obtain ⟨w1, h1, pr, hpr, rfl⟩ := hr
      exact (defragment_dflt h h1).set hpr (by rfl) w1.mots
    · simp at hr; subst hr; exact h
  | destroyProc p =>
    simp only [step] at hr
    split at hr
    · simp only [World.destroyProc, Option.bind_eq_bind, Option.bind_eq_some_iff, Option.pure_def, Option.some.injEq] at hr
      obtain ⟨pr, hpr, ⟨pr', mots'⟩, -, e, -, -, -, rfl⟩ := hr
      intro q pq hq
      simp only [World.setProc] at hq
      split at hq
      · simp at hq
      · exact h q pq hq
    · simp at hr; subst hr; exact h

/-- Slots that belong to no handle hold the default, slots that belong to one hold one of its values. -/
theorem slot_cases {w : World δ} (hw : WInv w) (hc : w.Clean) {p : ProcId} {pr : Proc δ} (hpr : w.procs p = some pr) {x : δ}
    (hx : x ∈ pr.data) : x = pr.dflt ∨ ∃ m l, w.view.vals m = some (p, l) ∧ x ∈ l := by
  have hp := hw.procs p pr hpr
  obtain ⟨k, hk, rfl⟩ := List.mem_iff_getElem.mp hx
  have hk' : k < pr.alloc.numIndices := by
    have := hp.dlen
    simp only [Proc.pstate] at this
    omega
  by_cases hex : ∃ i n, Motive.Alloc.Live pr.alloc i n ∧ (i ≤ k ∧ k < i + n)
  · obtain ⟨i, n, hl, h1, h2⟩ := hex
    obtain ⟨m, hm, -⟩ := hp.own i n hl
    refine Or.inr ⟨m, _, view_some hm hpr hl, ?_⟩
    rw [List.mem_iff_getElem?]
    refine ⟨k - i, ?_⟩
    rw [List.getElem?_take, if_pos (by omega), List.getElem?_drop, show i + (k - i) = k by omega,
      List.getElem?_eq_getElem hk]
  · have := hc p pr hpr k hk' (fun i n hl hcon => hex ⟨i, n, hl, hcon⟩)
    rw [List.getElem?_eq_getElem hk] at this
    exact Or.inl (by simpa using this)

/-- The values of a handle are in slots of its processor. -/
theorem slot_mem {w : World δ} (hw : WInv w) {p : ProcId} {m : MotId} {l : List δ} (hm : w.view.vals m = some (p, l)) :
    ∃ pr, w.procs p = some pr ∧ ∀ x ∈ l, x ∈ pr.data := by
  obtain ⟨i, n, pr, -, h2, -, rfl⟩ := (view_iff hw).mp hm
  exact ⟨pr, h2, fun x hx => List.mem_of_mem_drop (List.mem_of_mem_take hx)⟩

end Motive.Proc
