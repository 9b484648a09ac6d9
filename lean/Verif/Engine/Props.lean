import Verif.Engine.Model
import Mathlib.Data.List.Nodup
import Mathlib.Data.List.Perm.Basic
import Mathlib.Tactic.Common

/-! # Properties of the engine (C13-C15) -/

namespace Motive.Engine

/-! ### Lemmas about the association lists -/

theorem find_some_mem {β : Type} {l : List (Nat × β)} {k : Nat} {v : β} (h : find l k = some v) :
    (k, v) ∈ l := by
  unfold find at h
  simp only [Option.map_eq_some_iff] at h
  obtain ⟨⟨a, b⟩, h1, rfl⟩ := h
  have h2 := List.find?_some h1
  have h3 := List.mem_of_find?_eq_some h1
  simp at h2
  subst h2; exact h3

theorem find_none {β : Type} {l : List (Nat × β)} {k : Nat} :
    find l k = none ↔ k ∉ l.map Prod.fst := by
  unfold find
  simp only [Option.map_eq_none_iff, List.find?_eq_none, List.mem_map, not_exists, not_and]
  constructor
  · intro h x hx hk; exact absurd hk (by simpa using h x hx)
  · intro h x hx; simpa using h x hx

theorem find_of_mem {β : Type} {l : List (Nat × β)} (hn : (l.map Prod.fst).Nodup) {k : Nat} {v : β}
    (h : (k, v) ∈ l) : find l k = some v := by
  match hf : find l k with
  | none => exact absurd (List.mem_map.mpr ⟨_, h, rfl⟩) (find_none.mp hf)
  | some v' =>
    have h' := find_some_mem hf
    have := List.inj_on_of_nodup_map hn h h' rfl
    simp at this; rw [this]

theorem insert_absent {β : Type} {l : List (Nat × β)} {k : Nat} {v : β} (h : find l k = none) :
    insert l k v = l ++ [(k, v)] := by simp [insert, h]

theorem find_insert_keep {β : Type} {l : List (Nat × β)} {k k' : Nat} {v v' : β}
    (h : find l k = some v) : find (insert l k' v') k = some v := by
  unfold insert
  split
  · exact h
  · unfold find at h ⊢
    rw [List.find?_append]
    simp only [Option.map_eq_some_iff] at h
    obtain ⟨x, h1, h2⟩ := h
    simp [h1, h2]

/-! ### Invariants -/

/-- Holds in every reachable state, also after `Reset`. -/
structure WeakInv (e : Engine) : Prop where
  regkeys : (e.registry.map Prod.fst).Nodup
  keys : (e.mapped.map Prod.fst).Nodup
  vals : (e.mapped.map Prod.snd).Nodup
  alive : ∀ t p, (t, p) ∈ e.mapped → ∃ prio, find e.registry t = some prio ∧ e.heap p = some prio
  fresh : ∀ p prio, e.heap p = some prio → p < e.next

/-- Holds as long as `Reset` has not been called. -/
structure StrongInv (e : Engine) : Prop extends WeakInv e where
  perm : e.sorted.Perm (e.mapped.map Prod.snd)
  order : e.sorted.Pairwise fun p q => ∀ a b, e.heap p = some a → e.heap q = some b →
    a < b ∨ (a = b ∧ p < q)

theorem insertSorted_spec {heap : Nat → Option Int} {p : Nat} {prio : Int} :
    ∀ {l : List Nat}, (∀ q ∈ l, ∃ a, heap q = some a) → heap p = some prio → (∀ q ∈ l, q < p) →
      (l.Pairwise fun p q => ∀ a b, heap p = some a → heap q = some b → a < b ∨ (a = b ∧ p < q)) →
      ∃ l', insertSorted heap p prio l = some l' ∧ l'.Perm (p :: l) ∧
      (l'.Pairwise fun p q => ∀ a b, heap p = some a → heap q = some b → a < b ∨ (a = b ∧ p < q)) := by
  intro l
  induction l with
  | nil => intro _ _ _ _; exact ⟨[p], rfl, List.Perm.refl _, by simp⟩
  | cons q qs ih =>
    intro hal hp hlt hpw
    obtain ⟨a, ha⟩ := hal q (by simp)
    have hpw' := List.pairwise_cons.mp hpw
    simp only [insertSorted, ha]
    by_cases hc : prio < a
    · rw [if_pos hc]
      refine ⟨_, rfl, List.Perm.refl _, List.pairwise_cons.mpr ⟨?_, hpw⟩⟩
      intro x hx a' b' ha' hb'
      rw [hp] at ha'; simp at ha'; subst ha'
      left
      rcases List.mem_cons.mp hx with rfl | hx
      · rw [ha] at hb'; simp at hb'; omega
      · rcases hpw'.1 x hx a b' ha hb' with h | h <;> omega
    · rw [if_neg hc]
      obtain ⟨l', e1, e2, e3⟩ := ih (fun x hx => hal x (by simp [hx])) hp
        (fun x hx => hlt x (by simp [hx])) hpw'.2
      refine ⟨q :: l', by rw [e1]; rfl, ?_, List.pairwise_cons.mpr ⟨?_, e3⟩⟩
      · exact (e2.cons q).trans (List.Perm.swap p q qs)
      · intro x hx a' b' ha' hb'
        rw [ha] at ha'; simp at ha'; subst ha'
        rcases List.mem_cons.mp (e2.mem_iff.mp hx) with rfl | hx
        · rw [hp] at hb'; simp at hb'; subst hb'
          have := hlt q (by simp)
          omega
        · exact hpw'.1 x hx a b' ha hb'

theorem weak_init : WeakInv Engine.init := by
  refine ⟨?_, ?_, ?_, ?_, ?_⟩ <;> simp [Engine.init]

theorem strong_init : StrongInv Engine.init :=
  { weak_init with perm := by simp [Engine.init], order := by simp [Engine.init] }

theorem weak_register {e : Engine} (h : WeakInv e) (t : Nat) (prio : Int) :
    WeakInv (register t prio e) := by
  refine ⟨?_, h.keys, h.vals, ?_, h.fresh⟩
  · simp only [register]
    match hf : find e.registry t with
    | some v => simp only [insert, hf]; exact h.regkeys
    | none =>
      rw [insert_absent hf, List.map_append, List.nodup_append]
      refine ⟨h.regkeys, by simp, ?_⟩
      intro x hx y hy; simp at hy; subst hy; rintro rfl; exact find_none.mp hf hx
  · intro t' p hm
    obtain ⟨a, h1, h2⟩ := h.alive t' p hm
    exact ⟨a, find_insert_keep h1, h2⟩

/-- The weak invariant after a creation. -/
theorem weak_create {e : Engine} (h : WeakInv e) {t : Nat} {prio : Int} (hm : find e.mapped t = none)
    (hr : find e.registry t = some prio) (s : List Nat) :
    WeakInv (remember e t prio s) := by
  have hne : ∀ t' p, (t', p) ∈ e.mapped → p < e.next := by
    intro t' p hp
    obtain ⟨a, _, h2⟩ := h.alive t' p hp
    exact h.fresh p a h2
  refine ⟨h.regkeys, ?_, ?_, ?_, ?_⟩
  · simp only [remember]
    rw [insert_absent hm, List.map_append, List.nodup_append]
    refine ⟨h.keys, by simp, ?_⟩
    intro x hx y hy; simp at hy; subst hy; rintro rfl; exact find_none.mp hm hx
  · simp only [remember]
    rw [insert_absent hm, List.map_append, List.nodup_append]
    refine ⟨h.vals, by simp, ?_⟩
    intro x hx y hy; simp at hy; subst hy
    obtain ⟨⟨t', p⟩, hp, rfl⟩ := List.mem_map.mp hx
    have := hne t' p hp
    simp only; omega
  · intro t' p hp
    simp only [remember, newHeap] at hp ⊢
    rw [insert_absent hm, List.mem_append] at hp
    rcases hp with hp | hp
    · obtain ⟨a, h1, h2⟩ := h.alive t' p hp
      have := hne t' p hp
      exact ⟨a, h1, by rw [if_neg (by omega)]; exact h2⟩
    · simp at hp; obtain ⟨rfl, rfl⟩ := hp
      exact ⟨prio, hr, by simp⟩
  · intro p a hp
    simp only [remember, newHeap] at hp ⊢
    split at hp
    · omega
    · have := h.fresh p a hp; omega

theorem strong_processor {e : Engine} (h : StrongInv e) (t : Nat) :
    ∃ e' r, processor t e = some (e', r) ∧ StrongInv e' := by
  unfold processor
  match hm : find e.mapped t with
  | some p => exact ⟨e, some p, rfl, h⟩
  | none =>
    simp only
    match hr : find e.registry t with
    | none => exact ⟨e, none, rfl, h⟩
    | some prio =>
      simp only
      have hmem : ∀ q ∈ e.sorted, ∃ a, e.heap q = some a := by
        intro q hq
        have := h.perm.mem_iff.mp hq
        obtain ⟨⟨t', p⟩, hp, rfl⟩ := List.mem_map.mp this
        obtain ⟨a, _, h2⟩ := h.alive t' p hp
        exact ⟨a, h2⟩
      have hlt : ∀ q ∈ e.sorted, q < e.next := fun q hq => by
        obtain ⟨a, ha⟩ := hmem q hq; exact h.fresh q a ha
      obtain ⟨l', e1, e2, e3⟩ := insertSorted_spec
        (heap := newHeap e prio) (p := e.next) (prio := prio)
        (l := e.sorted)
        (fun q hq => by
          obtain ⟨a, ha⟩ := hmem q hq
          have := hlt q hq
          exact ⟨a, by simp only [newHeap]; rw [if_neg (by omega)]; exact ha⟩)
        (by simp [newHeap]) hlt
        (by
          refine List.Pairwise.imp_of_mem ?_ h.order
          intro x y hx hy hxy a b ha hb
          have := hlt x hx
          have := hlt y hy
          simp only [newHeap] at ha hb
          rw [if_neg (by omega)] at ha hb
          exact hxy a b ha hb)
      rw [e1]
      refine ⟨_, _, rfl, { weak_create h.toWeakInv hm hr l' with perm := ?_, order := e3 }⟩
      simp only [remember]
      rw [insert_absent hm, List.map_append]
      refine e2.trans ((h.perm.cons _).trans ?_)
      simp only [List.map_cons, List.map_nil]
      exact (List.perm_append_singleton _ _).symm

/-- `advance` touches no dead processor as long as all listed ones are alive. -/
theorem advance_eq {heap : Nat → Option Int} : ∀ (l : List Nat), (∀ q ∈ l, ∃ a, heap q = some a) →
    (l.mapM fun p => (heap p).map fun _ => p) = some l := by
  intro l
  induction l with
  | nil => intro _; rfl
  | cons q qs ih =>
    intro h
    obtain ⟨a, ha⟩ := h q (by simp)
    simp [List.mapM_cons, ha, ih (fun x hx => h x (by simp [hx]))]

theorem strong_advance {e : Engine} (h : StrongInv e) : advance e = some e.sorted := by
  apply advance_eq
  intro q hq
  have := h.perm.mem_iff.mp hq
  obtain ⟨⟨t', p⟩, hp, rfl⟩ := List.mem_map.mp this
  obtain ⟨a, _, h2⟩ := h.alive t' p hp
  exact ⟨a, h2⟩

theorem strong_step {e : Engine} (h : StrongInv e) {c : Call} (hc : c ≠ .reset) :
    ∃ e', step c e = some e' ∧ StrongInv e' := by
  match c with
  | .register t prio =>
    exact ⟨_, rfl, { weak_register h.toWeakInv t prio with perm := h.perm, order := h.order }⟩
  | .processor t =>
    obtain ⟨e', r, h1, h2⟩ := strong_processor h t
    exact ⟨e', by simp [step, h1], h2⟩
  | .advance => exact ⟨e, by simp [step, strong_advance h], h⟩
  | .reset => exact absurd rfl hc

theorem strong_run : ∀ (cs : List Call) (e : Engine), StrongInv e → Call.reset ∉ cs →
    ∃ e', runFrom e cs = some e' ∧ StrongInv e' := by
  intro cs
  induction cs with
  | nil => intro e h _; exact ⟨e, rfl, h⟩
  | cons c cs ih =>
    intro e h hc
    obtain ⟨e1, h1, h2⟩ := strong_step h (c := c) (fun he => hc (by simp [he]))
    obtain ⟨e2, g1, g2⟩ := ih e1 h2 (fun hm => hc (by simp [hm]))
    exact ⟨e2, by simp [runFrom, h1, g1], g2⟩

theorem destroyAll_spec {reg : List (Nat × Int)} : ∀ (l : List (Nat × Nat)) (heap : Nat → Option Int),
    (l.map Prod.snd).Nodup → (∀ t p, (t, p) ∈ l → ∃ a, find reg t = some a ∧ heap p = some a) →
    ∃ heap', destroyAll reg l heap = some heap' ∧
      (∀ p, p ∈ l.map Prod.snd → heap' p = none) ∧
      (∀ p, p ∉ l.map Prod.snd → heap' p = heap p) := by
  intro l
  induction l with
  | nil => intro heap _ _; exact ⟨heap, rfl, by simp, fun _ _ => rfl⟩
  | cons x l ih =>
    obtain ⟨t, p⟩ := x
    intro heap hn hal
    obtain ⟨a, h1, h2⟩ := hal t p (by simp)
    simp only [List.map_cons, List.nodup_cons] at hn
    obtain ⟨heap', e1, e2, e3⟩ := ih (fun x => if x = p then none else heap x) hn.2 (by
      intro t' p' hm
      obtain ⟨b, g1, g2⟩ := hal t' p' (by simp [hm])
      refine ⟨b, g1, ?_⟩
      have : p' ≠ p := by
        rintro rfl; exact hn.1 (List.mem_map.mpr ⟨_, hm, rfl⟩)
      simp [this, g2])
    refine ⟨heap', by simp [destroyAll, h1, h2, e1], ?_, ?_⟩
    · intro q hq
      simp only [List.map_cons, List.mem_cons] at hq
      by_cases hql : q ∈ l.map Prod.snd
      · exact e2 q hql
      · rw [e3 q hql]
        rcases hq with rfl | hq
        · simp
        · exact absurd hq hql
    · intro q hq
      simp only [List.map_cons, List.mem_cons, not_or] at hq
      rw [e3 q hq.2]; simp [hq.1]

theorem weak_reset {e : Engine} (h : WeakInv e) : ∃ e', reset e = some e' ∧ WeakInv e' ∧
    e'.mapped = [] ∧ e'.sorted = e.sorted ∧ (∀ t p, (t, p) ∈ e.mapped → e'.heap p = none) := by
  obtain ⟨heap', h1, h2, h3⟩ := destroyAll_spec (reg := e.registry) e.mapped e.heap h.vals h.alive
  refine ⟨{ e with mapped := [], heap := heap' }, by simp [reset, h1], ⟨h.regkeys, by simp, by simp,
    by simp, ?_⟩, rfl, rfl, fun t p hm => h2 p (List.mem_map.mpr ⟨_, hm, rfl⟩)⟩
  intro p a hp
  by_cases hm : p ∈ e.mapped.map Prod.snd
  · simp only [h2 p hm] at hp; simp at hp
  · simp only [h3 p hm] at hp; exact h.fresh p a hp

theorem weak_step {e e' : Engine} (h : WeakInv e) {c : Call} (hs : step c e = some e') : WeakInv e' := by
  match c with
  | .register t prio => simp [step] at hs; subst hs; exact weak_register h t prio
  | .processor t =>
    simp only [step, Option.map_eq_some_iff] at hs
    obtain ⟨⟨e1, r⟩, hs, rfl⟩ := hs
    unfold processor at hs
    split at hs
    · simp at hs; rw [← hs.1]; exact h
    · rename_i hm
      split at hs
      · simp at hs; rw [← hs.1]; exact h
      · rename_i prio hr
        split at hs
        · simp at hs
        · rename_i s _
          simp at hs; rw [← hs.1]; exact weak_create h hm hr s
  | .advance =>
    simp only [step, Option.map_eq_some_iff] at hs
    obtain ⟨_, _, rfl⟩ := hs; exact h
  | .reset =>
    obtain ⟨e1, h1, h2, _⟩ := weak_reset h
    simp only [step, h1] at hs; simp at hs; subst hs; exact h2

theorem weak_run : ∀ (cs : List Call) (e e' : Engine), WeakInv e → runFrom e cs = some e' →
    WeakInv e' := by
  intro cs
  induction cs with
  | nil => intro e e' h hr; simp [runFrom] at hr; subst hr; exact h
  | cons c cs ih =>
    intro e e' h hr
    simp only [runFrom, Option.bind_eq_some_iff] at hr
    obtain ⟨e1, h1, h2⟩ := hr
    exact ih e1 e' (weak_step h h1) h2

/-! ## C13 -/

/-- In every reachable state (whatever registrations, requests, frames and resets came before), the
engine holds at most one processor per type, never the same processor for two types, and every processor
it holds is alive and was made by the factory registered for its type. -/
theorem C13_one_per_type {cs : List Call} {e : Engine} (h : run cs = some e) :
    (∀ t p p', (t, p) ∈ e.mapped → (t, p') ∈ e.mapped → p = p') ∧
    (∀ t t' p, (t, p) ∈ e.mapped → (t', p) ∈ e.mapped → t = t') ∧
    (∀ t p, (t, p) ∈ e.mapped → ∃ prio, find e.registry t = some prio ∧ e.heap p = some prio) := by
  have hw := weak_run cs _ e weak_init h
  refine ⟨?_, ?_, hw.alive⟩
  · intro t p p' h1 h2
    have := find_of_mem hw.keys h1
    rw [find_of_mem hw.keys h2] at this; simpa using this.symm
  · intro t t' p h1 h2
    have := List.inj_on_of_nodup_map hw.vals h1 h2 rfl
    simpa using congrArg Prod.fst this

theorem runFrom_mapped_keep : ∀ (cs : List Call) (e e' : Engine), runFrom e cs = some e' →
    Call.reset ∉ cs → ∀ t p, find e.mapped t = some p → find e'.mapped t = some p := by
  intro cs
  induction cs with
  | nil => intro e e' hr _ t p h; simp [runFrom] at hr; subst hr; exact h
  | cons c cs ih =>
    intro e e' hr hc t p h
    simp only [runFrom, Option.bind_eq_some_iff] at hr
    obtain ⟨e1, h1, h2⟩ := hr
    apply ih e1 e' h2 (fun hm => hc (by simp [hm]))
    match c with
    | .register t' prio => simp [step] at h1; subst h1; exact h
    | .processor t' =>
      simp only [step, Option.map_eq_some_iff] at h1
      obtain ⟨⟨e2, r⟩, hs, rfl⟩ := h1
      unfold processor at hs
      split at hs
      · simp at hs; rw [← hs.1]; exact h
      · split at hs
        · simp at hs; rw [← hs.1]; exact h
        · split at hs
          · simp at hs
          · simp at hs; rw [← hs.1]; exact find_insert_keep h
    | .advance =>
      simp only [step, Option.map_eq_some_iff] at h1
      obtain ⟨_, _, rfl⟩ := h1; exact h
    | .reset => exact absurd (by simp) hc

/-- Once a request for type `t` has returned a processor, every later request up to the next `Reset`
returns the same one and changes nothing (so the factory is not called again). -/
theorem C13_same_processor {cs cs' : List Call} {e e1 e2 : Engine} {t p : Nat}
    (_h : run cs = some e) (h1 : processor t e = some (e1, some p)) (h2 : runFrom e1 cs' = some e2)
    (hc : Call.reset ∉ cs') : processor t e2 = some (e2, some p) := by
  have hp : find e1.mapped t = some p := by
    unfold processor at h1
    split at h1
    · rename_i q hq; simp at h1; rw [← h1.1, ← h1.2]; exact hq
    · rename_i hm
      split at h1
      · simp at h1
      · split at h1
        · simp at h1
        · simp at h1
          rw [← h1.1, ← h1.2]
          simp only [remember]
          rw [insert_absent hm]
          unfold find at hm ⊢
          simp only [Option.map_eq_none_iff] at hm
          rw [List.find?_append, hm]
          simp
  have := runFrom_mapped_keep cs' e1 e2 h2 hc t p hp
  simp [processor, this]

/-- A second registration never replaces the first. -/
theorem C13_first_registration_wins {cs : List Call} {e e' : Engine} {t : Nat} {prio : Int}
    (h1 : find e.registry t = some prio) (h2 : runFrom e cs = some e') :
    find e'.registry t = some prio := by
  induction cs generalizing e with
  | nil => simp [runFrom] at h2; subst h2; exact h1
  | cons c cs ih =>
    simp only [runFrom, Option.bind_eq_some_iff] at h2
    obtain ⟨e1, g1, g2⟩ := h2
    refine ih ?_ g2
    match c with
    | .register t' prio' => simp [step] at g1; subst g1; exact find_insert_keep h1
    | .processor t' =>
      simp only [step, Option.map_eq_some_iff] at g1
      obtain ⟨⟨e2, r⟩, hs, rfl⟩ := g1
      unfold processor at hs
      split at hs
      · simp at hs; rw [← hs.1]; exact h1
      · split at hs
        · simp at hs; rw [← hs.1]; exact h1
        · split at hs
          · simp at hs
          · simp at hs; rw [← hs.1]; exact h1
    | .advance =>
      simp only [step, Option.map_eq_some_iff] at g1
      obtain ⟨_, _, rfl⟩ := g1; exact h1
    | .reset =>
      simp only [step, reset] at g1
      split at g1
      · simp at g1
      · simp at g1; subst g1; exact h1

/-- The registered types are exactly those named by some `RegisterProcessorFactory` call. -/
theorem registered_iff : ∀ (cs : List Call) (e e' : Engine), runFrom e cs = some e' → ∀ t,
    (t ∈ e'.registry.map Prod.fst ↔
      t ∈ e.registry.map Prod.fst ∨ ∃ prio, Call.register t prio ∈ cs) := by
  intro cs
  induction cs with
  | nil => intro e e' h t; simp [runFrom] at h; subst h; simp
  | cons c cs ih =>
    intro e e' h t
    simp only [runFrom, Option.bind_eq_some_iff] at h
    obtain ⟨e1, g1, g2⟩ := h
    rw [ih e1 e' g2 t]
    match c with
    | .register t' prio' =>
      simp [step] at g1; subst g1
      have : t ∈ (insert e.registry t' prio').map Prod.fst ↔
          t ∈ e.registry.map Prod.fst ∨ t = t' := by
        match hf : find e.registry t' with
        | none => rw [insert_absent hf]; simp
        | some v =>
          have hm : t' ∈ e.registry.map Prod.fst := List.mem_map.mpr ⟨_, find_some_mem hf, rfl⟩
          simp only [insert, hf]
          constructor
          · exact Or.inl
          · rintro (h | rfl)
            · exact h
            · exact hm
      simp only [register]
      rw [this]
      simp only [List.mem_cons, Call.register.injEq]
      constructor
      · rintro ((h | h) | ⟨q, h⟩)
        · exact Or.inl h
        · exact Or.inr ⟨prio', Or.inl ⟨h, rfl⟩⟩
        · exact Or.inr ⟨q, Or.inr h⟩
      · rintro (h | ⟨q, ⟨h, _⟩ | h⟩)
        · exact Or.inl (Or.inl h)
        · exact Or.inl (Or.inr h)
        · exact Or.inr ⟨q, h⟩
    | .processor t' =>
      have : e1.registry = e.registry := by
        simp only [step, Option.map_eq_some_iff] at g1
        obtain ⟨⟨e2, r⟩, hs, rfl⟩ := g1
        unfold processor at hs
        split at hs
        · simp at hs; rw [← hs.1]
        · split at hs
          · simp at hs; rw [← hs.1]
          · split at hs
            · simp at hs
            · simp at hs; rw [← hs.1]; rfl
      rw [this]; simp
    | .advance =>
      simp only [step, Option.map_eq_some_iff] at g1
      obtain ⟨_, _, rfl⟩ := g1; simp
    | .reset =>
      simp only [step, reset] at g1
      split at g1
      · simp at g1
      · simp at g1; subst g1; simp

/-- A request for a type yields null exactly if no factory was ever registered for it; without `Reset`
in the history it never fails. -/
theorem C13_null_iff_unregistered {cs : List Call} (hc : Call.reset ∉ cs) (t : Nat) :
    ∃ e e' r, run cs = some e ∧ processor t e = some (e', r) ∧
      (r = none ↔ ∀ prio, Call.register t prio ∉ cs) := by
  obtain ⟨e, h1, h2⟩ := strong_run cs _ strong_init hc
  obtain ⟨e', r, g1, _⟩ := strong_processor h2 t
  refine ⟨e, e', r, h1, g1, ?_⟩
  have hreg := registered_iff cs _ e h1 t
  simp only [Engine.init, List.map_nil, List.not_mem_nil, false_or] at hreg
  have hno : (∀ prio, Call.register t prio ∉ cs) ↔ t ∉ e.registry.map Prod.fst := by
    rw [hreg]; simp
  rw [hno, ← find_none]
  unfold processor at g1
  split at g1
  · rename_i p hp
    simp at g1
    obtain ⟨_, rfl⟩ := g1
    obtain ⟨a, ha, _⟩ := h2.alive t p (find_some_mem hp)
    simp [ha]
  · split at g1
    · rename_i hr; simp at g1; simp [g1.2.symm, hr]
    · rename_i hr
      split at g1
      · simp at g1
      · simp at g1; simp [← g1.2, hr]

/-- Two types requested in the order 7, 3, 7. -/
def demo : List Call :=
  [.register 7 2, .register 3 0, .register 7 5, .processor 7, .processor 3, .processor 7, .advance]

example : ((run demo).map fun e => (e.mapped, e.sorted)) = some ([(7, 0), (3, 1)], [1, 0]) := by decide
example : Call.reset ∉ demo := by decide

/-! ## C14 -/

/-- Every frame calls `AdvanceFrame` exactly once on each processor that the engine has created, lower
priorities first and in order of creation within a priority, whatever the history. -/
theorem C14_advance_order {cs : List Call} (hc : Call.reset ∉ cs) :
    ∃ e order, run cs = some e ∧ advance e = some order ∧ order.Nodup ∧
      (∀ p, p ∈ order ↔ ∃ t, (t, p) ∈ e.mapped) ∧
      (∀ (i j p q : Nat) (a b : Int), i < j → order[i]? = some p → order[j]? = some q →
        e.heap p = some a → e.heap q = some b → a < b ∨ (a = b ∧ p < q)) := by
  obtain ⟨e, h1, h2⟩ := strong_run cs _ strong_init hc
  refine ⟨e, e.sorted, h1, strong_advance h2, h2.perm.nodup_iff.mpr h2.vals, ?_, ?_⟩
  · intro p
    rw [h2.perm.mem_iff, List.mem_map]
    constructor
    · rintro ⟨⟨t, q⟩, hm, rfl⟩; exact ⟨t, hm⟩
    · rintro ⟨t, hm⟩; exact ⟨_, hm, rfl⟩
  · intro i j p q a b hij hi hj ha hb
    obtain ⟨hi', rfl⟩ := List.getElem?_eq_some_iff.mp hi
    obtain ⟨hj', rfl⟩ := List.getElem?_eq_some_iff.mp hj
    exact List.pairwise_iff_getElem.mp h2.order i j hi' hj' hij a b ha hb

example : ((run demo).bind advance) = some [1, 0] := by decide

/-! ## C15 -/

/-- Full statement of C15: no history of calls touches a destroyed processor. -/
def ResetSafe : Prop := ∀ cs : List Call, ∃ e, run cs = some e

/-- C15 is false of the code: `Reset` leaves dangling pointers in the sorted set, and the next frame
dereferences one. -/
theorem C15_reset_then_advance_is_use_after_free : ¬ ResetSafe := by
  intro h
  obtain ⟨e, he⟩ := h [.register 0 0, .processor 0, .reset, .advance]
  have : run [.register 0 0, .processor 0, .reset, .advance] = none := by decide
  rw [this] at he; simp at he

/-- So does the next creation of a processor. -/
theorem C15_reset_then_processor_is_use_after_free :
    run [.register 0 0, .processor 0, .reset, .processor 0] = none := by decide

/-- More generally, after any history without `Reset` that created a processor, `Reset` followed by
`AdvanceFrame` always touches a destroyed processor. -/
theorem C15_always_fails_after_reset {cs : List Call} (hc : Call.reset ∉ cs) {e : Engine}
    (h : run cs = some e) (hne : e.mapped ≠ []) : ∃ e', reset e = some e' ∧ advance e' = none := by
  obtain ⟨e0, h1, h2⟩ := strong_run cs _ strong_init hc
  rw [run, h1] at h; simp at h; subst h
  obtain ⟨e', g1, _, _, g4, g5⟩ := weak_reset h2.toWeakInv
  refine ⟨e', g1, ?_⟩
  match hs : e0.sorted with
  | [] =>
    have := h2.perm
    rw [hs] at this
    have := this.symm.eq_nil
    simp at this; exact absurd this hne
  | q :: qs =>
    have hq : q ∈ e0.mapped.map Prod.snd := h2.perm.mem_iff.mp (by rw [hs]; simp)
    obtain ⟨⟨t, p⟩, hp, rfl⟩ := List.mem_map.mp hq
    simp only at hs
    unfold advance
    rw [g4, hs, List.mapM_cons, g5 t p hp]
    rfl

/-- What does hold: `Reset` itself is always safe and destroys every processor of the engine, also when
repeated or after arbitrary further registrations (so destroying the engine is safe).  Missing from
C15: frames and new processors after a `Reset` that destroyed something. -/
theorem C15_reset_partial {cs : List Call} {e : Engine} (h : run cs = some e) :
    ∃ e', reset e = some e' ∧ e'.mapped = [] ∧ (∀ t p, (t, p) ∈ e.mapped → e'.heap p = none) ∧
      ∃ e'', reset e' = some e'' := by
  have hw := weak_run cs _ e weak_init h
  obtain ⟨e', g1, g2, g3, _, g5⟩ := weak_reset hw
  obtain ⟨e'', k1, _⟩ := weak_reset g2
  exact ⟨e', g1, g3, g5, e'', k1⟩

example : ∃ e, run demo = some e ∧ e.mapped ≠ [] := by
  obtain ⟨e, h1, h2⟩ := strong_run demo _ strong_init (by decide)
  refine ⟨e, h1, ?_⟩
  have : (run demo).map (fun e => e.mapped) = some [(7, 0), (3, 1)] := by decide
  rw [run, h1] at this
  simp at this
  simp [this]

end Motive.Engine
