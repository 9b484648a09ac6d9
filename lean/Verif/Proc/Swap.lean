import Verif.Proc.Clean

/-!
# Defragmentation that swaps

`MoveIndices` of the processors of matrices and SQTs swaps slots (matrix_processor.cpp:154-162, sqt_processor.cpp:155-163),
and that of rigs moves a pointer and leaves null (rig_processor.cpp:148-156).  `Verif.Proc.Model` copies.  Here: in every
reachable state both end in the same state, and the slots that are then cut off hold nothing: cutting them off destroys
nothing.
-/

namespace Motive.Proc

open Motive.Alloc

variable {δ : Type}

/-- The loop of `MoveIndices`; `rest y` is what is left in the slot that is moved, where `y` was in the slot it is moved to.
Swapping is `rest y = y`, leaving null is `rest y = null`. -/
def shiftLoop (rest : δ → δ) (fs t len : Nat) (d : List δ) : Option (List δ) :=
  (List.range len).foldlM (fun d k =>
    match d[fs + k]?, d[t + k]? with
    | some x, some y => some ((d.set (t + k) x).set (fs + k) (rest y))
    | _, _ => none) d

open Classical in
/-- `MoveIndexRange` and `SetNumIndices` (processor.cpp:186-220, matrix_processor.cpp:164-173) of a processor that moves slots with
`rest`.  It is an error to cut off a slot that is not empty. -/
noncomputable def callbacksR (p : ProcId) (dflt : δ) (rest : δ → δ) : Callbacks (PState δ) where
  setNum := fun n s =>
    if ∀ x ∈ s.data.drop n, x = dflt then some { s with back := vresize none n s.back, data := vresize dflt n s.data } else none
  move := fun a fs fe t s =>
    match reinit p a s.back fs fe t fs s.mots with
    | none => none
    | some mots =>
      match shiftLoop rest fs t (fe - fs) s.data with
      | none => none
      | some data =>
        match backLoop fs t (fe - fs) s.back with
        | none => none
        | some back => some ⟨back, data, mots⟩

/-- `Defragment` (processor.h:229) of such a processor. -/
noncomputable def World.defragmentR (rest : δ → δ) (w : World δ) (p : ProcId) : Option (World δ) := do
  let pr ← w.procs p
  let (a, s) ← Motive.Alloc.defragment (callbacksR p pr.dflt rest) pr.alloc (pr.pstate w.mots)
  pure ⟨(w.setProc p (some { pr with alloc := a, back := s.back, data := s.data })).procs, s.mots⟩

/-! ## Two clients at once -/

theorem backfill_proj {σ τ : Type} {cb : Callbacks σ} {cb' : Callbacks τ} {f : σ → τ}
    (hm : ∀ a fs fe t s s', cb.move a fs fe t s = some s' → cb'.move a fs fe t (f s) = some (f s'))
    {a a' : Alloc} {s s' : σ} (h : backfill cb a s = some (a', s')) : backfill cb' a (f s) = some (a', f s') := by
  unfold backfill at h ⊢
  repeat' (first | (split at h; all_goals (try (simp at h; done))))
  all_goals simp_all
  obtain ⟨-, h⟩ := h
  split at h
  · simp at h
  · rename_i s2 hs2
    rw [hm _ _ _ _ _ _ hs2]
    simp only
    repeat' (first | (split at h; all_goals (try (simp at h; done))))
    all_goals simp_all

theorem defragLoop_proj {σ τ : Type} {cb : Callbacks σ} {cb' : Callbacks τ} {f : σ → τ}
    (hm : ∀ a fs fe t s s', cb.move a fs fe t s = some s' → cb'.move a fs fe t (f s) = some (f s')) :
    ∀ (a : Alloc) (s : σ) (r : Alloc × σ), defragLoop cb a s = some r → defragLoop cb' a (f s) = some (r.1, f r.2) := by
  refine defragLoop.partial_correctness cb _ fun rec ih a s r h => ?_
  rw [defragLoop]
  split at h
  · simp at h
  · rename_i a1 h1
    split at h
    · simp at h
    · simp only [Option.some.injEq] at h
      subst h
      rfl
    · split at h
      · simp at h
      · rename_i a2 s2 h3
        rw [backfill_proj hm h3]
        exact ih a2 s2 r h

theorem defragment_proj {σ τ : Type} {cb : Callbacks σ} {cb' : Callbacks τ} {f : σ → τ}
    (hn : ∀ n s s', cb.setNum n s = some s' → cb'.setNum n (f s) = some (f s'))
    (hm : ∀ a fs fe t s s', cb.move a fs fe t s = some s' → cb'.move a fs fe t (f s) = some (f s'))
    {a a' : Alloc} {s s' : σ} (h : Motive.Alloc.defragment cb a s = some (a', s')) :
    Motive.Alloc.defragment cb' a (f s) = some (a', f s') := by
  unfold Motive.Alloc.defragment at h ⊢
  split at h
  · rename_i hu
    simp only [Option.some.injEq, Prod.mk.injEq] at h
    simp [h.1, h.2]
  · split at h
    · simp at h
    · rename_i a1 s1 h1
      rw [defragLoop_proj hm _ _ _ h1]
      simp only
      split at h
      · simp at h
      · rename_i u us hu1
        simp only [setNumIndices] at h ⊢
        cases h2 : cb.setNum u s1 with
        | none => rw [h2] at h; simp at h
        | some s2 =>
          rw [h2] at h
          rw [hn _ _ _ h2]
          simp only [Option.some.injEq, Prod.mk.injEq] at h ⊢
          exact ⟨h.1, by rw [h.2]⟩

/-- Both clients are told about every change. -/
def both {σ τ : Type} (cb : Callbacks σ) (cb' : Callbacks τ) : Callbacks (σ × τ) where
  setNum := fun n s => (cb.setNum n s.1).bind fun x => (cb'.setNum n s.2).map fun y => (x, y)
  move := fun a fs fe t s => (cb.move a fs fe t s.1).bind fun x => (cb'.move a fs fe t s.2).map fun y => (x, y)

theorem defragment_both {σ τ : Type} {cb : Callbacks σ} {cb' : Callbacks τ} {a a' : Alloc} {s : σ} {t : τ} {r : σ × τ}
    (h : Motive.Alloc.defragment (both cb cb') a (s, t) = some (a', r)) :
    Motive.Alloc.defragment cb a s = some (a', r.1) ∧ Motive.Alloc.defragment cb' a t = some (a', r.2) := by
  constructor
  · refine defragment_proj (cb := both cb cb') (f := Prod.fst) ?_ ?_ h
    · intro n s s' h
      simp only [both, Option.bind_eq_some_iff, Option.map_eq_some_iff] at h
      obtain ⟨x, h1, y, h2, rfl⟩ := h
      exact h1
    · intro a fs fe t s s' h
      simp only [both, Option.bind_eq_some_iff, Option.map_eq_some_iff] at h
      obtain ⟨x, h1, y, h2, rfl⟩ := h
      exact h1
  · refine defragment_proj (cb := both cb cb') (f := Prod.snd) ?_ ?_ h
    · intro n s s' h
      simp only [both, Option.bind_eq_some_iff, Option.map_eq_some_iff] at h
      obtain ⟨x, h1, y, h2, rfl⟩ := h
      exact h2
    · intro a fs fe t s s' h
      simp only [both, Option.bind_eq_some_iff, Option.map_eq_some_iff] at h
      obtain ⟨x, h1, y, h2, rfl⟩ := h
      exact h2

/-! ## The loop -/

theorem shiftLoop_spec {rest : δ → δ} {dflt : δ} (hr : rest dflt = dflt) {fs t : Nat} (d : List δ) (hdn : t < fs) :
    ∀ len, fs + len ≤ d.length → (∀ k, k < len → t + k < fs → d[t + k]? = some dflt) →
      ∃ d', shiftLoop rest fs t len d = some d' ∧ d'.length = d.length ∧
      (∀ k, k < len → d'[t + k]? = d[fs + k]?) ∧
      (∀ k, fs ≤ k → k < fs + len → t + len ≤ k → d'[k]? = some dflt) ∧
      (∀ k, (k < t ∨ t + len ≤ k) → (k < fs ∨ fs + len ≤ k) → d'[k]? = d[k]?) := by
  intro len
  induction len with
  | zero =>
    intro _ _
    exact ⟨d, rfl, rfl, by intro k hk; omega, by intro k _ _ _; omega, fun _ _ _ => rfl⟩
  | succ len ih =>
    intro hle hdst
    obtain ⟨b', e1, e2, e3, e4, e5⟩ := ih (by omega) (fun k hk => hdst k (by omega))
    obtain ⟨m, hm⟩ : ∃ m, d[fs + len]? = some m := ⟨d[fs + len], by simp⟩
    have hget : b'[fs + len]? = some m := by rw [e5 _ (by omega) (by omega), hm]
    have hnul : b'[t + len]? = some dflt := by
      by_cases h : t + len < fs
      · rw [e5 _ (by omega) (by omega)]; exact hdst len (by omega) h
      · exact e4 _ (by omega) (by omega) (by omega)
    refine ⟨(b'.set (t + len) m).set (fs + len) dflt, ?_, by simp [e2], ?_, ?_, ?_⟩
    · unfold shiftLoop at e1 ⊢
      rw [List.range_succ, List.foldlM_append, e1]
      simp only [List.foldlM_cons, List.foldlM_nil, hget, hnul, Option.bind_eq_bind,
        Option.bind_some, hr]
      rfl
    · intro k hk
      rw [List.getElem?_set_ne (by omega)]
      by_cases hkl : k = len
      · subst hkl
        rw [List.getElem?_set_self (by omega), hm]
      · rw [List.getElem?_set_ne (by omega)]
        exact e3 k (by omega)
    · intro k h1 h2 h3
      by_cases hk : k = fs + len
      · subst hk
        rw [List.getElem?_set_self (by simp; omega)]
      · rw [List.getElem?_set_ne (by omega), List.getElem?_set_ne (by omega)]
        exact e4 k h1 (by omega) (by omega)
    · intro k h1 h2
      rw [List.getElem?_set_ne (by omega), List.getElem?_set_ne (by omega)]
      exact e5 k (by omega) (by omega)

/-- Both states agree on what is in use; what is not in use is empty in the second. -/
structure Same (p : ProcId) (dflt : δ) (a0 : Alloc) (s0 : PState δ) (a : Alloc) (x : PState δ × PState δ) : Prop where
  carry : Carry p a0 s0 a x.1
  back : x.2.back = x.1.back
  mots : x.2.mots = x.1.mots
  len : x.2.data.length = x.1.data.length
  live : ∀ i n, Live a i n → ∀ k, i ≤ k → k < i + n → x.2.data[k]? = x.1.data[k]?
  idle : ∀ k, k < a.numIndices → (∀ i n, Live a i n → ¬ (i ≤ k ∧ k < i + n)) → x.2.data[k]? = some dflt

theorem stable_same (p : ProcId) {dflt : δ} {rest : δ → δ} (hr : rest dflt = dflt) (a0 : Alloc) (s0 : PState δ) :
    Stable (both (callbacks p dflt) (callbacksR p dflt rest)) (Same p dflt a0 s0) := by
  have hst := stable_proc p dflt a0 s0
  constructor
  · intro a a' x h1 h2 hnum hlive h
    exact ⟨hst.merge a a' x.1 h1 h2 hnum hlive h.carry, h.back, h.mots, h.len, fun i n hl => h.live i n ((hlive i n).mp hl),
      fun k hk hno => h.idle k (by omega) fun i n hl => hno i n ((hlive i n).mpr hl)⟩
  · intro a x fs fe t a' h1 h2 hm h
    obtain ⟨s', e1, e2⟩ := hst.move a x.1 fs fe t a' h1 h2 hm h.carry
    have hp := h.carry.pinv
    have hdn := hm.down
    have hlt := hm.lt
    have hle := hm.le
    have hlive_src : ∀ i n, Block a.counts i n → fs ≤ i → i < fe → Live a i n :=
      fun i n hb h1 h2 => ⟨hb, (hm.src i n hb h1 h2).1⟩
    obtain ⟨d', c1, c2, c3, c4, c5⟩ := shiftLoop_spec hr x.2.data hdn (fe - fs) (by rw [h.len, hp.dlen]; omega)
      (fun k hk hlt' => h.idle _ (by omega) (HoleCell.not_live (hm.dst _ (by omega) (by omega) hlt')))
    obtain ⟨data', d1, d2, d3, d4⟩ := copyLoop_spec x.1.data hdn (fe - fs) (by rw [hp.dlen]; omega)
    have hx := e1
    simp only [callbacks, d1] at e1
    split at e1
    · simp at e1
    · rename_i mots' hmots
      split at e1
      · simp at e1
      · rename_i back' hback
        simp only [Option.some.injEq] at e1
        subst e1
        refine ⟨(⟨back', data', mots'⟩, ⟨back', d', mots'⟩), ?_, ⟨e2, rfl, rfl, by simp only [c2, d2, h.len], ?_, ?_⟩⟩
        · simp only [both, hx, Option.bind_some]
          simp only [callbacksR, h.back, h.mots, hmots, c1, hback, Option.map_some]
        · intro j n hl k hk1 hk2
          simp only
          rcases (hm.live j n).mp hl with ⟨hl', hout⟩ | ⟨i, hl', q1, q2, q3⟩
          · have h0 := hl'.1.1
            rcases MoveSpec.case hm hl' with hc | hc
            · omega
            · rw [c5 _ (by omega) (by omega), d4 _ (by omega)]
              exact h.live j n hl' k hk1 hk2
          · have e3 := c3 (k - t) (by omega)
            have e4 := d3 (k - t) (by omega)
            rw [show t + (k - t) = k by omega] at e3 e4
            rw [e3, e4]
            exact h.live i n hl' _ (by omega) (by omega)
        · intro k hk hno
          rw [hm.num] at hk
          simp only
          by_cases hin : t ≤ k ∧ k < t + (fe - fs)
          · exfalso
            obtain ⟨i, n, hb, r1, r2, r3, r4⟩ := hm.tiled.cover (k := fs + (k - t)) (by omega) (by omega)
            have h0 := hb.1
            exact hno (i - fs + t) n ((hm.live _ n).mpr (Or.inr
              ⟨i, hlive_src i n hb r1 (by omega), r1, r2, by omega⟩)) ⟨by omega, by omega⟩
          · by_cases hsrc : fs ≤ k ∧ k < fe
            · exact c4 k hsrc.1 (by omega) (by omega)
            · rw [c5 k (by omega) (by omega)]
              apply h.idle k hk
              intro i n hl hc
              rcases MoveSpec.case hm hl with h1 | h1
              · omega
              · exact hno i n ((hm.live i n).mpr (Or.inl ⟨hl, h1.1⟩)) hc
  · intro a x n a' h1 h2 hn hnum hlive h
    obtain ⟨s', e1, e2⟩ := hst.trim a x.1 n a' h1 h2 hn hnum hlive h.carry
    have hp := h.carry.pinv
    have hcut : ∀ y ∈ x.2.data.drop n, y = dflt := by
      intro y hy
      obtain ⟨k, hk⟩ := List.getElem?_of_mem hy
      rw [List.getElem?_drop] at hk
      have hlt := (List.getElem?_eq_some_iff.mp hk).1
      rw [h.len, hp.dlen] at hlt
      have := h.idle (n + k) hlt fun i m hl hc => by
        have := Live.block_le ((hlive i m).mpr hl)
        omega
      rw [this] at hk
      exact (Option.some.inj hk).symm
    have he : (callbacks p dflt).setNum n x.1 = some s' := e1
    simp only [callbacks, Option.some.injEq] at e1
    subst e1
    refine ⟨({ x.1 with back := vresize none n x.1.back, data := vresize dflt n x.1.data },
      { x.2 with back := vresize none n x.2.back, data := vresize dflt n x.2.data }), ?_,
      ⟨e2, by simp only [h.back], h.mots, by simp only [vresize_length], ?_, ?_⟩⟩
    · simp only [both, he, Option.bind_some]
      simp only [callbacksR, if_pos hcut, Option.map_some]
    · intro i m hl k hk1 hk2
      have := Live.block_le hl
      simp only
      rw [vresize_get (by omega) (by rw [h.len, hp.dlen]; omega), vresize_get (by omega) (by rw [hp.dlen]; omega)]
      exact h.live i m ((hlive i m).mp hl) k hk1 hk2
    · intro k hk hno
      simp only
      rw [vresize_get (by omega) (by rw [h.len, hp.dlen]; omega)]
      exact h.idle k (by omega) fun i m hl => hno i m ((hlive i m).mpr hl)

/-- Moving slots by swapping, or by moving a pointer and leaving null, gives the same state as copying, and cuts off only
empty slots. -/
theorem defragment_swap {w : World δ} (h : WInv w) (hc : w.Clean) {p : ProcId} {pr : Proc δ} (hpr : w.procs p = some pr) {rest : δ → δ}
    (hr : rest pr.dflt = pr.dflt) : w.defragmentR rest p = w.defragment p := by
  have hp := h.procs p pr hpr
  have hsame : Same p pr.dflt pr.alloc (pr.pstate w.mots) pr.alloc (pr.pstate w.mots, pr.pstate w.mots) :=
    ⟨⟨hp, fun _ _ hr => hr, fun _ _ => rfl⟩, rfl, rfl, rfl, fun _ _ _ _ _ _ => rfl, fun k hk hno => hc p pr hpr k hk hno⟩
  obtain ⟨a', x, e1, e2, e3, e4, -⟩ := Motive.Alloc.defragment_spec (stable_same p hr pr.alloc (pr.pstate w.mots)) pr.alloc
    (pr.pstate w.mots, pr.pstate w.mots) hp.inv hsame
  obtain ⟨f1, f2⟩ := defragment_both e1
  have hx : x.2 = x.1 := by
    have hd : x.2.data = x.1.data := by
      refine List.ext_getElem? fun k => ?_
      by_cases hk : k < a'.numIndices
      · obtain ⟨i, n, hb, -, -, h1, h2⟩ := e2.tiled.cover (Nat.zero_le k) hk
        exact e3.live i n ⟨hb, by rw [e4]; simp⟩ k h1 h2
      · have hl := e3.carry.pinv.dlen
        rw [List.getElem?_eq_none (by rw [e3.len, hl]; omega), List.getElem?_eq_none (by rw [hl]; omega)]
    have hb := e3.back
    have hm := e3.mots
    obtain ⟨⟨b1, d1, m1⟩, ⟨b2, d2, m2⟩⟩ := x
    simp only at hd hb hm
    simp [hd, hb, hm]
  unfold World.defragmentR World.defragment
  simp only [hpr, Option.bind_eq_bind, Option.bind_some, f1, f2, hx]

end Motive.Proc
