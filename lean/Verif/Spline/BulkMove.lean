import Verif.Spline.BulkProps

/-!
# Moving and copying evaluator indices (C27)
-/

namespace Motive.Splines
open Motive.Math Motive.Curve

namespace Evaluator

theorem copyOne_eq {e : Evaluator} {old new : ℕ} {a b : Slot} (ha : e[old]? = some a) (hb : e[new]? = some b) :
    copyOne e old new = some (e.set new a) := by
  unfold copyOne
  rw [ha, hb]
  rfl

theorem moveLoop_spec (old new : ℕ) : ∀ (n i : ℕ) (e : Evaluator), old + i + n ≤ e.length → new + i + n ≤ e.length →
    (new ≤ old ∨ old + i + n ≤ new + i) →
    ∃ e', moveLoop e old new i n = some e' ∧ e'.length = e.length ∧
      (∀ k, i ≤ k → k < i + n → e'[new + k]? = e[old + k]?) ∧
      (∀ j, (j < new + i ∨ new + i + n ≤ j) → e'[j]? = e[j]?) := by
  intro n
  induction n with
  | zero => intro i e _ _ _; exact ⟨e, rfl, rfl, by omega, fun _ _ => rfl⟩
  | succ n ih =>
    intro i e h1 h2 h3
    obtain ⟨a, ha⟩ : ∃ a, e[old + i]? = some a := ⟨_, List.getElem?_eq_getElem (by omega)⟩
    obtain ⟨b, hb⟩ : ∃ b, e[new + i]? = some b := ⟨_, List.getElem?_eq_getElem (by omega)⟩
    have hlen : (e.set (new + i) a).length = e.length := List.length_set
    obtain ⟨e', r1, r2, r3, r4⟩ := ih (i + 1) (e.set (new + i) a) (by omega) (by omega) (by omega)
    refine ⟨e', ?_, by omega, ?_, ?_⟩
    · unfold moveLoop; rw [copyOne_eq ha hb]; exact r1
    · intro k hk1 hk2
      by_cases hki : k = i
      · subst hki
        rw [r4 _ (by omega), List.getElem?_set_self (by omega), ha]
      · rw [r3 k (by omega) (by omega), List.getElem?_set_ne (by omega)]
    · intro j hj
      rw [r4 j (by omega), List.getElem?_set_ne (by omega)]

/-- C27, move: when the destination lies before the source (they may overlap) or after its end, the move succeeds,
every destination index holds exactly what the source index held, and the other indices are unchanged. -/
theorem C27_move (e : Evaluator) (old new count : ℕ) (h1 : old + count ≤ e.length) (h2 : new + count ≤ e.length)
    (h3 : new ≤ old ∨ old + count ≤ new) :
    ∃ e', e.moveIndices old new count = some e' ∧ e'.length = e.length ∧
      (∀ k < count, e'[new + k]? = e[old + k]?) ∧
      (∀ j, (j < new ∨ new + count ≤ j) → e'[j]? = e[j]?) := by
  obtain ⟨e', r1, r2, r3, r4⟩ := moveLoop_spec old new count 0 e (by omega) (by omega) (by omega)
  exact ⟨e', r1, r2, fun k hk => r3 k (by omega) (by omega), fun j hj => r4 j (by omega)⟩

/-- The destination of a move to the right that overlaps its source is not what the source held: the first record is
copied over the others. -/
theorem C27_move_right_overlapping (a b c : Slot) :
    Evaluator.moveIndices [a, b, c] 0 1 2 = some [a, a, a] := rfl

/-- Advance by a list of frames. -/
noncomputable def run (h : Heap) (e : Evaluator) (dxs : List ℝ) : Option Evaluator :=
  dxs.foldlM (fun e dx => e.advanceFrame h dx) e

theorem mapM_iff {f : Slot → Option Slot} : ∀ {e g : Evaluator}, List.mapM f e = some g ↔
    (g.length = e.length ∧ ∀ (i : ℕ) c, e[i]? = some c → ∃ c', f c = some c' ∧ g[i]? = some c') := by
  intro e
  induction e with
  | nil =>
    intro g
    simp only [List.mapM_nil, List.length_nil]
    constructor
    · intro h; cases h; simp
    · rintro ⟨h, -⟩; rw [List.length_eq_zero_iff.mp h]; rfl
  | cons a e ih =>
    intro g
    rw [List.mapM_cons]
    cases hf : f a with
    | none =>
      constructor
      · intro h; simp at h
      · rintro ⟨-, h⟩
        obtain ⟨c', h1, -⟩ := h 0 a rfl
        rw [hf] at h1; cases h1
    | some b =>
      constructor
      · intro h
        cases hm : List.mapM f e with
        | none => rw [hm] at h; simp at h
        | some g' =>
          rw [hm] at h
          simp only [Option.bind_eq_bind, Option.bind_some, Option.pure_def, Option.some.injEq] at h
          subst h
          obtain ⟨h1, h2⟩ := ih.mp hm
          refine ⟨by simp [h1], ?_⟩
          intro i c hc
          cases i with
          | zero => simp only [List.getElem?_cons_zero, Option.some.injEq] at hc; subst hc; exact ⟨b, hf, rfl⟩
          | succ i => exact h2 i c (by simpa using hc)
      · rintro ⟨h1, h2⟩
        cases g with
        | nil => simp at h1
        | cons b' g' =>
          obtain ⟨c', e1, e2⟩ := h2 0 a rfl
          rw [hf] at e1; cases e1
          simp only [List.getElem?_cons_zero, Option.some.injEq] at e2
          subst e2
          have := ih.mpr ⟨by simpa using h1, fun i c hc => by simpa using h2 (i + 1) c (by simpa using hc)⟩
          rw [this]; rfl

theorem run_iff {h : Heap} : ∀ {dxs : List ℝ} {e g : Evaluator}, e.run h dxs = some g →
    g.length = e.length ∧ ∀ (i : ℕ) c, e[i]? = some c →
      ∃ c', dxs.foldlM (fun c dx => Slot.advance h dx c) c = some c' ∧ g[i]? = some c' := by
  intro dxs
  induction dxs with
  | nil => intro e g he; cases he; exact ⟨rfl, fun i c hc => ⟨c, rfl, hc⟩⟩
  | cons d dxs ih =>
    intro e g he
    unfold run at he ih
    rw [List.foldlM_cons] at he
    cases h1 : e.advanceFrame h d with
    | none => rw [h1] at he; simp at he
    | some e1 =>
      rw [h1] at he
      obtain ⟨a1, a2⟩ := mapM_iff.mp h1
      obtain ⟨b1, b2⟩ := ih he
      refine ⟨by omega, fun i c hc => ?_⟩
      obtain ⟨c1, k1, k2⟩ := a2 i c hc
      obtain ⟨c2, k3, k4⟩ := b2 i c1 k2
      exact ⟨c2, by rw [List.foldlM_cons, k1]; exact k3, k4⟩

/-- An evaluator each of whose records can be advanced through all frames can itself be advanced. -/
theorem run_of_slots {h : Heap} : ∀ {dxs : List ℝ} {e : Evaluator},
    (∀ (i : ℕ) c, e[i]? = some c → ∃ c', dxs.foldlM (fun c dx => Slot.advance h dx c) c = some c') →
    ∃ g, e.run h dxs = some g := by
  intro dxs
  induction dxs with
  | nil => intro e _; exact ⟨e, rfl⟩
  | cons d dxs ih =>
    intro e hall
    have step : ∀ (i : ℕ) c, e[i]? = some c → ∃ c1, Slot.advance h d c = some c1 ∧
        ∃ c', dxs.foldlM (fun c dx => Slot.advance h dx c) c1 = some c' := by
      intro i c hc
      obtain ⟨c', h1⟩ := hall i c hc
      rw [List.foldlM_cons] at h1
      cases h2 : Slot.advance h d c with
      | none => rw [h2] at h1; simp at h1
      | some c1 => rw [h2] at h1; exact ⟨c1, rfl, c', h1⟩
    have hm : ∃ e1, List.mapM (Slot.advance h d) e = some e1 := by
      have : ∀ (l : List Slot), (∀ c ∈ l, ∃ c1, Slot.advance h d c = some c1) →
          ∃ l1, List.mapM (Slot.advance h d) l = some l1 := by
        intro l
        induction l with
        | nil => intro _; exact ⟨[], rfl⟩
        | cons c l ihl =>
          intro hl
          obtain ⟨c1, h1⟩ := hl c (by simp)
          obtain ⟨l1, h2⟩ := ihl fun c hc => hl c (List.mem_cons_of_mem _ hc)
          exact ⟨c1 :: l1, by rw [List.mapM_cons, h1, h2]; rfl⟩
      refine this e fun c hc => ?_
      obtain ⟨i, hi⟩ := List.mem_iff_getElem?.mp hc
      obtain ⟨c1, h1, -⟩ := step i c hi
      exact ⟨c1, h1⟩
    obtain ⟨e1, he1⟩ := hm
    obtain ⟨a1, a2⟩ := mapM_iff.mp he1
    obtain ⟨g, hg⟩ := ih (e := e1) (by
      intro i c hc
      have hlt := (List.getElem?_eq_some_iff.mp hc).1
      obtain ⟨c0, hc0⟩ : ∃ c0, e[i]? = some c0 := ⟨_, List.getElem?_eq_getElem (by omega)⟩
      obtain ⟨c1, k1, c', k2⟩ := step i c0 hc0
      obtain ⟨c2, k3, k4⟩ := a2 i c0 hc0
      rw [k1] at k3; cases k3
      rw [hc] at k4; cases k4
      exact ⟨c', k2⟩)
    refine ⟨g, ?_⟩
    unfold run at hg ⊢
    rw [List.foldlM_cons, show e.advanceFrame h d = some e1 from he1]
    exact hg

/-- C27, future behaviour: if the evaluator can play any sequence of frames, it can also play them after the move,
and every moved index then holds exactly what the source index would have held. -/
theorem C27_move_future {h : Heap} {e e' g : Evaluator} {old new count : ℕ} (h1 : old + count ≤ e.length)
    (h2 : new + count ≤ e.length) (h3 : new ≤ old ∨ old + count ≤ new)
    (hm : e.moveIndices old new count = some e') (dxs : List ℝ) (hg : e.run h dxs = some g) :
    ∃ g', e'.run h dxs = some g' ∧ ∀ k < count, g'[new + k]? = g[old + k]? := by
  obtain ⟨e'', m1, m2, m3, m4⟩ := C27_move e old new count h1 h2 h3
  rw [hm] at m1; cases m1
  obtain ⟨r1, r2⟩ := run_iff hg
  obtain ⟨g', hg'⟩ := run_of_slots (h := h) (dxs := dxs) (e := e') (by
    intro i c hc
    by_cases hi : new ≤ i ∧ i < new + count
    · have := m3 (i - new) (by omega)
      rw [show new + (i - new) = i by omega, hc] at this
      obtain ⟨c', k, -⟩ := r2 _ c this.symm
      exact ⟨c', k⟩
    · rw [m4 i (by omega)] at hc
      obtain ⟨c', k, -⟩ := r2 _ c hc
      exact ⟨c', k⟩)
  refine ⟨g', hg', fun k hk => ?_⟩
  obtain ⟨q1, q2⟩ := run_iff hg'
  obtain ⟨c, hc⟩ : ∃ c, e[old + k]? = some c := ⟨_, List.getElem?_eq_getElem (by omega)⟩
  obtain ⟨c1, k1, k2⟩ := r2 _ c hc
  obtain ⟨c2, k3, k4⟩ := q2 (new + k) c (by rw [m3 k hk]; exact hc)
  rw [k1] at k3; cases k3
  rw [k2, k4]

/-- Specification: two heap objects hold splines with the same contents; their capacities may differ. -/
def SameSpline (h h' : Heap) : Option ℕ → Option ℕ → Prop
  | none, none => True
  | some i, some j => ∃ s m, h i = some s ∧ h' j = some { s with maxNodes := m }
  | _, _ => False

/-- Specification: two records differ at most in the identity of the spline, which has the same contents. -/
def SameSlot (h h' : Heap) (c c' : Slot) : Prop :=
  SameSpline h h' c.spline c'.spline ∧ c' = { c with spline := c'.spline }

theorem SameSlot.reads {h h' : Heap} {c c' : Slot} (H : SameSlot h h' c c') :
    c'.y = c.y ∧ c'.derivative = c.derivative ∧ c'.X h' = c.X h ∧ c'.rate = c.rate := by
  obtain ⟨h1, h2⟩ := H
  rw [h2]
  refine ⟨rfl, rfl, ?_, rfl⟩
  unfold Slot.X
  cases hi : c.spline <;> cases hj : c'.spline <;> rw [hi, hj] at h1
  · rfl
  · exact absurd h1 (by simp [SameSpline])
  · exact absurd h1 (by simp [SameSpline])
  · obtain ⟨s, m, e1, e2⟩ := h1
    simp only [Option.bind_some, e1, e2]
    rfl

theorem SameSlot.evaluate {h h' : Heap} {c c' : Slot} (H : SameSlot h h' c c') :
    SameSlot h h' c.evaluate c'.evaluate := by
  obtain ⟨h1, h2⟩ := H
  refine ⟨h1, ?_⟩
  conv_lhs => rw [h2]
  rfl

theorem SameSlot.initCubic {h h' : Heap} {c c' : Slot} (H : SameSlot h h' c c') (x : ℝ) {d : Slot}
    (hd : c.initCubic h x = some d) : ∃ d', c'.initCubic h' x = some d' ∧ SameSlot h h' d d' := by
  obtain ⟨h1, h2⟩ := H
  rw [h2]
  unfold Slot.initCubic at hd ⊢
  cases hi : c.spline <;> cases hj : c'.spline <;> rw [hi, hj] at h1
  · rw [hi] at hd
    simp only [Option.some.injEq] at hd
    subst hd
    exact ⟨_, rfl, by rw [hi]; trivial, rfl⟩
  · exact absurd h1 (by simp [SameSpline])
  · exact absurd h1 (by simp [SameSpline])
  · rename_i i j
    obtain ⟨s, m, e1, e2⟩ := h1
    rw [hi] at hd
    simp only [e1, Option.bind_some] at hd
    have a1 : ∀ x g r, Spline.indexForXRepeat { s with maxNodes := m } x g r = s.indexForXRepeat x g r :=
      fun _ _ _ => rfl
    have a2 : ∀ i, Spline.rangeX { s with maxNodes := m } i = s.rangeX i := fun _ => rfl
    have a3 : ∀ i, Spline.cubicInitAt { s with maxNodes := m } i = s.cubicInitAt i := fun _ => rfl
    simp only [e2, Option.bind_some, a1, a2, a3]
    cases p1 : s.indexForXRepeat x ((c.xIndex + 1) % 65536) c.rep with
    | none => rw [p1] at hd; simp at hd
    | some p =>
      rw [p1] at hd
      simp only [Option.bind_some] at hd ⊢
      cases p2 : s.rangeX p.1 with
      | none => rw [p2] at hd; simp at hd
      | some r =>
        rw [p2] at hd
        simp only [Option.bind_some] at hd ⊢
        cases p3 : s.cubicInitAt p.1 with
        | none => rw [p3] at hd; simp at hd
        | some ci =>
          rw [p3] at hd
          simp only [Option.map_some, Option.some.injEq] at hd ⊢
          subst hd
          exact ⟨_, rfl, ⟨s, m, e1, e2⟩, rfl⟩

theorem SameSlot.advance {h h' : Heap} {c c' : Slot} (H : SameSlot h h' c c') (dx : ℝ) {d : Slot}
    (hd : c.advance h dx = some d) : ∃ d', c'.advance h' dx = some d' ∧ SameSlot h h' d d' := by
  have H1 : SameSlot h h' { c with cubicX := c.cubicX + dx * c.rate }
      { c' with cubicX := c'.cubicX + dx * c'.rate } := by
    obtain ⟨h1, h2⟩ := H
    refine ⟨h1, ?_⟩
    conv_lhs => rw [h2]
  have e1 : c'.cubicXEnd = c.cubicXEnd := by rw [H.2]
  have e2 : c'.cubicX = c.cubicX := by rw [H.2]
  have e3 : c'.rate = c.rate := by rw [H.2]
  unfold Slot.advance at hd ⊢
  simp only at hd ⊢
  by_cases hp : c.cubicXEnd < ((c.cubicX + dx * c.rate : ℝ) : WithTop ℝ)
  · rw [if_pos hp] at hd
    rw [if_pos (by rw [e1, e2, e3]; exact hp), H1.reads.2.2.1]
    cases hx : Slot.X h { c with cubicX := c.cubicX + dx * c.rate } with
    | none => rw [hx] at hd; simp at hd
    | some x =>
      rw [hx] at hd
      simp only [Option.bind_some] at hd ⊢
      cases hi : Slot.initCubic h { c with cubicX := c.cubicX + dx * c.rate } x with
      | none => rw [hi] at hd; simp at hd
      | some d1 =>
        rw [hi] at hd
        simp only [Option.map_some, Option.some.injEq] at hd
        obtain ⟨d', k1, k2⟩ := H1.initCubic x hi
        refine ⟨d'.evaluate, by rw [k1]; rfl, ?_⟩
        rw [← hd]; exact k2.evaluate
  · rw [if_neg hp] at hd
    rw [if_neg (by rw [e1, e2, e3]; exact hp)]
    simp only [Option.map_some, Option.some.injEq] at hd
    exact ⟨_, rfl, by rw [← hd]; exact H1.evaluate⟩

theorem SameSlot.frames {h h' : Heap} (dxs : List ℝ) : ∀ {c c' : Slot}, SameSlot h h' c c' → ∀ {d : Slot},
    dxs.foldlM (fun c dx => Slot.advance h dx c) c = some d →
    ∃ d', dxs.foldlM (fun c dx => Slot.advance h' dx c) c' = some d' ∧ SameSlot h h' d d' := by
  induction dxs with
  | nil => intro c c' H d hd; cases hd; exact ⟨c', rfl, H⟩
  | cons x dxs ih =>
    intro c c' H d hd
    rw [List.foldlM_cons] at hd
    cases h1 : c.advance h x with
    | none => rw [h1] at hd; simp at hd
    | some c1 =>
      rw [h1] at hd
      obtain ⟨c1', k1, k2⟩ := H.advance x h1
      obtain ⟨d', k3, k4⟩ := ih k2 hd
      exact ⟨d', by rw [List.foldlM_cons, k1]; exact k3, k4⟩

theorem assignLoop_spec (alloc : ℕ → Option ℕ → Option ℕ) (dst src : ℕ) : ∀ (n i : ℕ) (e : Evaluator),
    src + i + n ≤ e.length → dst + i + n ≤ e.length → (dst + i + n ≤ src + i ∨ src + i + n ≤ dst + i) →
    ∃ e', assignLoop e alloc dst src i n = some e' ∧ e'.length = e.length ∧
      (∀ (k : ℕ) a b, i ≤ k → k < i + n → e[src + k]? = some a → e[dst + k]? = some b →
        e'[dst + k]? = some { b with spline := alloc (dst + k) a.spline }) ∧
      (∀ j, (j < dst + i ∨ dst + i + n ≤ j) → e'[j]? = e[j]?) := by
  intro n
  induction n with
  | zero => intro i e _ _ _; exact ⟨e, rfl, rfl, by omega, fun _ _ => rfl⟩
  | succ n ih =>
    intro i e h1 h2 h3
    obtain ⟨a, ha⟩ : ∃ a, e[src + i]? = some a := ⟨_, List.getElem?_eq_getElem (by omega)⟩
    obtain ⟨b, hb⟩ : ∃ b, e[dst + i]? = some b := ⟨_, List.getElem?_eq_getElem (by omega)⟩
    have hlen : (e.set (dst + i) { b with spline := alloc (dst + i) a.spline }).length = e.length := List.length_set
    obtain ⟨e', r1, r2, r3, r4⟩ :=
      ih (i + 1) (e.set (dst + i) { b with spline := alloc (dst + i) a.spline }) (by omega) (by omega) (by omega)
    refine ⟨e', ?_, by omega, ?_, ?_⟩
    · unfold assignLoop; rw [ha, hb]; exact r1
    · intro k a' b' hk1 hk2 ha' hb'
      by_cases hki : k = i
      · subst hki
        rw [ha] at ha'; cases ha'
        rw [hb] at hb'; cases hb'
        rw [r4 _ (by omega), List.getElem?_set_self (by omega)]
      · exact r3 k a' b' (by omega) (by omega) (by rw [List.getElem?_set_ne (by omega)]; exact ha')
          (by rw [List.getElem?_set_ne (by omega)]; exact hb')
    · intro j hj
      rw [r4 j (by omega), List.getElem?_set_ne (by omega)]

/-- C27, copy: `alloc` copies the splines it is given into the heap `h'`.  Source and destination do not overlap.
Every destination record reports the same value, derivative, x and rate as its source, now and after every sequence
of frames that the source can play; the indices outside the destination are unchanged. -/
theorem C27_copy {h h' : Heap} (e : Evaluator) (dst src count : ℕ) (alloc : ℕ → Option ℕ → Option ℕ)
    (h1 : src + count ≤ e.length) (h2 : dst + count ≤ e.length) (h3 : dst + count ≤ src ∨ src + count ≤ dst)
    (halloc : ∀ k c, k < count → e[src + k]? = some c → SameSpline h h' c.spline (alloc (dst + k) c.spline)) :
    ∃ e', e.copyIndices dst src count alloc = some e' ∧ e'.length = e.length ∧
      (∀ j, (j < dst ∨ dst + count ≤ j) → e'[j]? = e[j]?) ∧
      ∀ k < count, ∃ c c', e[src + k]? = some c ∧ e'[dst + k]? = some c' ∧
        ∀ (dxs : List ℝ) (d : Slot), dxs.foldlM (fun c dx => Slot.advance h dx c) c = some d →
          ∃ d', dxs.foldlM (fun c dx => Slot.advance h' dx c) c' = some d' ∧
            d'.y = d.y ∧ d'.derivative = d.derivative ∧ d'.X h' = d.X h ∧ d'.rate = d.rate := by
  obtain ⟨e1, m1, m2, m3, m4⟩ := C27_move e src dst count h1 h2 (by omega)
  obtain ⟨e2, r1, r2, r3, r4⟩ := assignLoop_spec alloc dst src count 0 e1 (by omega) (by omega) (by omega)
  refine ⟨e2, ?_, by omega, ?_, ?_⟩
  · unfold copyIndices; rw [m1]; exact r1
  · intro j hj; rw [r4 j (by omega), m4 j hj]
  · intro k hk
    obtain ⟨c, hc⟩ : ∃ c, e[src + k]? = some c := ⟨_, List.getElem?_eq_getElem (by omega)⟩
    refine ⟨c, _, hc, r3 k c c (by omega) (by omega) (by rw [m4 _ (by omega)]; exact hc)
      (by rw [m3 k hk]; exact hc), ?_⟩
    intro dxs d hd
    have H : SameSlot h h' c { c with spline := alloc (dst + k) c.spline } := ⟨halloc k c hk hc, rfl⟩
    obtain ⟨d', k1, k2⟩ := H.frames dxs hd
    exact ⟨d', k1, k2.reads⟩

/-- The hypotheses of the copy hold, for two records with and without a spline. -/
example : ∃ e', Evaluator.copyIndices [{ spline := some 3 }, {}, {}, {}] 2 0 2 (fun i s => s.map fun _ => i) = some e' ∧
    e'.length = 4 := by
  obtain ⟨e', h1, h2, -⟩ := C27_copy (h := fun _ => some Spline.sample) (h' := fun _ => some Spline.sample)
    [{ spline := some 3 }, {}, {}, {}] 2 0 2 (fun i s => s.map fun _ => i) (by simp) (by simp) (by omega) (by
      intro k c hk hc
      have : k = 0 ∨ k = 1 := by omega
      rcases this with rfl | rfl
      · simp only [Nat.zero_add, List.getElem?_cons_zero, Option.some.injEq] at hc
        subst hc; exact ⟨_, Spline.sample.maxNodes, rfl, rfl⟩
      · simp only [Nat.zero_add, List.getElem?_cons_succ, List.getElem?_cons_zero, Option.some.injEq] at hc
        subst hc; trivial)
  exact ⟨e', h1, h2⟩

end Evaluator
end Motive.Splines
