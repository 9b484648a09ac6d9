import Verif.Spline.BulkMove
/-!
# C63: the indices of an evaluator are independent
-/

namespace Motive.Splines
namespace Evaluator

noncomputable section

/-- **C63.** Setting an array of splines at a range of indices gives the `k`-th index of the range the `k`-th spline of the array, exactly as
if it were set alone, and leaves every other index as it was. It succeeds exactly if each of them does. -/
theorem C63_set_splines {h : Heap} {e : Evaluator} {index : ℕ} {ids : List ℕ} {p : Playback} :
    (∀ e', e.setSplines h index ids p = some e' →
      e'.length = e.length ∧ (∀ j, j < index ∨ index + ids.length ≤ j → e'[j]? = e[j]?) ∧
      ∀ k id, ids[k]? = some id → ∃ c c', e[index + k]? = some c ∧ c.setSpline h id p = some c' ∧ e'[index + k]? = some c') ∧
    ((∀ k id, ids[k]? = some id → ∃ c c', e[index + k]? = some c ∧ c.setSpline h id p = some c') →
      ∃ e', e.setSplines h index ids p = some e') := by
  induction ids generalizing e index with
  | nil => exact ⟨fun e' he => by simp [setSplines] at he; subst he; simp, fun _ => ⟨e, rfl⟩⟩
  | cons id rest ih =>
    constructor
    · intro e' he
      unfold setSplines modify at he
      simp only [Option.bind_eq_some_iff, Option.map_eq_some_iff] at he
      obtain ⟨e1, ⟨c, hc, c', hc', rfl⟩, h2⟩ := he
      obtain ⟨g1, g2, g3⟩ := ih.1 e' h2
      have hlt := (List.getElem?_eq_some_iff.mp hc).1
      refine ⟨by simpa using g1, ?_, ?_⟩
      · intro j hj
        simp only [List.length_cons] at hj
        rw [g2 j (by omega), List.getElem?_set_ne (by omega)]
      · intro k id' hk
        match k with
        | 0 =>
          simp at hk
          subst hk
          refine ⟨c, c', hc, hc', ?_⟩
          rw [g2 _ (by omega)]
          simp [hlt]
        | k + 1 =>
          simp at hk
          obtain ⟨d, d', h3, h4, h5⟩ := g3 k id' hk
          have e1 : index + 1 + k = index + (k + 1) := by omega
          rw [e1] at h3 h5
          rw [List.getElem?_set_ne (by omega)] at h3
          exact ⟨d, d', h3, h4, h5⟩
    · intro hall
      obtain ⟨c, c', hc, hc'⟩ := hall 0 id rfl
      simp only [Nat.add_zero] at hc
      obtain ⟨e', he'⟩ := (ih (e := e.set index c') (index := index + 1)).2 (by
        intro k id' hk
        obtain ⟨d, d', h3, h4⟩ := hall (k + 1) id' (by simpa using hk)
        refine ⟨d, d', ?_, h4⟩
        rw [List.getElem?_set_ne (by omega), ← h3]
        congr 1; omega)
      exact ⟨e', by unfold setSplines modify; simp [hc, hc', he']⟩

/-- **C63.** A frame advances every index exactly as if it were alone in the evaluator. -/
theorem C63_frame {h : Heap} {dx : ℝ} {e e' : Evaluator} (he : e.advanceFrame h dx = some e') :
    e'.length = e.length ∧ ∀ (i : ℕ) (c : Slot), e[i]? = some c → ∃ c', c.advance h dx = some c' ∧ e'[i]? = some c' := by
  unfold advanceFrame at he
  induction e generalizing e' with
  | nil => simp at he; subst he; simp
  | cons a e ih =>
    simp only [List.mapM_cons, Option.bind_eq_bind, Option.bind_eq_some_iff, Option.pure_def, Option.some.injEq] at he
    obtain ⟨a', ha, e1, h1, rfl⟩ := he
    obtain ⟨g1, g2⟩ := ih h1
    refine ⟨by simp [g1], ?_⟩
    intro i c hc
    match i with
    | 0 => simp at hc; subst hc; exact ⟨a', ha, by simp⟩
    | i + 1 => simpa using g2 i c (by simpa using hc)

/-- The frame of an evaluator succeeds exactly if every index can take it. -/
theorem C63_frame_succeeds {h : Heap} {dx : ℝ} {e : Evaluator} :
    (e.advanceFrame h dx).isSome = true ↔ ∀ c ∈ e, (c.advance h dx).isSome = true := by
  unfold advanceFrame
  induction e with
  | nil => simp
  | cons a e ih =>
    simp only [List.mapM_cons, List.mem_cons, forall_eq_or_imp, ← ih]
    cases Slot.advance h dx a with
    | none => simp
    | some a' => cases List.mapM (Slot.advance h dx) e <;> simp

/-- The sample spline can be set, and then advanced, at index 1 of an evaluator with two indices. -/
example : ∃ e' e'', Evaluator.setSplines (fun _ => some Spline.sample) [{}, {}] 0 [0, 1] { startX := 1, rate := 2 } = some e' ∧
    Evaluator.advanceFrame (fun _ => some Spline.sample) (1 / 2) e' = some e'' := by
  have hplay : ∀ id, ∃ c c', Slot.setSpline (fun _ => some Spline.sample) {} id { startX := 1, rate := 2 } = some c ∧
      Slot.advance (fun _ => some Spline.sample) (1 / 2) c = some c' := by
    intro id
    obtain ⟨c, h1, -⟩ := Slot.C26_bulk_agrees (hp := fun _ => some Spline.sample) (id := id) Spline.sample_wf.1
      Spline.sample_wf.2 rfl {} { startX := 1, rate := 2 } rfl (Or.inl rfl) (by norm_num) (by norm_num)
      (e := 9) (by norm_num [Spline.sample, Spline.endX, Node.X]) [1 / 2] (by norm_num) (by norm_num [Spline.sample])
    simp only [Slot.play, Option.bind_eq_some_iff, List.foldlM_cons, List.foldlM_nil, Option.pure_def, Option.bind_eq_bind,
      Option.some.injEq] at h1
    obtain ⟨c0, h2, c1, h3, -⟩ := h1
    exact ⟨c0, c1, h2, h3⟩
  have hall : ∀ (k id : ℕ), [0, 1][k]? = some id → ∃ c c', ([{}, {}] : Evaluator)[0 + k]? = some c ∧
      c.setSpline (fun _ => some Spline.sample) id { startX := 1, rate := 2 } = some c' := by
    intro k id hk
    obtain ⟨c, c', h1, -⟩ := hplay id
    match k with
    | 0 => exact ⟨{}, c, rfl, h1⟩
    | 1 => exact ⟨{}, c, rfl, h1⟩
    | k + 2 => simp at hk
  obtain ⟨e', he'⟩ := C63_set_splines.2 hall
  obtain ⟨h1, -, h3⟩ := C63_set_splines.1 e' he'
  have := (C63_frame_succeeds (h := fun _ => some Spline.sample) (dx := 1 / 2) (e := e')).mpr (by
    intro c hc
    obtain ⟨k, hk⟩ := List.mem_iff_getElem?.mp hc
    have hlt := (List.getElem?_eq_some_iff.mp hk).1
    simp at h1
    obtain ⟨a, a', g1, g2, g3⟩ := h3 k k (by
      have : k = 0 ∨ k = 1 := by omega
      rcases this with rfl | rfl <;> rfl)
    simp only [Nat.zero_add] at g1 g3
    rw [hk] at g3
    simp at g3
    subst g3
    have ha : a = {} := by
      rcases List.getElem?_eq_some_iff.mp g1 with ⟨h4, h5⟩
      simp at h4
      have : k = 0 ∨ k = 1 := by omega
      rcases this with rfl | rfl <;> exact h5.symm
    subst ha
    obtain ⟨b, b', f1, f2⟩ := hplay k
    rw [g2] at f1
    simp at f1
    subst f1
    rw [f2]; rfl)
  obtain ⟨e'', he''⟩ := Option.isSome_iff_exists.mp this
  exact ⟨e', e'', he', he''⟩

end
end Evaluator
end Motive.Splines
