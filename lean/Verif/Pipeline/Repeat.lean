import Verif.Pipeline.Timing
/-!
# C69: whether an imported animation repeats

Model of `FirstNonRepeatingBone` and `Repeat` (src/anim_pipeline/anim_data.cpp).  Logging is left out.
-/

namespace Motive.Pipeline
open Motive.Curve Motive.Matrix4

noncomputable section
open Classical

/-! ### Model -/

/-- `RepeatPreference` (anim_pipeline.h:23). -/
inductive RepeatPreference | ifRepeatable | always | never
deriving DecidableEq

/-- `same` (anim_data.cpp:363-374). A channel without nodes has no front. -/
def Channel.same (tl : Tolerances) (c : Channel) : Option Bool :=
  match c.nodes.head?, c.nodes.getLast? with
  | some start, some stop => some (decide (|start.val - stop.val| < tl.forOp c.op ∧
      |derivativeAngle (start.deriv - stop.deriv)| < tl.repeatDerivativeAngle))
  | _, _ => none

/-- The loop over the channels of a bone (anim_data.cpp:358-379): whether there is one that does not repeat. -/
def channelsDiffer (tl : Tolerances) : List Channel → Option Bool
  | [] => some false
  | c :: cs => match c.same tl with
    | none => none
    | some true => channelsDiffer tl cs
    | some false => some true

/-- The loop over the bones (anim_data.cpp:352-382), from bone `i` on.  `BoneIndex` is a `uint8_t`, so that the loop over more than 255 bones does not
end if none of the first 256 is found. -/
def firstNonRepeating (tl : Tolerances) (i : ℕ) : List Bone → Option ℕ
  | [] => some 255
  | b :: bs =>
    if 256 ≤ i then none
    else match channelsDiffer tl b.channels with
      | none => none
      | some true => some i
      | some false => if i = 255 then none else firstNonRepeating tl (i + 1) bs

/-- `Repeat` (anim_data.cpp:384-411). -/
def repeats (tl : Tolerances) (pref : RepeatPreference) (bones : List Bone) : Option Bool :=
  if pref = .never then some false
  else match firstNonRepeating tl 0 bones with
    | none => none
    | some i => some (decide (pref = .always ∨ (pref = .ifRepeatable ∧ i = 255)))

/-! ### Specification -/

/-- The value and the slope of a channel at its end are those at its start, up to the tolerances. -/
def Channel.Loops (tl : Tolerances) (c : Channel) : Prop :=
  ∃ a b, c.nodes.head? = some a ∧ c.nodes.getLast? = some b ∧ |a.val - b.val| < tl.forOp c.op ∧
    |Real.arctan (a.deriv - b.deriv)| < tl.repeatDerivativeAngle

theorem Channel.same_spec (tl : Tolerances) (c : Channel) (h : c.nodes ≠ []) : ∃ r, c.same tl = some r ∧ (r = true ↔ c.Loops tl) := by
  unfold Channel.same Channel.Loops
  obtain ⟨a, ha⟩ : ∃ a, c.nodes.head? = some a := by
    cases hn : c.nodes with
    | nil => exact absurd hn h
    | cons a n => exact ⟨a, rfl⟩
  obtain ⟨b, hb⟩ : ∃ b, c.nodes.getLast? = some b := ⟨_, List.getLast?_eq_getLast_of_ne_nil h⟩
  rw [ha, hb]
  refine ⟨_, rfl, ?_⟩
  rw [decide_eq_true_eq]
  constructor
  · intro h; exact ⟨a, b, rfl, rfl, h⟩
  · rintro ⟨a', b', h1, h2, h3⟩
    obtain rfl : a = a' := by simpa using h1
    obtain rfl : b = b' := by simpa using h2
    exact h3

theorem channelsDiffer_spec (tl : Tolerances) : ∀ (cs : List Channel), (∀ c ∈ cs, c.nodes ≠ []) →
    ∃ r, channelsDiffer tl cs = some r ∧ (r = false ↔ ∀ c ∈ cs, c.Loops tl)
  | [], _ => ⟨false, rfl, by simp⟩
  | c :: cs, h => by
    obtain ⟨r, h1, h2⟩ := c.same_spec tl (h c (by simp))
    obtain ⟨r', h3, h4⟩ := channelsDiffer_spec tl cs fun d hd => h d (by simp [hd])
    rw [channelsDiffer, h1]
    cases r with
    | true =>
      refine ⟨r', h3, ?_⟩
      rw [h4]
      simp [h2.mp rfl]
    | false =>
      refine ⟨true, rfl, ?_⟩
      have : ¬ c.Loops tl := fun hc => by simpa using h2.mpr hc
      simp [this]

theorem firstNonRepeating_spec (tl : Tolerances) : ∀ (bs : List Bone) (i : ℕ), i + bs.length ≤ 255 →
    (∀ b ∈ bs, ∀ c ∈ b.channels, c.nodes ≠ []) →
    ∃ k, firstNonRepeating tl i bs = some k ∧ (k = 255 ↔ ∀ b ∈ bs, ∀ c ∈ b.channels, c.Loops tl)
  | [], i, _, _ => ⟨255, rfl, by simp⟩
  | b :: bs, i, hi, h => by
    simp only [List.length_cons] at hi
    obtain ⟨r, h1, h2⟩ := channelsDiffer_spec tl b.channels (h b (by simp))
    rw [firstNonRepeating, if_neg (by omega), h1]
    cases r with
    | true =>
      refine ⟨i, rfl, ?_⟩
      have : ¬ ∀ c ∈ b.channels, c.Loops tl := fun hc => by simpa using h2.mpr hc
      constructor
      · intro h'; omega
      · intro h'; exact absurd (h' b (by simp)) this
    | false =>
      simp only
      rw [if_neg (by omega)]
      obtain ⟨k, h3, h4⟩ := firstNonRepeating_spec tl bs (i + 1) (by omega) fun d hd => h d (by simp [hd])
      refine ⟨k, h3, ?_⟩
      rw [h4]
      simp only [List.mem_cons, forall_eq_or_imp]
      exact ⟨fun h' => ⟨h2.mp rfl, h'⟩, fun h' => h'.2⟩

/-- C69: an animation is marked as repeating if the user asks for that, and, if they leave it open, exactly if every channel of every bone ends
with the value and slope that it starts with, up to the tolerances. -/
theorem C69_repeat (tl : Tolerances) (pref : RepeatPreference) (bones : List Bone) (hl : bones.length ≤ 255)
    (hn : ∀ b ∈ bones, ∀ c ∈ b.channels, c.nodes ≠ []) : ∃ r, repeats tl pref bones = some r ∧
      (r = true ↔ match pref with
        | .never => False
        | .always => True
        | .ifRepeatable => ∀ b ∈ bones, ∀ c ∈ b.channels, c.Loops tl) := by
  obtain ⟨k, h1, h2⟩ := firstNonRepeating_spec tl bones 0 (by omega) hn
  unfold repeats
  rw [h1]
  cases pref with
  | never => exact ⟨false, rfl, by simp⟩
  | always => exact ⟨_, if_neg (by decide), by simp⟩
  | ifRepeatable =>
    refine ⟨_, if_neg (by decide), ?_⟩
    simp only [decide_eq_true_eq, reduceCtorEq, false_or, true_and]
    exact h2

/-- C69: when a channel that repeats is played again from its start, the value jumps by less than the tolerance.  The channel must not start with
a jump. -/
theorem C69_no_jump (tl : Tolerances) (c : Channel) (h : c.Loops tl) (ho : Ordered c.nodes)
    (hj : ∀ x y r, c.nodes = x :: y :: r → x.time < y.time) {s e : ℝ} (hs : ∀ t, c.first = some t → s ≤ t)
    (he : ∀ t, c.last = some t → (t : ℝ) ≤ e) : |curveAt c.nodes s - curveAt c.nodes e| < tl.forOp c.op := by
  obtain ⟨a, b, h1, h2, h3, -⟩ := h
  have hs' : curveAt c.nodes s = a.val := by
    have := hs a.time (by unfold Channel.first; rw [h1]; rfl)
    cases hn : c.nodes with
    | nil => rw [hn] at h1; simp at h1
    | cons x n =>
      rw [hn] at h1
      obtain rfl : x = a := by simpa using h1
      rcases lt_or_eq_of_le this with h | h
      · exact curveAt_before x n s h
      · cases n with
        | nil => rfl
        | cons y r =>
          have hxy := hj x y r hn
          have hxy' : (x.time : ℝ) < y.time := by exact_mod_cast hxy
          simp only [curveAt]
          rw [if_neg (by rw [h]; exact lt_irrefl _), if_pos (by rw [h]; exact hxy'), h]
          exact curveBetween_start x y
  have he' : curveAt c.nodes e = b.val := by
    have hb := he b.time (by unfold Channel.last; rw [h2]; rfl)
    have hne : c.nodes ≠ [] := by intro hn; rw [hn] at h2; simp at h2
    rw [List.getLast?_eq_getLast_of_ne_nil hne] at h2
    have e1 := List.dropLast_append_getLast hne
    rw [Option.some.inj h2] at e1
    rw [← e1] at ho ⊢
    exact curveAt_after _ b ho e hb
  rw [hs', he']
  exact h3

/-- The hypotheses are met by a channel that goes up and down again. -/
example : ∃ (tl : Tolerances) (c : Channel), c.Loops tl ∧ Ordered c.nodes ∧ (∀ x y r, c.nodes = x :: y :: r → x.time < y.time) ∧
    ¬ (Channel.Loops tl { c with nodes := c.nodes.take 2 }) := by
  refine ⟨⟨1, 1, 1, 1, 1⟩, ⟨.translateX, 1, [⟨0, 1, 0⟩, ⟨10, 5, 0⟩, ⟨20, 1, 0⟩]⟩, ⟨⟨0, 1, 0⟩, ⟨20, 1, 0⟩, rfl, rfl, ?_, ?_⟩, by simp [Ordered], ?_, ?_⟩
  · simp [Tolerances.forOp, OpType.isRotate, OpType.isTranslate]
  · simp
  · rintro x y r h
    obtain ⟨h1, h⟩ := List.cons.inj h
    rw [← h1, ← (List.cons.inj h).1]
    norm_num
  · rintro ⟨a, b, h1, h2, h3, -⟩
    obtain rfl : (⟨0, 1, 0⟩ : Node) = a := by simpa using h1
    obtain rfl : (⟨10, 5, 0⟩ : Node) = b := by simpa using h2
    norm_num [Tolerances.forOp, OpType.isRotate, OpType.isTranslate] at h3

/-- C69: the loop over the bones of an animation with more than 255 bones does not end, if they all repeat; `OutputFlatBuffer` rejects such
animations first. -/
theorem C69_too_many_bones (tl : Tolerances) (bones : List Bone) (hl : 256 ≤ bones.length)
    (h : ∀ b ∈ bones, ∀ c ∈ b.channels, c.nodes ≠ [] ∧ c.Loops tl) : repeats tl .ifRepeatable bones = none := by
  have key : ∀ (bs : List Bone) (i : ℕ), 256 ≤ i + bs.length → i ≤ 255 → (∀ b ∈ bs, ∀ c ∈ b.channels, c.nodes ≠ [] ∧ c.Loops tl) →
      firstNonRepeating tl i bs = none := by
    intro bs
    induction bs with
    | nil => intro i h1 h2 _; simp at h1; omega
    | cons b bs ih =>
      intro i h1 h2 h3
      simp only [List.length_cons] at h1
      obtain ⟨r, h4, h5⟩ := channelsDiffer_spec tl b.channels fun c hc => (h3 b (by simp) c hc).1
      obtain rfl := h5.mpr fun c hc => (h3 b (by simp) c hc).2
      rw [firstNonRepeating, if_neg (by omega), h4]
      simp only
      split_ifs with h6
      · rfl
      · exact ih (i + 1) (by omega) (by omega) fun d hd => h3 d (by simp [hd])
  unfold repeats
  rw [key bones 0 (by omega) (by omega) h]
  simp

end
end Motive.Pipeline
