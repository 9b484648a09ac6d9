import Verif.Matrix.Blend
/-!
# C43: `BlendToOps` merges the old and the new operations
-/

namespace Motive.Matrix4
open Motive.Targets Motive.Curve

noncomputable section
variable {D : Driver}

/-! ### Specification -/

/-- The initialisers that the constructors of `MatrixOperationInit` make (matrix_op.h:141-178), with an id that operations can have. -/
inductive Made : OpInit D → Prop
  | const (id : ℕ) (t : OpType) (v : ℝ) : id ≤ 254 → Made ⟨none, id, t, .initial v⟩
  | driven (id : ℕ) (t : OpType) (k : D.I) : id ≤ 254 → Made ⟨some k, id, t, .empty⟩
  | value (id : ℕ) (t : OpType) (k : D.I) (v : ℝ) : id ≤ 254 → Made ⟨some k, id, t, .initial v⟩
  | target (id : ℕ) (t : OpType) (k : D.I) (g : Target ℝ) : id ≤ 254 → Made ⟨some k, id, t, .target g⟩
  | spline (id : ℕ) (t : OpType) (k : D.I) (s : D.S) : id ≤ 254 → Made ⟨some k, id, t, .spline s⟩

/-- The motivator that a target or spline is given to: the one the operation has, or a new one at its constant value. -/
def Source (o : Op D) (n : OpInit D) (m : D.M) : Prop :=
  match o.motivator with
  | some m' => m = m'
  | none => ∃ k, n.init = some k ∧ m = D.setTarget (D.create k) ⟨[⟨o.const, 0, 0, .closest⟩]⟩

/-- `o'` is `o` driven to what `n` asks for. -/
def Driven (pb : Playback) (o : Op D) (n : OpInit D) (o' : Op D) : Prop :=
  o'.id = o.id ∧ o'.type = o.type ∧
  match n.union with
  | .empty => o' = o
  | .initial v =>
    (o'.motivator = none ∧ o'.const = v ∧ ∀ m, o.motivator = some m → |D.value m - v| ≤ 1 / 1000 ∧ |D.velocity m| ≤ 1 / 1000) ∨
    ∃ m, o.motivator = some m ∧ o'.motivator = some (D.setTarget m ⟨[⟨v, 0, ⌊pb.blendX⌋, .closest⟩]⟩)
  | .target t => ∃ m, Source o n m ∧ o'.motivator = some (D.setTarget m t)
  | .spline s => ∃ m, Source o n m ∧ o'.motivator = some (D.setSpline m s pb)

/-- `o'` is `o` driven to its default value. -/
def Relaxed (pb : Playback) (o o' : Op D) : Prop :=
  o'.id = o.id ∧ o'.type = o.type ∧
  ((o.motivator = none ∧ o'.motivator = none ∧ o'.const = o.type.default) ∨
   ∃ m, o.motivator = some m ∧ o'.motivator = some (D.setTarget m ⟨[⟨o.type.default, 0, ⌊pb.blendX⌋, .closest⟩]⟩))

/-- `o` is a new operation at its default value. -/
def Newborn (n : OpInit D) (o : Op D) : Prop :=
  o.id = n.id ∧ o.type = n.type ∧ o.const = n.type.default ∧
    o.motivator = n.init.map fun k => D.setTarget (D.create k) ⟨[⟨n.type.default, 0, 0, .closest⟩]⟩

/-! ### The operations -/

theorem toTime_floor {x : ℝ} (h : 0 ≤ x) : toTime x = ⌊x⌋ := if_pos h

theorem blendToOp_driven (o : Op D) (n : OpInit D) (pb : Playback) (hn : Made n) (hpb : 0 ≤ pb.blendX) :
    ∃ o', o.blendToOp n pb = some o' ∧ Driven pb o n o' := by
  have hfl : (0 : ℤ) ≤ ⌊pb.blendX⌋ := Int.floor_nonneg.mpr hpb
  have hinit : ∀ (k : Option D.I) (id : ℕ) (t : OpType) (v : ℝ),
      ∃ o', o.blendToOp ⟨k, id, t, .initial v⟩ pb = some o' ∧ Driven pb o ⟨k, id, t, .initial v⟩ o' := by
    intro k id t v
    unfold Op.blendToOp Driven
    cases hm : o.motivator with
    | none => exact ⟨_, rfl, rfl, rfl, Or.inl ⟨rfl, rfl, by simp⟩⟩
    | some m =>
      simp only
      split_ifs with hc
      · refine ⟨_, rfl, rfl, rfl, Or.inl ⟨rfl, rfl, ?_⟩⟩
        intro m' hm'
        cases hm'
        unfold nearlyEqual kEpsilon at hc
        rw [abs_le, abs_le]
        exact ⟨⟨hc.1.1, hc.1.2⟩, by linarith [hc.2.1], by linarith [hc.2.2]⟩
      · rw [toTime_floor hpb, Target.target, if_pos hfl]
        exact ⟨_, rfl, rfl, rfl, Or.inr ⟨m, rfl, rfl⟩⟩
  cases hn with
  | const id t v _ => exact hinit _ _ _ _
  | value id t k v _ => exact hinit _ _ _ _
  | driven id t k _ => exact ⟨o, rfl, rfl, rfl, rfl⟩
  | target id t k g _ =>
    unfold Op.blendToOp Driven Source
    cases hm : o.motivator with
    | none => exact ⟨_, rfl, rfl, rfl, _, ⟨k, rfl, rfl⟩, rfl⟩
    | some m => exact ⟨_, rfl, rfl, rfl, m, rfl, rfl⟩
  | spline id t k s _ =>
    unfold Op.blendToOp Driven Source
    cases hm : o.motivator with
    | none => exact ⟨_, rfl, rfl, rfl, _, ⟨k, rfl, rfl⟩, rfl⟩
    | some m => exact ⟨_, rfl, rfl, rfl, m, rfl, rfl⟩

theorem blendToDefault_relaxed (o : Op D) (pb : Playback) (hpb : 0 ≤ pb.blendX) :
    ∃ o', o.blendToDefault (toTime pb.blendX) = some o' ∧ Relaxed pb o o' := by
  have hfl : (0 : ℤ) ≤ ⌊pb.blendX⌋ := Int.floor_nonneg.mpr hpb
  unfold Op.blendToDefault Relaxed
  rw [toTime_floor hpb]
  cases hm : o.motivator with
  | none => exact ⟨_, rfl, rfl, rfl, Or.inl ⟨rfl, rfl, rfl⟩⟩
  | some m =>
    by_cases h0 : ⌊pb.blendX⌋ = 0
    · simp only [if_pos h0]
      refine ⟨_, rfl, rfl, rfl, Or.inr ⟨m, rfl, ?_⟩⟩
      rw [h0]; rfl
    · simp only [if_neg h0, Target.target, if_pos hfl]
      exact ⟨_, rfl, rfl, rfl, Or.inr ⟨m, rfl, rfl⟩⟩

theorem Made.id_le {n : OpInit D} (h : Made n) : n.id ≤ 254 := by cases h <;> assumption

theorem construct_driven (n : OpInit D) (pb : Playback) (hn : Made n) (hpb : 0 ≤ pb.blendX) :
    ∃ o o', n.construct pb = some o' ∧ Newborn n o ∧ Driven pb o n o' := by
  obtain ⟨o', h1, h2⟩ := blendToOp_driven n.fresh n pb hn hpb
  exact ⟨n.fresh, o', by rw [OpInit.construct, if_pos hn.id_le, h1], ⟨rfl, rfl, rfl, rfl⟩, h2⟩

/-! ### The merge as a relation -/

/-- How the result arises from the two lists. -/
inductive Merged (pb : Playback) : List (Op D) → List (OpInit D) → List (Op D) → Prop
  | nil : Merged pb [] [] []
  | both {o n o' os ns l} : o.id = n.id → Driven pb o n o' → Merged pb os ns l → Merged pb (o :: os) (n :: ns) (o' :: l)
  | old {o o' os ns l} : (∀ n ∈ ns.head?, o.id < n.id) → Relaxed pb o o' → Merged pb os ns l → Merged pb (o :: os) ns (o' :: l)
  | new {n o o' os ns l} : (∀ o ∈ os.head?, n.id < o.id) → Newborn n o → Driven pb o n o' → Merged pb os ns l →
      Merged pb os (n :: ns) (o' :: l)

theorem mergeRec_merged (bad : OpType → Bool) (pb : Playback) (hpb : 0 ≤ pb.blendX) (ops : List (Op D)) (new : List (OpInit D))
    (hm : ∀ n ∈ new, Made n) (hb : ∀ n ∈ new, bad n.type = false) : ∃ l, mergeRec bad pb ops new = some l ∧ Merged pb ops new l := by
  induction hk : ops.length + new.length using Nat.strong_induction_on generalizing ops new with
  | _ k ih =>
  cases ops with
  | nil =>
    cases new with
    | nil => exact ⟨[], by rw [mergeRec]; rfl, .nil⟩
    | cons n ns =>
      obtain ⟨l, h1, h2⟩ := ih ns.length (by simp at hk; omega) [] ns (fun x hx => hm x (by simp [hx])) (fun x hx => hb x (by simp [hx]))
        (by simp)
      obtain ⟨o, o', c1, c2, c3⟩ := construct_driven n pb (hm n (by simp)) hpb
      refine ⟨o' :: l, ?_, .new (by simp) c2 c3 h2⟩
      rw [mergeRec] at h1 ⊢
      rw [List.mapM_cons, c1, h1]
      rfl
  | cons o os =>
    cases new with
    | nil =>
      obtain ⟨l, h1, h2⟩ := ih os.length (by simp at hk; omega) os [] (by simp) (by simp) (by simp)
      obtain ⟨o', c1, c2⟩ := blendToDefault_relaxed o pb hpb
      refine ⟨o' :: l, ?_, .old (by simp) c2 h2⟩
      rw [mergeRec_nil_right] at h1 ⊢
      rw [List.mapM_cons, c1, h1]
      rfl
    | cons n ns =>
      have hm' : ∀ x ∈ ns, Made x := fun x hx => hm x (by simp [hx])
      have hb' : ∀ x ∈ ns, bad x.type = false := fun x hx => hb x (by simp [hx])
      simp only [List.length_cons] at hk
      rw [mergeRec, if_neg (by simp [hb n (by simp)])]
      split_ifs with h1 h2
      · obtain ⟨l, e1, e2⟩ := ih _ (by omega) os ns hm' hb' rfl
        obtain ⟨o', c1, c2⟩ := blendToOp_driven o n pb (hm n (by simp)) hpb
        exact ⟨o' :: l, by rw [c1, e1]; rfl, .both h1 c2 e2⟩
      · obtain ⟨l, e1, e2⟩ := ih _ (by simp; omega) os (n :: ns) hm hb rfl
        obtain ⟨o', c1, c2⟩ := blendToDefault_relaxed o pb hpb
        exact ⟨o' :: l, by rw [c1, e1]; rfl, .old (by simpa using h2) c2 e2⟩
      · obtain ⟨l, e1, e2⟩ := ih _ (by simp; omega) (o :: os) ns hm' hb' rfl
        obtain ⟨o1, o', c1, c2, c3⟩ := construct_driven n pb (hm n (by simp)) hpb
        exact ⟨o' :: l, by rw [c1, e1]; rfl, .new (by simp; omega) c2 c3 e2⟩

theorem Newborn.driven_id {pb : Playback} {n : OpInit D} {o o' : Op D} (h : Newborn n o) (h' : Driven pb o n o') : o'.id = n.id :=
  h'.1.trans h.1

theorem Merged.mem_id {pb : Playback} {os : List (Op D)} {ns : List (OpInit D)} {l : List (Op D)} (h : Merged pb os ns l) (i : ℕ) :
    i ∈ l.map (·.id) ↔ i ∈ os.map (·.id) ∨ i ∈ ns.map (·.id) := by
  induction h with
  | nil => simp
  | both h1 h2 _ ih => simp only [List.map_cons, List.mem_cons, ih, h2.1, ← h1]; tauto
  | old _ h2 _ ih => simp only [List.map_cons, List.mem_cons, ih, h2.1]; tauto
  | new _ h2 h3 _ ih => simp only [List.map_cons, List.mem_cons, ih, h2.driven_id h3]; tauto

/-- Strictly ascending ids. -/
def Ascending (ids : List ℕ) : Prop := ids.Pairwise (· < ·)

theorem head_lt {α : Type} {f : α → ℕ} {i : ℕ} {l : List α} (hl : Ascending (l.map f)) (h : ∀ a ∈ l.head?, i < f a) :
    ∀ j ∈ l.map f, i < j := by
  cases l with
  | nil => simp
  | cons a l =>
    simp only [List.head?_cons, Option.mem_def, Option.some.injEq, forall_eq'] at h
    rw [Ascending, List.map_cons, List.pairwise_cons] at hl
    intro j hj
    rcases List.mem_cons.mp hj with rfl | hj
    · exact h
    · exact h.trans (hl.1 j hj)

theorem Merged.ascending {pb : Playback} {os : List (Op D)} {ns : List (OpInit D)} {l : List (Op D)} (h : Merged pb os ns l)
    (ho : Ascending (os.map (·.id))) (hn : Ascending (ns.map (·.id))) : Ascending (l.map (·.id)) := by
  induction h with
  | nil => exact List.Pairwise.nil
  | both h1 h2 h3 ih =>
    rw [Ascending, List.map_cons, List.pairwise_cons] at ho hn ⊢
    refine ⟨fun i hi => ?_, ih ho.2 hn.2⟩
    rw [h2.1]
    rcases (h3.mem_id i).mp hi with h | h
    · exact ho.1 i h
    · rw [h1]; exact hn.1 i h
  | old h1 h2 h3 ih =>
    have hn' := head_lt hn h1
    rw [Ascending, List.map_cons, List.pairwise_cons] at ho ⊢
    refine ⟨fun i hi => ?_, ih ho.2 hn⟩
    rw [h2.1]
    rcases (h3.mem_id i).mp hi with h | h
    · exact ho.1 i h
    · exact hn' i h
  | new h1 h2 h3 h4 ih =>
    have ho' := head_lt ho h1
    rw [Ascending, List.map_cons, List.pairwise_cons] at hn ⊢
    refine ⟨fun i hi => ?_, ih ho hn.2⟩
    rw [h2.driven_id h3]
    rcases (h4.mem_id i).mp hi with h | h
    · exact ho' i h
    · exact hn.1 i h

/-- What became of the operations of either list. -/
def Outcome (pb : Playback) (ops : List (Op D)) (new : List (OpInit D)) (o' : Op D) : Prop :=
  (∃ o ∈ ops, ∃ n ∈ new, o.id = n.id ∧ Driven pb o n o') ∨
  (∃ o ∈ ops, (∀ n ∈ new, n.id ≠ o.id) ∧ Relaxed pb o o') ∨
  (∃ n ∈ new, (∀ o ∈ ops, o.id ≠ n.id) ∧ ∃ o, Newborn n o ∧ Driven pb o n o')

theorem Merged.outcome {pb : Playback} {os : List (Op D)} {ns : List (OpInit D)} {l : List (Op D)} (h : Merged pb os ns l)
    (ho : Ascending (os.map (·.id))) (hn : Ascending (ns.map (·.id))) : ∀ o' ∈ l, Outcome pb os ns o' := by
  induction h with
  | nil => simp
  | @both o n o1 os ns l h1 h2 h3 ih =>
    rw [Ascending, List.map_cons, List.pairwise_cons] at ho hn
    intro o' ho'
    rcases List.mem_cons.mp ho' with rfl | ho'
    · exact Or.inl ⟨o, by simp, n, by simp, h1, h2⟩
    · rcases ih ho.2 hn.2 o' ho' with ⟨a, ha, b, hb, e⟩ | ⟨a, ha, hb, e⟩ | ⟨b, hb, ha, e⟩
      · exact Or.inl ⟨a, by simp [ha], b, by simp [hb], e⟩
      · refine Or.inr (Or.inl ⟨a, by simp [ha], ?_, e⟩)
        intro x hx
        rcases List.mem_cons.mp hx with rfl | hx
        · have := ho.1 a.id (List.mem_map_of_mem ha); omega
        · exact hb x hx
      · refine Or.inr (Or.inr ⟨b, by simp [hb], ?_, e⟩)
        intro x hx
        rcases List.mem_cons.mp hx with rfl | hx
        · have := hn.1 b.id (List.mem_map_of_mem hb); omega
        · exact ha x hx
  | @old o o1 os ns l h1 h2 h3 ih =>
    have hn' := head_lt hn h1
    rw [Ascending, List.map_cons, List.pairwise_cons] at ho
    intro o' ho'
    rcases List.mem_cons.mp ho' with rfl | ho'
    · refine Or.inr (Or.inl ⟨o, by simp, ?_, h2⟩)
      intro x hx
      have := hn' x.id (List.mem_map_of_mem hx); omega
    · rcases ih ho.2 hn o' ho' with ⟨a, ha, b, hb, e⟩ | ⟨a, ha, hb, e⟩ | ⟨b, hb, ha, e⟩
      · exact Or.inl ⟨a, by simp [ha], b, hb, e⟩
      · exact Or.inr (Or.inl ⟨a, by simp [ha], hb, e⟩)
      · refine Or.inr (Or.inr ⟨b, hb, ?_, e⟩)
        intro x hx
        rcases List.mem_cons.mp hx with rfl | hx
        · have := hn' b.id (List.mem_map_of_mem hb); omega
        · exact ha x hx
  | @new n o o1 os ns l h1 h2 h3 h4 ih =>
    have ho2 := head_lt ho h1
    rw [Ascending, List.map_cons, List.pairwise_cons] at hn
    intro o' ho'
    rcases List.mem_cons.mp ho' with rfl | ho'
    · refine Or.inr (Or.inr ⟨n, by simp, ?_, o, h2, h3⟩)
      intro x hx
      have := ho2 x.id (List.mem_map_of_mem hx); omega
    · rcases ih ho hn.2 o' ho' with ⟨a, ha, b, hb, e⟩ | ⟨a, ha, hb, e⟩ | ⟨b, hb, ha, e⟩
      · exact Or.inl ⟨a, ha, b, by simp [hb], e⟩
      · refine Or.inr (Or.inl ⟨a, ha, ?_, e⟩)
        intro x hx
        rcases List.mem_cons.mp hx with rfl | hx
        · have := ho2 a.id (List.mem_map_of_mem ha); omega
        · exact hb x hx
      · exact Or.inr (Or.inr ⟨b, by simp [hb], ha, e⟩)

/-- C43: blending to a list of operations succeeds; the result has exactly the ids of both lists, in ascending order; an operation of both
lists is driven to what the new list asks for, one of the old list only is driven to its default value, and one of the new list only
starts at its default value and is driven to what the new list asks for. -/
theorem C43_merge (bad : OpType → Bool) (ops : List (Op D)) (new : List (OpInit D)) (pb : Playback) (hpb : 0 ≤ pb.blendX)
    (ho : Ascending (ops.map (·.id))) (hn : Ascending (new.map (·.id)))
    (hm : ∀ n ∈ new, Made n) (hb : ∀ n ∈ new, bad n.type = false) :
    ∃ l, blendToOps bad new pb ops = some l ∧ Ascending (l.map (·.id)) ∧
      (∀ i, i ∈ l.map (·.id) ↔ i ∈ ops.map (·.id) ∨ i ∈ new.map (·.id)) ∧ ∀ o' ∈ l, Outcome pb ops new o' := by
  obtain ⟨l, h1, h2⟩ := mergeRec_merged bad pb hpb ops new hm hb
  exact ⟨l, by rw [blendToOps_eq, h1], h2.ascending ho hn, h2.mem_id, h2.outcome ho hn⟩

/-- `Initialize` makes one operation for each in its list, and `BlendToOps` of a motivator without operations does so too. -/
theorem C43_initialize (bad : OpType → Bool) (new : List (OpInit D)) (hm : ∀ n ∈ new, Made n) (hb : ∀ n ∈ new, bad n.type = false) :
    ∃ l, initOps bad new = some l ∧ List.Forall₂ (fun n o' => ∃ o, Newborn n o ∧ Driven {} o n o') new l := by
  induction new with
  | nil => exact ⟨[], rfl, .nil⟩
  | cons n ns ih =>
    obtain ⟨l, h1, h2⟩ := ih (fun x hx => hm x (by simp [hx])) (fun x hx => hb x (by simp [hx]))
    obtain ⟨o, o', c1, c2, c3⟩ := construct_driven n {} (hm n (by simp)) (le_refl _)
    refine ⟨o' :: l, ?_, .cons ⟨o, c2, c3⟩ h2⟩
    unfold initOps at h1 ⊢
    rw [List.mapM_cons, if_neg (by simp [hb n (by simp)]), c1, h1]
    rfl

/-! ### What the values do -/

/-- A motivator that does what it is told, up to `ε`: a target is reached at its time, at once if that is 0, and until then the value does
not jump. C41 is about the motivators that follow splines. -/
structure Obedient (D : Driver) (ε : ℝ) : Prop where
  nonneg : 0 ≤ ε
  reaches : ∀ m v t, 0 ≤ t → |D.value (D.advance (D.setTarget m ⟨[⟨v, 0, t, .closest⟩]⟩) t) - v| ≤ ε
  smooth : ∀ m v t, 0 < t → |D.value (D.setTarget m ⟨[⟨v, 0, t, .closest⟩]⟩) - D.value m| ≤ ε

/-- The motivators of the operations advance by some time. -/
def Op.advance (o : Op D) (t : ℤ) : Op D := { o with motivator := o.motivator.map (D.advance · t) }

/-- When the blend time is over, the operations that are not in the new list have their default value, and those that the new list gives a
constant have that constant, up to `ε`. -/
theorem C43_settles {ε : ℝ} (hD : Obedient D ε) (pb : Playback) (hpb : 0 ≤ pb.blendX) :
    (∀ o o' : Op D, Relaxed pb o o' → |(o'.advance ⌊pb.blendX⌋).value - o.type.default| ≤ ε) ∧
    (∀ (o o' : Op D) (n : OpInit D) v, n.union = .initial v → Driven pb o n o' → |(o'.advance ⌊pb.blendX⌋).value - v| ≤ ε) := by
  have hfl : (0 : ℤ) ≤ ⌊pb.blendX⌋ := Int.floor_nonneg.mpr hpb
  constructor
  · rintro o o' ⟨-, -, ⟨h1, h2, h3⟩ | ⟨m, h1, h2⟩⟩
    · simp only [Op.advance, Op.value, h2, Option.map_none, h3, sub_self, abs_zero]
      exact hD.nonneg
    · simp only [Op.advance, Op.value, h2, Option.map_some]
      exact hD.reaches _ _ _ hfl
  · intro o o' n v hv ⟨_, _, h⟩
    rw [hv] at h
    rcases h with ⟨h1, h2, _⟩ | ⟨m, h1, h2⟩
    · simp only [Op.advance, Op.value, h1, Option.map_none, h2, sub_self, abs_zero]
      exact hD.nonneg
    · simp only [Op.advance, Op.value, h2, Option.map_some]
      exact hD.reaches _ _ _ hfl

/-- With a blend time of at least one, the value of an operation with a motivator does not jump when it is driven to a constant or to its
default: by at most `ε`, or 0.001 when the motivator is given up because it is that close to the constant. -/
theorem C43_no_jump {ε : ℝ} (hD : Obedient D ε) (pb : Playback) (hpb : 1 ≤ pb.blendX) :
    (∀ o o' : Op D, o.motivator.isSome → Relaxed pb o o' → |o'.value - o.value| ≤ ε) ∧
    (∀ (o o' : Op D) (n : OpInit D) v, n.union = .initial v → o.motivator.isSome → Driven pb o n o' →
      |o'.value - o.value| ≤ max ε (1 / 1000)) := by
  have hfl : (0 : ℤ) < ⌊pb.blendX⌋ := Int.floor_pos.mpr hpb
  constructor
  · rintro o o' ho ⟨-, -, ⟨h1, h2, h3⟩ | ⟨m, h1, h2⟩⟩
    · simp [h1] at ho
    · simp only [Op.value, h1, h2]
      exact hD.smooth _ _ _ hfl
  · intro o o' n v hv ho ⟨_, _, h⟩
    rw [hv] at h
    rcases h with ⟨h1, h2, h3⟩ | ⟨m, h1, h2⟩
    · obtain ⟨m, hm⟩ := Option.isSome_iff_exists.mp ho
      simp only [Op.value, h1, h2, hm]
      rw [abs_sub_comm]
      exact (h3 m hm).1.trans (le_max_right _ _)
    · simp only [Op.value, h1, h2]
      exact (hD.smooth _ _ _ hfl).trans (le_max_left _ _)

theorem scaling_default (t : OpType) : scaling (t, t.default) = 1 := by
  cases t <;> simp [scaling, OpType.default, OpType.isScale] <;> (ext i; fin_cases i <;> rfl)

theorem Merged.product {pb : Playback} (hpb : 0 ≤ pb.blendX) (hD : Obedient D 0) (c : OpInit D → ℝ)
    {os : List (Op D)} {ns : List (OpInit D)} {l : List (Op D)} (h : Merged pb os ns l) (hc : ∀ n ∈ ns, n.union = .initial (c n))
    (ht : ∀ o ∈ os, ∀ n ∈ ns, o.id = n.id → o.type = n.type) (ho : ∀ o ∈ os, Supported o.type) (hn : ∀ n ∈ ns, Supported n.type) :
    (∀ o' ∈ l, Supported o'.type) ∧
    (l.map fun o => elementary (o.type, (o.advance ⌊pb.blendX⌋).value)).prod = (ns.map fun n => elementary (n.type, c n)).prod ∧
    (l.map fun o => scaling (o.type, (o.advance ⌊pb.blendX⌋).value)).prod = (ns.map fun n => scaling (n.type, c n)).prod := by
  obtain ⟨set1, set2⟩ := C43_settles hD pb hpb
  have zero : ∀ a b : ℝ, |a - b| ≤ 0 → a = b := fun a b h => sub_eq_zero.mp (abs_eq_zero.mp (le_antisymm h (abs_nonneg _)))
  induction h with
  | nil => simp
  | @both o n o1 os ns l h1 h2 h3 ih =>
    obtain ⟨i1, i2, i3⟩ := ih (fun x hx => hc x (by simp [hx])) (fun x hx y hy => ht x (by simp [hx]) y (by simp [hy]))
      (fun x hx => ho x (by simp [hx])) (fun x hx => hn x (by simp [hx]))
    have hv := zero _ _ (set2 _ _ _ _ (hc n (by simp)) h2)
    have htype : o1.type = n.type := h2.2.1.trans (ht o (by simp) n (by simp) h1)
    refine ⟨fun x hx => ?_, ?_, ?_⟩
    · rcases List.mem_cons.mp hx with rfl | hx
      · rw [htype]; exact hn n (by simp)
      · exact i1 x hx
    · rw [List.map_cons, List.prod_cons, List.map_cons, List.prod_cons, i2, hv, htype]
    · rw [List.map_cons, List.prod_cons, List.map_cons, List.prod_cons, i3, hv, htype]
  | @old o o1 os ns l h1 h2 h3 ih =>
    obtain ⟨i1, i2, i3⟩ := ih hc (fun x hx y hy => ht x (by simp [hx]) y hy) (fun x hx => ho x (by simp [hx])) hn
    have hv := zero _ _ (set1 _ _ h2)
    have htype : o1.type = o.type := h2.2.1
    have hs := ho o (by simp)
    refine ⟨fun x hx => ?_, ?_, ?_⟩
    · rcases List.mem_cons.mp hx with rfl | hx
      · rw [htype]; exact hs
      · exact i1 x hx
    · rw [List.map_cons, List.prod_cons, i2, hv, htype, C42_default_does_nothing, one_mul]
    · rw [List.map_cons, List.prod_cons, i3, hv, htype, scaling_default, one_mul]
  | @new n o o1 os ns l h1 h2 h3 h4 ih =>
    obtain ⟨i1, i2, i3⟩ := ih (fun x hx => hc x (by simp [hx])) (fun x hx y hy => ht x hx y (by simp [hy]))
      ho (fun x hx => hn x (by simp [hx]))
    have hv := zero _ _ (set2 _ _ _ _ (hc n (by simp)) h3)
    have htype : o1.type = n.type := h3.2.1.trans h2.2.1
    refine ⟨fun x hx => ?_, ?_, ?_⟩
    · rcases List.mem_cons.mp hx with rfl | hx
      · rw [htype]; exact hn n (by simp)
      · exact i1 x hx
    · rw [List.map_cons, List.prod_cons, List.map_cons, List.prod_cons, i2, hv, htype]
    · rw [List.map_cons, List.prod_cons, List.map_cons, List.prod_cons, i3, hv, htype]

/-- The matrix of operations at a time after now (`AdvanceFrame` of the child motivators, then `UpdateResultMatrix`, matrix_data.h:51-54). -/
def matrixAfter (ops : List (Op D)) (t : ℤ) : Option (Matrix (Fin 4) (Fin 4) ℝ × (Fin 3 → ℝ)) :=
  calculate (ops.map fun o => (o.type, (o.advance t).value))

/-- Whatever a matrix motivator did before, when the blend to a pose is over its result is the pose: the product of the elementary
transforms of the new operations. -/
theorem C43_pose (hD : Obedient D 0) (ops : List (Op D)) (new : List (OpInit D)) (c : OpInit D → ℝ) (pb : Playback) (hpb : 0 ≤ pb.blendX)
    (hm : ∀ n ∈ new, Made n) (hc : ∀ n ∈ new, n.union = .initial (c n)) (ht : ∀ o ∈ ops, ∀ n ∈ new, o.id = n.id → o.type = n.type)
    (ho : ∀ o ∈ ops, Supported o.type) (hn : ∀ n ∈ new, Supported n.type) :
    ∃ l, blendToOps OpType.isQuat new pb ops = some l ∧ matrixAfter l ⌊pb.blendX⌋ =
      some ((new.map fun n => elementary (n.type, c n)).prod, (new.map fun n => scaling (n.type, c n)).prod) := by
  have hb : ∀ n ∈ new, OpType.isQuat n.type = false := by
    intro n hn'
    have := hn n hn'
    revert this
    cases n.type <;> simp [Supported, OpType.isQuat, OpType.isRotate, OpType.isTranslate, OpType.isScale]
  obtain ⟨l, h1, h2⟩ := mergeRec_merged OpType.isQuat pb hpb ops new hm hb
  obtain ⟨p1, p2, p3⟩ := h2.product hpb hD c hc ht ho hn
  refine ⟨l, by rw [blendToOps_eq, h1], ?_⟩
  rw [matrixAfter, C42_result_is_product _ (by simpa using p1), List.map_map, List.map_map]
  rw [← p2, ← p3]
  rfl

/-! ### A case, and what goes wrong without the hypotheses -/

/-- A motivator that stays at its value until the time of its target. -/
def stepDriver : Driver where
  M := ℝ × ℝ × ℤ
  I := Unit
  S := Unit
  create _ := (0, 0, 0)
  value m := m.1
  velocity _ := 0
  setTarget m t := match t.nodes with
    | [] => m
    | n :: _ => if n.time = 0 then (n.value, n.value, 0) else (m.1, n.value, n.time)
  setSpline m _ _ := m
  setRate m _ := m
  setRepeating m _ := m
  targetTime m := m.2.2
  splineStart _ := 0
  advance m t := if m.2.2 ≤ t then (m.2.1, m.2.1, 0) else (m.1, m.2.1, m.2.2 - t)

theorem stepDriver_obedient : Obedient stepDriver 0 := by
  refine ⟨le_refl _, fun m v t ht => ?_, fun m v t ht => ?_⟩
  · by_cases h : t = 0
    · simp [stepDriver, h]
    · simp [stepDriver, h]
  · simp [stepDriver, ht.ne']

/-- From a translation and a driven rotation to a rotation and a scale. -/
example : ∃ l, blendToOps OpType.isQuat [⟨some (), 2, .rotateZ, .initial 0⟩, ⟨none, 7, .scaleX, .initial 3⟩] { blendX := 10 }
      ([⟨1, .translateX, none, 5⟩, ⟨2, .rotateZ, some (1, 1, 0), 0⟩] : List (Op stepDriver)) = some l ∧
    (∃ s, matrixAfter l 10 = some (!![3, 0, 0, 0; 0, 1, 0, 0; 0, 0, 1, 0; 0, 0, 0, 1], s)) := by
  obtain ⟨l, h1, h2⟩ := C43_pose stepDriver_obedient ([⟨1, .translateX, none, 5⟩, ⟨2, .rotateZ, some (1, 1, 0), 0⟩] : List (Op stepDriver))
    [⟨some (), 2, .rotateZ, .initial 0⟩, ⟨none, 7, .scaleX, .initial 3⟩]
    (fun n => match n.union with | .initial v => v | _ => 0) { blendX := 10 } (by norm_num)
    (by
      intro n hn
      rcases List.mem_cons.mp hn with rfl | hn
      · exact .value _ _ _ _ (by norm_num)
      · rw [List.mem_singleton] at hn; subst hn; exact .const _ _ _ (by norm_num))
    (by simp) (by simp) (by simp [Supported, OpType.isRotate, OpType.isTranslate])
    (by simp [Supported, OpType.isRotate, OpType.isScale])
  rw [show ⌊({ blendX := 10 } : Playback).blendX⌋ = (10 : ℤ) by norm_num] at h2
  refine ⟨l, h1, ![3, 1, 1], h2.trans ?_⟩
  congr 2
  swap
  · ext i
    fin_cases i <;> simp [scaling]
  ext i j
  fin_cases i <;> fin_cases j <;> simp [elementary, Matrix.mul_apply, Fin.sum_univ_four]

/-- An id that the old and the new list use for different types: the old type is kept, and the pose is not reached. -/
theorem C43_type_change_ignored : ∃ l, blendToOps OpType.isQuat [⟨none, 1, .scaleX, .initial 2⟩] {}
      ([⟨1, .translateX, none, 5⟩] : List (Op stepDriver)) = some l ∧
    matrixAfter l 0 ≠ some (elementary (.scaleX, 2), scaling (.scaleX, 2)) := by
  refine ⟨[⟨1, .translateX, none, 2⟩], ?_, ?_⟩
  · rw [blendToOps_eq]
    simp [mergeRec, OpType.isQuat, Op.blendToOp]
  · intro h
    rw [matrixAfter, C42_result_is_product _ (by simp [Supported, OpType.isTranslate])] at h
    simp only [Option.some.injEq, Prod.mk.injEq] at h
    have := congrFun (congrFun h.1 0) 0
    simp [elementary] at this

/-- A quaternion operation gets into a matrix motivator that has no operations; the next frame fails. -/
theorem C43_quaternion_slips_in : ∃ l, blendToOps OpType.isQuat [⟨none, 1, .quatW, .initial 1⟩] {}
    ([] : List (Op stepDriver)) = some l ∧ matrixAfter l 1 = none := by
  refine ⟨[⟨1, .quatW, none, 1⟩], ?_, rfl⟩
  rw [blendToOps_eq]
  simp [mergeRec, OpInit.construct, OpInit.fresh, Op.blendToOp]

/-! ### C66: the time remaining -/

/-- C66: the time that remains of a matrix motivator is the longest that remains of its operations, where constant operations have none, and
zero if there is none. -/
theorem C66_matrix_time_remaining (ops : List (Op D)) : 0 ≤ timeRemaining ops ∧
    (∀ o ∈ ops, ∀ m, o.motivator = some m → D.targetTime m ≤ timeRemaining ops) ∧
    (timeRemaining ops = 0 ∨ ∃ o ∈ ops, ∃ m, o.motivator = some m ∧ timeRemaining ops = D.targetTime m) := by
  suffices h : ∀ (t : ℤ), t ≤ ops.foldl (fun t o => max t o.timeRemaining) t ∧
      (∀ o ∈ ops, ∀ m, o.motivator = some m → D.targetTime m ≤ ops.foldl (fun t o => max t o.timeRemaining) t) ∧
      (ops.foldl (fun t o => max t o.timeRemaining) t = max t 0 ∨ ops.foldl (fun t o => max t o.timeRemaining) t = t ∨
        ∃ o ∈ ops, ∃ m, o.motivator = some m ∧ ops.foldl (fun t o => max t o.timeRemaining) t = D.targetTime m) by
    obtain ⟨h1, h2, h3⟩ := h 0
    refine ⟨h1, h2, ?_⟩
    rcases h3 with h | h | h
    · exact Or.inl (by unfold timeRemaining; rw [h, max_self])
    · exact Or.inl h
    · exact Or.inr h
  induction ops with
  | nil => intro t; simp
  | cons o ops ih =>
    intro t
    rw [List.foldl_cons]
    obtain ⟨h1, h2, h3⟩ := ih (max t o.timeRemaining)
    refine ⟨(le_max_left _ _).trans h1, ?_, ?_⟩
    · intro o' ho' m hm
      rcases List.mem_cons.mp ho' with rfl | ho'
      · refine le_trans ?_ ((le_max_right _ _).trans h1)
        unfold Op.timeRemaining
        rw [hm]
      · exact h2 o' ho' m hm
    · cases hm : o.motivator with
      | none =>
        have e : o.timeRemaining = 0 := by unfold Op.timeRemaining; rw [hm]
        rw [e] at h3 ⊢
        rcases h3 with h | h | ⟨o', ho', m, hm', h⟩
        · left; rw [h, max_assoc, max_self]
        · left; exact h
        · right; right; exact ⟨o', by simp [ho'], m, hm', h⟩
      | some m =>
        have e : o.timeRemaining = D.targetTime m := by unfold Op.timeRemaining; rw [hm]
        rw [e] at h3 ⊢
        rcases h3 with h | h | ⟨o', ho', m', hm', h⟩
        · rcases le_total (max t (D.targetTime m)) 0 with h0 | h0
          · left; rw [h, max_eq_right h0, max_eq_right ((le_max_left _ _).trans h0)]
          · rw [h, max_eq_left h0]
            rcases max_choice t (D.targetTime m) with hc | hc
            · right; left; exact hc
            · right; right; exact ⟨o, by simp, m, hm, hc⟩
        · rw [h]
          rcases max_choice t (D.targetTime m) with hc | hc
          · right; left; exact hc
          · right; right; exact ⟨o, by simp, m, hm, hc⟩
        · right; right; exact ⟨o', by simp [ho'], m', hm', h⟩

/-- A motivator with an operation that has a target in ten ticks. -/
example : timeRemaining ([⟨1, .translateX, none, 5⟩, ⟨2, .translateY, some (stepDriver.setTarget (stepDriver.create ()) ⟨[⟨5, 0, 10, .closest⟩]⟩), 0⟩] :
    List (Op stepDriver)) = 10 := by
  simp [timeRemaining, Op.timeRemaining, stepDriver]

end
end Motive.Matrix4
