import Mathlib.Logic.Function.Basic
import Mathlib.Data.List.Induction
import Mathlib.Tactic.Linarith

/-!
# C122: copies of the structs that initialise motivators

`SpringInit3f`, `EaseInEaseOutInit2f`, `ConstInit4f` and the like (`SimpleInitTemplate`, simple_init_template.h:57-82) hold
the start values and start derivatives of a motivator as vectors, and are passed to `Motivator::Initialize` as their base
`SimpleInit`, which has pointers to arrays of numbers instead (simple_init_template.h:32-55).  The constructors set these
pointers to the vectors of the same object.  There is no copy constructor, so a copy has the pointers of the original.
-/

namespace Motive.InitCopy

variable {V : Type}

/-! ### Model -/

/-- Addresses of objects. -/
abbrev Addr := ℕ

/-- A `SimpleInitTemplate`: its own vectors, and the objects into which the pointers of its base point. -/
structure Init (V : Type) where
  values : V
  derivatives : V
  valuesPtr : Addr
  derivativesPtr : Addr

/-- Memory: the objects that live. -/
abbrev Mem (V : Type) := Addr → Option (Init V)

/-- What a program does with such objects. -/
inductive Op (V : Type)
  | construct (a : Addr) (values derivatives : V)
  | copy (src dst : Addr)
  | destroy (a : Addr)

/-- One operation: the constructor with parameters (simple_init_template.h:74-78; the other, 69-72, has zeros as parameters),
the implicit copy constructor, and the destructor.  `none` if there is already an object at the address of a new one, or
none at that of the others. -/
def step (m : Mem V) : Op V → Option (Mem V)
  | .construct a v d => if (m a).isNone then some (Function.update m a (some ⟨v, d, a, a⟩)) else none
  | .copy src dst => if (m dst).isNone then (m src).map fun o => Function.update m dst (some o) else none
  | .destroy a => if (m a).isSome then some (Function.update m a none) else none

/-- A program. -/
def runFrom : Mem V → List (Op V) → Option (Mem V)
  | m, [] => some m
  | m, o :: os => (step m o).bind fun m => runFrom m os

/-- A program from its start. -/
def run (os : List (Op V)) : Option (Mem V) := runFrom (fun _ => none) os

/-- What `Initialize` reads of the object at `a` (simple_processor_template.h:86-91, spring_data.h:31-34,
ease_in_ease_out_data.h:28-37): `none` if a pointer dangles. -/
def read (m : Mem V) (a : Addr) : Option (V × V) :=
  (m a).bind fun o => (m o.valuesPtr).bind fun p => (m o.derivativesPtr).map fun q => (p.values, q.derivatives)

/-! ### Specification -/

/-- The values that the object at an address was given: those of its constructor, or those that the object it was copied
from was given. -/
def given : List (Op V) → Addr → Option (V × V)
  | [], _ => none
  | o :: os, a => -- the last operation comes first
    match o with
    | .construct b v d => if a = b then some (v, d) else given os a
    | .copy src dst => if a = dst then given os src else given os a
    | .destroy b => if a = b then none else given os a

/-- The address of the object of which the object at an address is a copy, or a copy of a copy. -/
def original : List (Op V) → Addr → Addr
  | [], a => a
  | o :: os, a =>
    match o with
    | .construct b _ _ => if a = b then b else original os a
    | .copy src dst => if a = dst then original os src else original os a
    | .destroy _ => original os a

/-! ### Proofs -/

theorem runFrom_append : ∀ (as bs : List (Op V)) (m : Mem V), runFrom m (as ++ bs) = (runFrom m as).bind fun m => runFrom m bs
  | [], _, _ => rfl
  | o :: as, bs, m => by
    simp only [List.cons_append, runFrom]
    cases step m o with
    | none => rfl
    | some t => simpa using runFrom_append as bs t

/-- What the memory is. -/
theorem inv {os : List (Op V)} : ∀ {m : Mem V}, run os = some m → ∀ a,
    (m a).map (fun o => (o.values, o.derivatives)) = given os.reverse a ∧
    ∀ o, m a = some o → o.valuesPtr = original os.reverse a ∧ o.derivativesPtr = original os.reverse a := by
  induction os using List.reverseRecOn with
  | nil => intro m h a; simp [run, runFrom] at h; subst h; simp [given]
  | append_singleton os o ih =>
    intro m h a
    rw [run, runFrom_append] at h
    obtain ⟨m1, h1, h2⟩ := Option.bind_eq_some_iff.mp h
    have ih := ih h1
    rw [List.reverse_append]
    simp only [List.reverse_cons, List.reverse_nil, List.nil_append, List.singleton_append]
    simp only [runFrom, Option.bind_eq_some_iff] at h2
    obtain ⟨m2, h2, h3⟩ := h2
    simp only [Option.some.injEq] at h3
    subst h3
    cases o with
    | construct b v d =>
      simp only [step] at h2
      split at h2 <;> simp at h2
      subst h2
      simp only [given, original]
      by_cases hab : a = b
      · subst hab; simp only [Function.update_self, if_pos]; refine ⟨by simp, ?_⟩
        intro o ho; simp at ho; subst ho; simp
      · simp only [Function.update_of_ne hab, if_neg hab]; exact ih a
    | copy src dst =>
      simp only [step] at h2
      split at h2 <;> simp at h2
      obtain ⟨o, ho, h2⟩ := h2
      subst h2
      simp only [given, original]
      by_cases hab : a = dst
      · subst hab; simp only [Function.update_self, if_pos]
        obtain ⟨i1, i2⟩ := ih src
        rw [ho] at i1
        refine ⟨i1, ?_⟩
        intro o' ho'; simp at ho'; subst ho'; exact i2 o ho
      · simp only [Function.update_of_ne hab, if_neg hab]; exact ih a
    | destroy b =>
      simp only [step] at h2
      split at h2 <;> simp at h2
      subst h2
      simp only [given, original]
      by_cases hab : a = b
      · subst hab; simp
      · simp only [Function.update_of_ne hab, if_neg hab]; exact ih a

/-- **C122**, what is read: in every program, initialising a motivator from an object reads the values of the object that is
*now* where its original was. -/
theorem C122_reads_original {os : List (Op V)} {m : Mem V} (h : run os = some m) {a : Addr} (ha : (m a).isSome) :
    read m a = given os.reverse (original os.reverse a) := by
  obtain ⟨o, ho⟩ := Option.isSome_iff_exists.mp ha
  obtain ⟨-, h2⟩ := inv h a
  obtain ⟨p1, p2⟩ := h2 o ho
  obtain ⟨h3, -⟩ := inv h (original os.reverse a)
  rw [← h3]
  simp only [read, ho, Option.bind_some, p1, p2]
  cases m (original os.reverse a) <;> simp

/-- **C122** for objects that are not copies, whether they have been copied or not: the values they were given are read. -/
theorem C122_own_values_partial {os : List (Op V)} {m : Mem V} (h : run os = some m) {a : Addr} (ha : (m a).isSome)
    (ho : original os.reverse a = a) : read m a = given os.reverse a ∧ (read m a).isSome := by
  rw [C122_reads_original h ha, ho]
  refine ⟨rfl, ?_⟩
  rw [← (inv h a).1]
  simpa using ha

/-- **C122** for copies: as long as the original lives and no other object came to its place. -/
theorem C122_copy_partial {os later : List (Op V)} {m m' : Mem V} (h : run os = some m) {a b : Addr} (ha : (m a).isSome)
    (ho : original os.reverse a = a) (hl : ∀ o ∈ later, ∀ c, o = .destroy c → c ≠ a ∧ c ≠ b)
    (h' : run (os ++ .copy a b :: later) = some m') :
    read m' b = given os.reverse a ∧ (read m' b).isSome := by
  rw [run, runFrom_append] at h'
  obtain ⟨m1, q1, q2⟩ := Option.bind_eq_some_iff.mp h'
  have : m1 = m := by rw [run] at h; rw [h] at q1; exact (Option.some.inj q1).symm
  subst this
  obtain ⟨o, hoa⟩ := Option.isSome_iff_exists.mp ha
  obtain ⟨g1, g2⟩ := inv h a
  obtain ⟨p1, p2⟩ := g2 o hoa
  rw [ho] at p1 p2
  simp only [runFrom, Option.bind_eq_some_iff] at q2
  obtain ⟨m2, q2, q3⟩ := q2
  simp only [step] at q2
  split at q2 <;> simp at q2
  rename_i hb
  obtain ⟨o', ho', q2⟩ := q2
  rw [hoa] at ho'; simp at ho'; subst ho'
  have hab : a ≠ b := by rintro rfl; rw [hoa] at hb; simp at hb
  have e1 : m2 a = some o := by rw [← q2, Function.update_of_ne hab]; exact hoa
  have e2 : m2 b = some o := by rw [← q2]; simp
  clear q2 h' q1 h
  have key : ∀ (later : List (Op V)) (m2 : Mem V), (∀ o ∈ later, ∀ c, o = .destroy c → c ≠ a ∧ c ≠ b) → m2 a = some o →
      m2 b = some o → runFrom m2 later = some m' → m' a = some o ∧ m' b = some o := by
    intro later
    induction later with
    | nil => intro m2 _ f1 f2 f3; simp [runFrom] at f3; subst f3; exact ⟨f1, f2⟩
    | cons x xs ih =>
      intro m2 hl f1 f2 f3
      simp only [runFrom, Option.bind_eq_some_iff] at f3
      obtain ⟨m3, f3, f4⟩ := f3
      refine ih m3 (fun o ho => hl o (by simp [ho])) ?_ ?_ f4
      all_goals
        cases x with
        | construct c v d =>
          simp only [step] at f3
          split at f3 <;> simp at f3
          rename_i hc
          rw [← f3, Function.update_of_ne]
          · assumption
          · rintro rfl; simp_all
        | copy s c =>
          simp only [step] at f3
          split at f3 <;> simp at f3
          rename_i hc
          obtain ⟨_, _, f3⟩ := f3
          rw [← f3, Function.update_of_ne]
          · assumption
          · rintro rfl; simp_all
        | destroy c =>
          obtain ⟨hca, hcb⟩ := hl (.destroy c) (by simp) c rfl
          simp only [step] at f3
          split at f3 <;> simp at f3
          rw [← f3, Function.update_of_ne (by first | exact hca.symm | exact hcb.symm)]
          assumption
  obtain ⟨r1, r2⟩ := key later m2 hl e1 e2 q3
  rw [hoa] at g1
  simp only [read, r2, Option.bind_some, p1, p2, r1, Option.map_some]
  exact ⟨g1, rfl⟩

/-- The values of a spring in two dimensions. -/
def sample : List (Op (List ℤ)) := [.construct 0 [1, 2] [0, 0], .construct 1 [3, 4] [5, 6]]

example : ∃ m, run sample = some m ∧ (m 1).isSome ∧ original sample.reverse 1 = 1 ∧ read m 1 = some ([3, 4], [5, 6]) :=
  ⟨_, rfl, rfl, rfl, rfl⟩

example : ∃ m, run (sample ++ .copy 1 7 :: [.destroy 0]) = some m ∧ read m 7 = some ([3, 4], [5, 6]) := ⟨_, rfl, rfl⟩

/-- The claim fails once the original is gone: the copy reads memory that is no object. -/
theorem C122_original_gone {os : List (Op V)} {m m' : Mem V} (h : run os = some m) {a b : Addr} (ha : (m a).isSome)
    (ho : original os.reverse a = a) (h' : run (os ++ [.copy a b, .destroy a]) = some m') :
    (m' b).isSome ∧ given (os ++ [Op.copy a b, Op.destroy a]).reverse b = given os.reverse a ∧ read m' b = none := by
  have hb : b ≠ a := by
    rintro rfl
    rw [run, runFrom_append] at h'
    obtain ⟨m1, q1, q2⟩ := Option.bind_eq_some_iff.mp h'
    have : m1 = m := by rw [run] at h; rw [h] at q1; exact (Option.some.inj q1).symm
    subst this
    simp only [runFrom, step] at q2
    rw [if_neg (by rw [Option.isNone_iff_eq_none]; rintro q; rw [q] at ha; simp at ha)] at q2
    simp at q2
  have hg : given (os ++ [Op.copy a b, Op.destroy a]).reverse b = given os.reverse a := by
    simp [given, hb]
  have hga : given (os ++ [Op.copy a b, Op.destroy a]).reverse a = none := by simp [given]
  have horig : original (os ++ [Op.copy a b, Op.destroy a]).reverse b = a := by simp [original, ho]
  have hs : (m' b).isSome := by
    have := (inv h' b).1
    rw [hg, ← (inv h a).1] at this
    obtain ⟨o, ho⟩ := Option.isSome_iff_exists.mp ha
    rw [ho] at this
    cases hb : m' b with
    | none => rw [hb] at this; simp at this
    | some _ => rfl
  exact ⟨hs, hg, by rw [C122_reads_original h' hs, horig, hga]⟩

/-- As when a `std::vector` of such objects grows: every element, those that were in it before as well as the new one, is a
copy whose original is gone. -/
theorem C122_vector_grows : ∃ m, run (sample ++ [.copy 0 10, .copy 1 11, .destroy 0, .destroy 1]) = some m ∧
    read m 10 = none ∧ read m 11 = none := ⟨_, rfl, rfl, rfl⟩

/-- And if another object has come to the place of the original, its values are read instead. -/
theorem C122_reads_other : ∃ m, run (sample ++ [.copy 0 10, .destroy 0, .construct 0 [8, 8] [9, 9]]) = some m ∧
    given (sample ++ [Op.copy 0 10, Op.destroy 0, Op.construct 0 [8, 8] [9, 9]]).reverse 10 = some ([1, 2], [0, 0]) ∧
    read m 10 = some ([8, 8], [9, 9]) := ⟨_, rfl, rfl, rfl⟩

end Motive.InitCopy
