import Verif.Math.RangeProps
import Verif.Curve.Props
import Mathlib.Tactic.Linarith
import Mathlib.Tactic.FieldSimp
import Mathlib.Tactic.NormNum
/-!
# Model of `MotiveTarget1f` and its builders (include/motive/target.h), and C54

Idealisation: `float` is a linearly ordered field. A failed assertion is `none`.
-/

namespace Motive.Targets
open Motive.Math Motive.Curve

set_option linter.unusedSectionVars false
variable {K : Type} [Field K] [LinearOrder K]

/-- `MotiveNode1f` (target.h:59-80). -/
structure MNode (K : Type) where
  value : K
  velocity : K
  time : ℤ
  dir : Direction := .closest
deriving DecidableEq

/-- `MotiveTarget1f` (target.h:99-175): the first `num_nodes_` entries of `nodes_`. -/
structure Target (K : Type) where
  nodes : List (MNode K)
deriving DecidableEq

namespace Target

/-- The default constructor (target.h:105) and `Reset` (target.h:136). -/
def empty : Target K := ⟨[]⟩
/-- The constructor with one waypoint (target.h:111-113). It asserts nothing. -/
def one (n0 : MNode K) : Target K := ⟨[n0]⟩
/-- The constructor with two waypoints (target.h:119-124) with its assertion. -/
def two (n0 n1 : MNode K) : Option (Target K) :=
  if 0 ≤ n0.time ∧ n0.time < n1.time then some ⟨[n0, n1]⟩ else none
/-- The constructor with three waypoints (target.h:128-135) with its assertion. -/
def three (n0 n1 n2 : MNode K) : Option (Target K) :=
  if 0 ≤ n0.time ∧ n0.time < n1.time ∧ n1.time < n2.time then some ⟨[n0, n1, n2]⟩ else none
/-- `Node` (target.h:140-143) with its assertion. -/
def node (t : Target K) (i : ℕ) : Option (MNode K) := t.nodes[i]?
/-- `num_nodes` (target.h:166). -/
def numNodes (t : Target K) : ℕ := t.nodes.length
/-- The loop of `ValueRange` (target.h:154-157). -/
def rangeLoop : List (MNode K) → Range K → Range K
  | [], r => r
  | n :: ns, r => rangeLoop ns ⟨min n.value r.start, max n.value r.stop⟩
/-- `ValueRange` (target.h:148-157) with its assertion. -/
def valueRange (t : Target K) (start : K) : Option (Range K) :=
  if 0 < t.nodes.length then some (rangeLoop t.nodes ⟨start, start⟩) else none
/-- `EndTime` (target.h:160-163) with its assertion. -/
def endTime (t : Target K) : Option ℤ := t.nodes.getLast?.map (·.time)

/-- `Current1f` (target.h:235-238). -/
def current (v d : K) : Target K := one ⟨v, d, 0, .closest⟩
/-- `Target1f` (target.h:243-250) with its assertion. -/
def target (v d : K) (time : ℤ) (dir : Direction) : Option (Target K) :=
  if 0 ≤ time then some (one ⟨v, d, time, dir⟩) else none
/-- `CurrentToTarget1f` (target.h:253-260). -/
def currentToTarget (v d v1 d1 : K) (time : ℤ) (dir : Direction) : Option (Target K) :=
  two ⟨v, d, 0, .closest⟩ ⟨v1, d1, time, dir⟩
/-- `CurrentToTargetConstVelocity1f` (target.h:263-271) with its assertion. -/
def constVelocity (v v1 : K) (time : ℤ) : Option (Target K) :=
  if 0 < time then two ⟨v, (v1 - v) / (time : K), 0, .closest⟩ ⟨v1, (v1 - v) / (time : K), time, .direct⟩ else none
/-- `TargetToTarget1f` (target.h:275-283). -/
def targetToTarget (v1 d1 : K) (time1 : ℤ) (v2 d2 : K) (time2 : ℤ) : Option (Target K) :=
  two ⟨v1, d1, time1, .closest⟩ ⟨v2, d2, time2, .closest⟩
/-- `CurrentToTargetToTarget1f` (target.h:286-294). -/
def currentToTargetToTarget (v d v1 d1 : K) (time1 : ℤ) (v2 d2 : K) (time2 : ℤ) : Option (Target K) :=
  three ⟨v, d, 0, .closest⟩ ⟨v1, d1, time1, .closest⟩ ⟨v2, d2, time2, .closest⟩

/-- `MotiveTargetBuilderTemplate` (target.h:297-372): `Current`, `Target`, `CurrentToTarget` and `CurrentToTargetConstVelocity` in several
dimensions run the builder of one dimension for each component; the components are `Fin n → K`. -/
def nCurrent {n : ℕ} (v d : Fin n → K) : Fin n → Target K := fun i => current (v i) (d i)
/-- See `nCurrent`. -/
def nTarget {n : ℕ} (v d : Fin n → K) (time : ℤ) (dir : Direction) : Fin n → Option (Target K) :=
  fun i => target (v i) (d i) time dir
/-- See `nCurrent`. -/
def nCurrentToTarget {n : ℕ} (v d v1 d1 : Fin n → K) (time : ℤ) (dir : Direction) : Fin n → Option (Target K) :=
  fun i => currentToTarget (v i) (d i) (v1 i) (d1 i) time dir
/-- See `nCurrent`. -/
def nConstVelocity {n : ℕ} (v v1 : Fin n → K) (time : ℤ) : Fin n → Option (Target K) :=
  fun i => constVelocity (v i) (v1 i) time

/-! ### Specification -/

/-- One to three waypoints; times are not negative and strictly increase. -/
def WF (t : Target K) : Prop :=
  1 ≤ t.nodes.length ∧ t.nodes.length ≤ 3 ∧ (∀ n ∈ t.nodes, 0 ≤ n.time) ∧ t.nodes.Pairwise fun a b => a.time < b.time

/-- The targets that the builder functions and the constructors with two and three waypoints can make. -/
inductive Built : Target K → Prop
  | current (v d) : Built (Target.current v d)
  | target {v d time dir t} : Target.target v d time dir = some t → Built t
  | currentToTarget {v d v1 d1 time dir t} : Target.currentToTarget v d v1 d1 time dir = some t → Built t
  | constVelocity {v v1 time t} : Target.constVelocity v v1 time = some t → Built t
  | targetToTarget {v1 d1 t1 v2 d2 t2 t} : Target.targetToTarget v1 d1 t1 v2 d2 t2 = some t → Built t
  | currentToTargetToTarget {v d v1 d1 t1 v2 d2 t2 t} : Target.currentToTargetToTarget v d v1 d1 t1 v2 d2 t2 = some t → Built t
  | two {n0 n1 t} : Target.two n0 n1 = some t → Built t
  | three {n0 n1 n2 t} : Target.three n0 n1 n2 = some t → Built t

theorem two_wf {n0 n1 : MNode K} {t : Target K} (h : two n0 n1 = some t) : t.WF ∧ t.nodes = [n0, n1] := by
  unfold two at h
  split at h
  · rename_i hc
    simp at h; subst h
    refine ⟨⟨by simp, by simp, ?_, ?_⟩, rfl⟩
    · intro n hn
      simp at hn
      rcases hn with rfl | rfl <;> omega
    · simp; omega
  · simp at h

theorem three_wf {n0 n1 n2 : MNode K} {t : Target K} (h : three n0 n1 n2 = some t) : t.WF ∧ t.nodes = [n0, n1, n2] := by
  unfold three at h
  split at h
  · rename_i hc
    simp at h; subst h
    refine ⟨⟨by simp, by simp, ?_, ?_⟩, rfl⟩
    · intro n hn
      simp at hn
      rcases hn with rfl | rfl | rfl <;> omega
    · simp; omega
  · simp at h

/-- **C54.** Every target made with a builder, or with the constructors of two and three waypoints, has one to three waypoints at strictly
increasing times that are not negative. -/
theorem C54_times {t : Target K} (h : Built t) : t.WF := by
  cases h with
  | current v d => exact ⟨by simp [current, one], by simp [current, one], by simp [current, one], by simp [current, one]⟩
  | target h =>
    unfold target at h
    split at h
    · rename_i h0; simp at h; subst h
      exact ⟨by simp [one], by simp [one], by simpa [one] using h0, by simp [one]⟩
    · simp at h
  | currentToTarget h => exact (two_wf h).1
  | constVelocity h =>
    unfold constVelocity at h
    split at h
    · exact (two_wf h).1
    · simp at h
  | targetToTarget h => exact (two_wf h).1
  | currentToTargetToTarget h => exact (three_wf h).1
  | two h => exact (two_wf h).1
  | three h => exact (three_wf h).1

/-- **C54.** The constructors accept exactly the increasing times. -/
theorem C54_accepts (n0 n1 n2 : MNode K) :
    ((two n0 n1).isSome = true ↔ WF ⟨[n0, n1]⟩) ∧ ((three n0 n1 n2).isSome = true ↔ WF ⟨[n0, n1, n2]⟩) := by
  constructor
  · unfold two
    split
    · rename_i h; simp only [Option.isSome_some, true_iff]; exact (two_wf (t := ⟨[n0, n1]⟩) (by unfold two; rw [if_pos h])).1
    · rename_i h
      simp only [Option.isSome_none, Bool.false_eq_true, false_iff]
      rintro ⟨-, -, h1, h2⟩
      simp at h1 h2
      omega
  · unfold three
    split
    · rename_i h; simp only [Option.isSome_some, true_iff]; exact (three_wf (t := ⟨[n0, n1, n2]⟩) (by unfold three; rw [if_pos h])).1
    · rename_i h
      simp only [Option.isSome_none, Bool.false_eq_true, false_iff]
      rintro ⟨-, -, h1, h2⟩
      simp at h1 h2
      omega

/-- **C54 is false** of the constructor with one waypoint: it accepts a negative time. -/
theorem C54_negative_time_accepted : ¬ (one (⟨1, 0, -5, .closest⟩ : MNode ℚ)).WF ∧
    (one (⟨1, 0, -5, .closest⟩ : MNode ℚ)).endTime = some (-5) := by
  refine ⟨?_, rfl⟩
  rintro ⟨-, -, h, -⟩
  have := h ⟨1, 0, -5, .closest⟩ (by simp [one])
  simp at this

theorem rangeLoop_spec : ∀ (ns : List (MNode K)) (r : Range K),
    (rangeLoop ns r).start ≤ r.start ∧ r.stop ≤ (rangeLoop ns r).stop ∧
    (∀ n ∈ ns, (rangeLoop ns r).start ≤ n.value ∧ n.value ≤ (rangeLoop ns r).stop) ∧
    ((rangeLoop ns r).start = r.start ∨ ∃ n ∈ ns, (rangeLoop ns r).start = n.value) ∧
    ((rangeLoop ns r).stop = r.stop ∨ ∃ n ∈ ns, (rangeLoop ns r).stop = n.value) := by
  intro ns
  induction ns with
  | nil => intro r; simp [rangeLoop]
  | cons n ns ih =>
    intro r
    obtain ⟨h1, h2, h3, h4, h5⟩ := ih ⟨min n.value r.start, max n.value r.stop⟩
    simp only at h1 h2 h4 h5
    simp only [rangeLoop]
    refine ⟨h1.trans (min_le_right _ _), (le_max_right _ _).trans h2, ?_, ?_, ?_⟩
    · intro m hm
      rcases List.mem_cons.mp hm with rfl | hm
      · exact ⟨h1.trans (min_le_left _ _), (le_max_left _ _).trans h2⟩
      · exact h3 m hm
    · rcases h4 with h4 | ⟨m, hm, h4⟩
      · rcases min_choice n.value r.start with h | h
        · exact Or.inr ⟨n, by simp, h4.trans h⟩
        · exact Or.inl (h4.trans h)
      · exact Or.inr ⟨m, by simp [hm], h4⟩
    · rcases h5 with h5 | ⟨m, hm, h5⟩
      · rcases max_choice n.value r.stop with h | h
        · exact Or.inr ⟨n, by simp, h5.trans h⟩
        · exact Or.inl (h5.trans h)
      · exact Or.inr ⟨m, by simp [hm], h5⟩

/-- **C54.** `ValueRange` of a target with waypoints is the smallest range that contains the start value and all waypoint values. -/
theorem C54_value_range {t : Target K} (h : t.nodes ≠ []) (start : K) :
    ∃ r, t.valueRange start = some r ∧ (r.start ≤ start ∧ start ≤ r.stop) ∧
      (∀ n ∈ t.nodes, r.start ≤ n.value ∧ n.value ≤ r.stop) ∧
      ∀ q : Range K, q.start ≤ start → start ≤ q.stop → (∀ n ∈ t.nodes, q.start ≤ n.value ∧ n.value ≤ q.stop) →
        q.start ≤ r.start ∧ r.stop ≤ q.stop := by
  obtain ⟨h1, h2, h3, h4, h5⟩ := rangeLoop_spec t.nodes ⟨start, start⟩
  refine ⟨rangeLoop t.nodes ⟨start, start⟩, by simp [valueRange, List.length_pos_iff.mpr h], ⟨h1, h2⟩, h3, ?_⟩
  intro q q1 q2 q3
  constructor
  · rcases h4 with h4 | ⟨n, hn, h4⟩
    · rw [h4]; exact q1
    · rw [h4]; exact (q3 n hn).1
  · rcases h5 with h5 | ⟨n, hn, h5⟩
    · rw [h5]; exact q2
    · rw [h5]; exact (q3 n hn).2

/-- **C54.** `EndTime` is the greatest of the waypoint times, and `Node` reads the waypoints in order. -/
theorem C54_end_time {t : Target K} (h : t.WF) :
    ∃ e, t.endTime = some e ∧ (∃ n ∈ t.nodes, n.time = e) ∧ (∀ n ∈ t.nodes, n.time ≤ e) ∧
      t.node (t.numNodes - 1) = t.nodes.getLast? := by
  obtain ⟨h1, -, -, h4⟩ := h
  have hne : t.nodes ≠ [] := by intro hc; rw [hc] at h1; simp at h1
  refine ⟨(t.nodes.getLast hne).time, by simp [endTime, List.getLast?_eq_getLast_of_ne_nil hne], ⟨_, List.getLast_mem hne, rfl⟩, ?_, ?_⟩
  · intro n hn
    rw [← List.dropLast_append_getLast hne] at hn h4
    rw [List.pairwise_append] at h4
    rcases List.mem_append.mp hn with hn | hn
    · exact (h4.2.2 n hn _ (by simp)).le
    · simp at hn; subst hn; exact le_refl _
  · simp [node, numNodes, List.getLast?_eq_getElem?]

variable [IsStrictOrderedRing K]

/-- **C54.** A constant-velocity target: both waypoints have the same velocity, and the cubic that joins them is the straight line from the
current to the target value. -/
theorem C54_const_velocity {v v1 : K} {time : ℤ} {t : Target K} (h : constVelocity v v1 time = some t) :
    ∃ a b, t.nodes = [a, b] ∧ a.time = 0 ∧ b.time = time ∧ a.value = v ∧ b.value = v1 ∧ a.velocity = b.velocity ∧
      a.velocity * (time : K) = v1 - v ∧
      ∀ x, (Cubic.init ⟨a.value, a.velocity, b.value, b.velocity, (time : K)⟩).eval x = v + a.velocity * x := by
  unfold constVelocity at h
  split at h
  · rename_i h0
    have ht : (0 : K) < time := by exact_mod_cast h0
    obtain ⟨-, hn⟩ := two_wf h
    refine ⟨_, _, hn, rfl, rfl, rfl, rfl, rfl, by simp only; field_simp, ?_⟩
    intro x
    simp only [Cubic.init, Cubic.eval]
    have : (1 : K) / time * time = 1 := by field_simp
    split
    · field_simp; ring
    · exfalso; simp_all
  · simp at h

omit [IsStrictOrderedRing K] in
/-- **C54.** Builders put the waypoints where they say: the current state at time zero, then the targets, in order. -/
theorem C54_builders {v d v1 d1 v2 d2 : K} {time time2 : ℤ} {dir : Direction} :
    (current v d).nodes = [⟨v, d, 0, .closest⟩] ∧
    (∀ t, target v d time dir = some t → t.nodes = [⟨v, d, time, dir⟩]) ∧
    (∀ t, currentToTarget v d v1 d1 time dir = some t → t.nodes = [⟨v, d, 0, .closest⟩, ⟨v1, d1, time, dir⟩]) ∧
    (∀ t, targetToTarget v1 d1 time v2 d2 time2 = some t → t.nodes = [⟨v1, d1, time, .closest⟩, ⟨v2, d2, time2, .closest⟩]) ∧
    (∀ t, currentToTargetToTarget v d v1 d1 time v2 d2 time2 = some t →
      t.nodes = [⟨v, d, 0, .closest⟩, ⟨v1, d1, time, .closest⟩, ⟨v2, d2, time2, .closest⟩]) := by
  refine ⟨rfl, ?_, fun t h => (two_wf h).2, fun t h => (two_wf h).2, fun t h => (three_wf h).2⟩
  intro t h
  unfold target at h
  split at h
  · simp at h; subst h; rfl
  · simp at h

/-- Concrete targets. -/
example : currentToTargetToTarget (K := ℚ) 1 0 5 (1 / 2) 100 2 0 250 =
    some ⟨[⟨1, 0, 0, .closest⟩, ⟨5, 1 / 2, 100, .closest⟩, ⟨2, 0, 250, .closest⟩]⟩ := by decide +kernel
example : (Target.mk [⟨1, 0, 0, .closest⟩, ⟨5, 1 / 2, 100, .closest⟩, ⟨2, 0, 250, .closest⟩] : Target ℚ).valueRange 3 = some ⟨1, 5⟩ := by
  decide +kernel
example : constVelocity (K := ℚ) 10 20 4 = some ⟨[⟨10, 5 / 2, 0, .closest⟩, ⟨20, 5 / 2, 4, .direct⟩]⟩ := by decide +kernel

end Target
end Motive.Targets
