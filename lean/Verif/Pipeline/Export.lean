import Verif.Pipeline.ChannelsProps
import Verif.Spline.EvalProps
import Mathlib.Analysis.SpecialFunctions.Trigonometric.ArctanDeriv
import Mathlib.Analysis.Calculus.Deriv.MeanValue
import Mathlib.Analysis.Real.Pi.Bounds
/-!
# C70: the splines of an exported animation

Model of `CreateCompactSpline` and `SplineYRange` (src/anim_pipeline/flat_anim.cpp).

Idealisation: `float` is `ℝ`; the conversion of an `int` time to `float` is exact.
-/

namespace Motive.Pipeline
open Motive.Curve Motive.Math

noncomputable section
open Classical

/-- A node of a compact spline. -/
abbrev SNode := Motive.Splines.Node
/-- A compact spline. -/
abbrev CSpline := Motive.Splines.Spline

/-! ### Model -/

/-- The body of the loop of `CreateCompactSpline` (flat_anim.cpp:269-277).  `last = none` is the initial `-FLT_MAX`, which is before every time. -/
def exportStep (st : CSpline × Option ℝ) (n : Node) : Option (CSpline × Option ℝ) :=
  let t : ℝ := ((max 0 n.time : ℤ) : ℝ)
  if ∀ l, st.2 = some l → l ≤ t then (st.1.addNode t n.val n.deriv .withoutModification).map fun s => (s, some t) else some st

/-- `CreateCompactSpline` (flat_anim.cpp:255-280) with its assertion, and `SplineYRange` (246-253).  The number of nodes is converted to 16 bits. -/
def createCompactSpline (nodes : List Node) : Option CSpline :=
  if nodes.length ≤ 1 then none
  else match nodes.getLast?, Range.covers (nodes.map Node.val) with
    | some back, some r =>
      (nodes.foldlM exportStep ((Motive.Splines.Spline.create (nodes.length % 65536)).init r (Motive.Splines.Spline.recommendG back.time), none)).map
        Prod.fst
    | _, _ => none

/-! ### Specification -/

/-- A curve that can be exported: at least two nodes and no more than a spline can index, in order of time, at most two of them at the same time,
from time zero or later to `T`, and the times of different nodes equal or at least a 65535th of the whole apart.  (Every curve of at most 65535 ticks
has that last property.) -/
structure Exportable (T : ℤ) (n : List Node) : Prop where
  two : 2 ≤ n.length
  len : n.length ≤ 65534
  kinked : Kinked n
  nonneg : ∀ a ∈ n, 0 ≤ a.time
  last : n.getLast?.map Node.time = some T
  pos : 0 < T
  apart : n.Pairwise fun a b => a.time < b.time → T ≤ 65535 * (b.time - a.time)

/-- The time between two values that a spline can tell apart. -/
def grain (T : ℤ) : ℝ := T / 65535

/-- The spline node `x` stands for the node `a`: half a grain in time, a 65535th of the range in value, and a 32768th of half a turn in slope. -/
def Stands (T : ℤ) (r : Range ℝ) (a : Node) (x : SNode) : Prop :=
  |x.X (grain T) - a.time| ≤ grain T / 2 ∧ |x.Y r - a.val| ≤ r.length / 65535 ∧
    |Real.arctan x.D - Real.arctan a.deriv| < Motive.Splines.angleScale

/-! ### Lemmas -/

theorem Exportable.short {T : ℤ} {n : List Node} (two : 2 ≤ n.length) (len : n.length ≤ 65534) (kinked : Kinked n) (nonneg : ∀ a ∈ n, 0 ≤ a.time)
    (last : n.getLast?.map Node.time = some T) (pos : 0 < T) (hT : T ≤ 65535) : Exportable T n :=
  ⟨two, len, kinked, nonneg, last, pos, kinked.1.imp fun _ h => by omega⟩

/-- The spline node made of a node. -/
def Make (T : ℤ) (r : Range ℝ) (n : Node) (x : SNode) : Prop :=
  Motive.Splines.Node.make n.time n.val n.deriv (grain T) r = some x

theorem grain_pos {T : ℤ} (h : 0 < T) : 0 < grain T := by
  unfold grain
  have : (0 : ℝ) < T := by exact_mod_cast h
  positivity

theorem Make.stands {T : ℤ} (hT : 0 < T) {r : Range ℝ} {n : Node} {x : SNode} (h : Make T r n x) (h0 : 0 ≤ n.time) (h1 : n.time ≤ T)
    (hr : r.start ≤ n.val ∧ n.val ≤ r.stop) : Stands T r n x := by
  have e : (65535 : ℝ) * grain T = T := by unfold grain; ring
  obtain ⟨x', e1, -, e2, e3, e4, e5⟩ := Motive.Splines.C21_make (d := n.deriv) (grain_pos hT) (show (0 : ℝ) ≤ n.time by exact_mod_cast h0)
    (show (n.time : ℝ) ≤ 65535 * grain T by rw [e]; exact_mod_cast h1) hr
  obtain rfl : x' = x := by
    unfold Make at h
    rw [h] at e1
    exact (Option.some.inj e1).symm
  refine ⟨e2, ?_, e5⟩
  rw [abs_le]
  constructor <;> linarith

theorem make_exists {T : ℤ} (hT : 0 < T) {r : Range ℝ} {n : Node} (h0 : 0 ≤ n.time) (h1 : n.time ≤ T)
    (hr : r.start ≤ n.val ∧ n.val ≤ r.stop) : ∃ x, Make T r n x := by
  have e : (65535 : ℝ) * grain T = T := by unfold grain; ring
  obtain ⟨x', e1, -⟩ := Motive.Splines.C21_make (d := n.deriv) (grain_pos hT) (show (0 : ℝ) ≤ n.time by exact_mod_cast h0)
    (show (n.time : ℝ) ≤ 65535 * grain T by rw [e]; exact_mod_cast h1) hr
  exact ⟨x', e1⟩

theorem Make.floor {T : ℤ} (hT : 0 < T) {r : Range ℝ} {n : Node} {x : SNode} (h : Make T r n x) (h0 : 0 ≤ n.time) :
    (x.x : ℤ) = ⌊(n.time : ℝ) / grain T + 1 / 2⌋ :=
  Motive.Splines.compactX_floor (grain_pos hT) (Motive.Splines.make_some h).1 (by exact_mod_cast h0)

theorem Make.le {T : ℤ} (hT : 0 < T) {r : Range ℝ} {n m : Node} {x y : SNode} (hn : Make T r n x) (hm : Make T r m y) (h0 : 0 ≤ n.time)
    (h : n.time ≤ m.time) : x.x ≤ y.x := by
  have e1 := hn.floor hT h0
  have e2 := hm.floor hT (h0.trans h)
  have : ⌊(n.time : ℝ) / grain T + 1 / 2⌋ ≤ ⌊(m.time : ℝ) / grain T + 1 / 2⌋ := by
    apply Int.floor_mono
    have h' : (n.time : ℝ) ≤ m.time := by exact_mod_cast h
    have := div_le_div_of_nonneg_right h' (grain_pos hT).le
    linarith
  omega

theorem Make.lt {T : ℤ} (hT : 0 < T) {r : Range ℝ} {n m : Node} {x y : SNode} (hn : Make T r n x) (hm : Make T r m y) (h0 : 0 ≤ n.time)
    (h : T ≤ 65535 * (m.time - n.time)) : x.x < y.x := by
  have e1 := hn.floor hT h0
  have e2 := hm.floor hT (by omega)
  have h' : (T : ℝ) ≤ 65535 * (m.time - n.time) := by exact_mod_cast h
  have : ⌊(n.time : ℝ) / grain T + 1 / 2⌋ + 1 ≤ ⌊(m.time : ℝ) / grain T + 1 / 2⌋ := by
    rw [← Int.floor_add_one]
    apply Int.floor_mono
    have hg := grain_pos hT
    have : grain T ≤ m.time - n.time := by unfold grain; linarith
    have : 1 ≤ (m.time - n.time) / grain T := by rw [le_div_iff₀ hg]; linarith
    rw [sub_div] at this
    linarith
  omega

/-- How the nodes of a spline are made from those of a curve. -/
inductive Stored (T : ℤ) (r : Range ℝ) : List Node → List SNode → Prop
  | nil : Stored T r [] []
  | keep {p : List Node} {q : List SNode} {n : Node} {x : SNode} : Stored T r p q → Make T r n x → Stored T r (p ++ [n]) (q ++ [x])
  | skip {p : List Node} {q : List SNode} {n : Node} {x : SNode} : Stored T r p q → Make T r n x → q.getLast? = some x → Stored T r (p ++ [n]) q

theorem Stored.last {T : ℤ} {r : Range ℝ} {p : List Node} {q : List SNode} (h : Stored T r p q) :
    ∀ n, p.getLast? = some n → ∃ x, q.getLast? = some x ∧ Make T r n x := by
  cases h with
  | nil => intro n h; simp at h
  | keep h1 h2 =>
    intro n h
    rw [List.getLast?_append] at h
    obtain rfl := Option.some.inj h
    exact ⟨_, by simp, h2⟩
  | skip h1 h2 h3 =>
    intro n h
    rw [List.getLast?_append] at h
    obtain rfl := Option.some.inj h
    exact ⟨_, h3, h2⟩

theorem Stored.nil_iff {T : ℤ} {r : Range ℝ} {p : List Node} {q : List SNode} (h : Stored T r p q) : p = [] ↔ q = [] := by
  induction h with
  | nil => simp
  | keep => simp
  | @skip p q n x h1 h2 h3 ih =>
    have : q ≠ [] := by rintro rfl; simp at h3
    simp [this]

theorem Stored.head {T : ℤ} {r : Range ℝ} {p : List Node} {q : List SNode} (h : Stored T r p q) :
    ∀ n, p.head? = some n → ∃ x, q.head? = some x ∧ Make T r n x := by
  induction h with
  | nil => intro n h; simp at h
  | @keep p q n x h1 h2 ih =>
    intro m hm
    by_cases hp : p = []
    · obtain rfl := hp
      obtain rfl := h1.nil_iff.mp rfl
      obtain rfl : n = m := by simpa using hm
      exact ⟨x, rfl, h2⟩
    · rw [List.head?_append_of_ne_nil _ hp] at hm
      rw [List.head?_append_of_ne_nil _ (fun hq => hp (h1.nil_iff.mpr hq))]
      exact ih m hm
  | @skip p q n x h1 h2 h3 ih =>
    intro m hm
    have hq : q ≠ [] := by rintro rfl; simp at h3
    have hp : p ≠ [] := fun hp => hq (h1.nil_iff.mp hp)
    rw [List.head?_append_of_ne_nil _ hp] at hm
    exact ih m hm

theorem Stored.mem {T : ℤ} {r : Range ℝ} {p : List Node} {q : List SNode} (h : Stored T r p q) :
    (∀ x ∈ q, ∃ n ∈ p, Make T r n x) ∧ ∀ n ∈ p, ∃ x ∈ q, Make T r n x := by
  induction h with
  | nil => simp
  | @keep p q n x h1 h2 ih =>
    refine ⟨fun y hy => ?_, fun m hm => ?_⟩
    · rcases List.mem_append.mp hy with h | h
      · obtain ⟨m, h3, h4⟩ := ih.1 y h
        exact ⟨m, by simp [h3], h4⟩
      · rw [List.mem_singleton.mp h]
        exact ⟨n, by simp, h2⟩
    · rcases List.mem_append.mp hm with h | h
      · obtain ⟨m, h3, h4⟩ := ih.2 m h
        exact ⟨m, by simp [h3], h4⟩
      · rw [List.mem_singleton.mp h]
        exact ⟨x, by simp, h2⟩
  | @skip p q n x h1 h2 h3 ih =>
    refine ⟨fun y hy => ?_, fun m hm => ?_⟩
    · obtain ⟨m, h3, h4⟩ := ih.1 y hy
      exact ⟨m, by simp [h3], h4⟩
    · rcases List.mem_append.mp hm with h | h
      · exact ih.2 m h
      · rw [List.mem_singleton.mp h]
        exact ⟨x, List.mem_of_getLast? h3, h2⟩

theorem Stored.length {T : ℤ} {r : Range ℝ} {p : List Node} {q : List SNode} (h : Stored T r p q) : q.length ≤ p.length := by
  induction h with
  | nil => simp
  | keep => simpa
  | skip => simp; omega

/-- Spline nodes that follow each other are made of nodes that follow each other. -/
theorem Stored.pair {T : ℤ} {r : Range ℝ} {p : List Node} {q : List SNode} (h : Stored T r p q) :
    ∀ (i : ℕ) (a b : SNode), q[i]? = some a → q[i + 1]? = some b → ∃ pa n m rest, p = pa ++ n :: m :: rest ∧ Make T r n a ∧ Make T r m b := by
  induction h with
  | nil => intro i a b ha; simp at ha
  | @keep p q n x h1 h2 ih =>
    intro i a b ha hb
    have hlen := (List.getElem?_eq_some_iff.mp hb).1
    simp only [List.length_append, List.length_singleton] at hlen
    rcases Nat.lt_or_ge (i + 1) q.length with hi | hi
    · rw [List.getElem?_append_left (by omega)] at ha hb
      obtain ⟨pa, n', m', rest, rfl, h3, h4⟩ := ih i a b ha hb
      exact ⟨pa, n', m', rest ++ [n], by simp, h3, h4⟩
    · have hi' : i + 1 = q.length := by omega
      rw [List.getElem?_append_left (by omega)] at ha
      rw [hi', List.getElem?_append_right le_rfl] at hb
      obtain rfl : x = b := by simpa using hb
      have hl : q.getLast? = some a := by
        rw [List.getLast?_eq_getElem?, ← ha, ← hi']
        rfl
      have hp : p ≠ [] := by
        intro hp
        rw [h1.nil_iff.mp hp] at ha
        simp at ha
      obtain ⟨y, hy, hmy⟩ := h1.last (p.getLast hp) (List.getLast?_eq_getLast_of_ne_nil hp)
      rw [hl] at hy
      obtain rfl := Option.some.inj hy
      refine ⟨p.dropLast, p.getLast hp, n, [], ?_, hmy, h2⟩
      conv_lhs => rw [← List.dropLast_append_getLast hp]
      simp
  | @skip p q n x h1 h2 h3 ih =>
    intro i a b ha hb
    obtain ⟨pa, n', m', rest, rfl, h3, h4⟩ := ih i a b ha hb
    exact ⟨pa, n', m', rest ++ [n], by simp, h3, h4⟩

/-! ### The loop -/

theorem addNode_export {T : ℤ} {r : Range ℝ} {all : List Node} (he : Exportable T all) (hr : ∀ a ∈ all, r.start ≤ a.val ∧ a.val ≤ r.stop)
    {p : List Node} {n : Node} {rest : List Node} (hall : all = p ++ n :: rest) (hle : n.time ≤ T) {s : CSpline} (hs : s.WF) (hg : s.g = grain T)
    (hy : s.yRange = r) (hm : s.maxNodes = all.length) (hst : Stored T r p s.nodes) :
    ∃ s', s.addNode n.time n.val n.deriv .withoutModification = some s' ∧ s'.WF ∧ s'.g = grain T ∧ s'.yRange = r ∧ s'.maxNodes = all.length ∧
      Stored T r (p ++ [n]) s'.nodes := by
  have hn : n ∈ all := by rw [hall]; simp
  obtain ⟨x, hx⟩ := make_exists he.pos (he.nonneg n hn) hle (hr n hn)
  have hlen : s.nodes.length < s.maxNodes := by
    have := hst.length
    rw [hm, hall, List.length_append, List.length_cons]
    omega
  have hadd : s.addVerbatim x = some { s with nodes := s.nodes ++ [x] } := by
    unfold Motive.Splines.Spline.addVerbatim
    rw [if_pos hlen]
  suffices hk : (s.addNode n.time n.val n.deriv .withoutModification = some { s with nodes := s.nodes ++ [x] }) ∨
      (s.addNode n.time n.val n.deriv .withoutModification = some s ∧ s.nodes.getLast? = some x) by
    rcases hk with h | ⟨h, hl⟩
    · obtain ⟨h1, -⟩ := Motive.Splines.Spline.addNode_spec hs h
      exact ⟨_, h, h1, hg, hy, hm, hst.keep hx⟩
    · exact ⟨s, h, hs, hg, hy, hm, hst.skip hx hl⟩
  have hmake : Motive.Splines.Node.make n.time n.val n.deriv s.g s.yRange = some x := by rw [hg, hy]; exact hx
  unfold Motive.Splines.Spline.addNode
  rw [hmake]
  simp only [Option.bind_some]
  cases hl : s.nodes.getLast? with
  | none => exact Or.inl hadd
  | some last =>
    simp only
    have hp : p ≠ [] := fun hp => by rw [hst.nil_iff.mp hp] at hl; simp at hl
    have hps : p = p.dropLast ++ [p.getLast hp] := (List.dropLast_append_getLast hp).symm
    obtain ⟨y, hy', hmy⟩ := hst.last (p.getLast hp) (List.getLast?_eq_getLast_of_ne_nil hp)
    rw [hl] at hy'
    obtain rfl := Option.some.inj hy'
    have hmem : p.getLast hp ∈ all := by rw [hall]; simp
    have htime : (p.getLast hp).time ≤ n.time := by
      have h := he.kinked.1
      rw [hall] at h
      exact (List.pairwise_append.mp h).2.2 _ (List.getLast_mem hp) n (by simp)
    have hxle := hmy.le he.pos hx (he.nonneg _ hmem) htime
    rw [if_neg (by omega)]
    by_cases heq : last = x
    · rw [if_pos heq, ← heq]
      exact Or.inr ⟨rfl, rfl⟩
    rw [if_neg heq, if_neg (show ¬ Motive.Splines.AddMethod.withoutModification = .ensureWellBehaved by decide)]
    left
    by_cases hxx : last.x = x.x
    · rw [if_pos hxx]
      have hteq : (p.getLast hp).time = n.time := by
        rcases htime.lt_or_eq with h | h
        · exfalso
          have hap := he.apart
          rw [hall] at hap
          have := (List.pairwise_append.mp hap).2.2 _ (List.getLast_mem hp) n (by simp) h
          have := hmy.lt he.pos hx (he.nonneg _ hmem) this
          omega
        · exact h
      have hdm : s.dropMiddle x = s := by
        unfold Motive.Splines.Spline.dropMiddle
        split
        · rename_i b a q hrev
          have hq : s.nodes = q.reverse ++ [a, b] := by
            have := congrArg List.reverse hrev
            simpa using this
          rw [if_neg]
          rintro ⟨h1, h2⟩
          have hb : b = last := by
            rw [hq] at hl
            simpa using hl
          obtain ⟨pa, n', m', rest', hpp, h3, h4⟩ := hst.pair q.reverse.length a b (by rw [hq]; simp) (by rw [hq, List.getElem?_append_right (by simp)]; simp)
          have hn' : n' ∈ all := by rw [hall, hpp]; simp
          have hlt : n'.time < n.time := by
            have hk := he.kinked
            cases rest' with
            | nil =>
              rw [hall, hpp] at hk
              exact hk.2 pa n' m' n rest (by simp)
            | cons z zs =>
              have h5 : n'.time < z.time := by
                rw [hall, hpp] at hk
                exact hk.2 pa n' m' z (zs ++ n :: rest) (by simp)
              have h6 : z.time ≤ n.time := by
                have h := hk.1
                rw [hall] at h
                exact (List.pairwise_append.mp h).2.2 z (by rw [hpp]; simp) n (by simp)
              omega
          have hap := he.apart
          rw [hall] at hap
          have := (List.pairwise_append.mp hap).2.2 n' (by rw [hpp]; simp) n (by simp) hlt
          have := h3.lt he.pos hx (he.nonneg _ hn') this
          omega
        · rfl
      rw [hdm]
      exact hadd
    · rw [if_neg hxx]
      exact hadd

theorem export_loop {T : ℤ} {r : Range ℝ} {all : List Node} (he : Exportable T all) (hr : ∀ a ∈ all, r.start ≤ a.val ∧ a.val ≤ r.stop)
    (hT : ∀ a ∈ all, a.time ≤ T) : ∀ (rest p : List Node), all = p ++ rest → ∀ (s : CSpline), s.WF → s.g = grain T → s.yRange = r →
    s.maxNodes = all.length → Stored T r p s.nodes →
    ∃ s' l', rest.foldlM exportStep (s, p.getLast?.map fun n => (n.time : ℝ)) = some (s', l') ∧ s'.WF ∧ s'.g = grain T ∧ s'.yRange = r ∧
      s'.maxNodes = all.length ∧ Stored T r all s'.nodes := by
  intro rest
  induction rest with
  | nil =>
    intro p hp s h1 h2 h3 h4 h5
    rw [List.append_nil] at hp
    exact ⟨s, _, rfl, h1, h2, h3, h4, hp ▸ h5⟩
  | cons n rest ih =>
    intro p hp s h1 h2 h3 h4 h5
    have hn : n ∈ all := by rw [hp]; simp
    obtain ⟨s', e, k1, k2, k3, k4, k5⟩ := addNode_export he hr hp (hT n hn) h1 h2 h3 h4 h5
    have hstep : exportStep (s, p.getLast?.map fun n => (n.time : ℝ)) n = some (s', some (n.time : ℝ)) := by
      unfold exportStep
      simp only
      rw [max_eq_right (he.nonneg n hn), e, if_pos]
      · rfl
      · intro l hl
        obtain ⟨m, hm, rfl⟩ := Option.map_eq_some_iff.mp hl
        have h := he.kinked.1
        rw [hp] at h
        exact_mod_cast (List.pairwise_append.mp h).2.2 m (List.mem_of_getLast? hm) n (by simp)
    obtain ⟨s'', l'', g1, g2⟩ := ih (p ++ [n]) (by rw [hp]; simp) s' k1 k2 k3 k4 k5
    refine ⟨s'', l'', ?_, g2⟩
    rw [List.foldlM_cons, hstep]
    simpa using g1

theorem Exportable.le_last {T : ℤ} {n : List Node} (h : Exportable T n) : ∀ a ∈ n, a.time ≤ T := by
  intro a ha
  obtain ⟨b, hb, hT⟩ := Option.map_eq_some_iff.mp h.last
  obtain ⟨pa, hpa⟩ : ∃ pa, n = pa ++ [b] := List.getLast?_eq_some_iff.mp hb
  rw [hpa] at ha
  rcases List.mem_append.mp ha with h1 | h1
  · have h2 := h.kinked.1
    rw [hpa] at h2
    rw [← hT]
    exact (List.pairwise_append.mp h2).2.2 a h1 b (by simp)
  · rw [List.mem_singleton.mp h1, hT]

theorem export_spec {T : ℤ} {n : List Node} (he : Exportable T n) : ∃ s r, createCompactSpline n = some s ∧ Range.covers (n.map Node.val) = some r ∧
    (∀ a ∈ n, r.start ≤ a.val ∧ a.val ≤ r.stop) ∧ s.WF ∧ s.g = grain T ∧ s.yRange = r ∧ s.maxNodes = n.length ∧ Stored T r n s.nodes := by
  obtain ⟨b, hb, hT⟩ := Option.map_eq_some_iff.mp he.last
  obtain ⟨r, hr, hc⟩ : ∃ r, Range.covers (n.map Node.val) = some r ∧ ∀ x ∈ n.map Node.val, r.contains x := by
    cases hn : n.map Node.val with
    | nil => simp at hn; rw [hn] at hb; simp at hb
    | cons v vs =>
      obtain ⟨r, h1, h2, -⟩ := Range.C55_covers v vs
      exact ⟨r, h1, h2⟩
  have hc' : ∀ a ∈ n, r.start ≤ a.val ∧ a.val ≤ r.stop := fun a ha => by
    simpa [Range.contains] using hc a.val (List.mem_map.mpr ⟨a, ha, rfl⟩)
  have hg : Motive.Splines.Spline.recommendG ((b.time : ℤ) : ℝ) = grain T := by
    unfold Motive.Splines.Spline.recommendG grain
    rw [hT, if_neg]
    have : (0 : ℝ) < T := by exact_mod_cast he.pos
    linarith
  have hlen : n.length % 65536 = n.length := by have := he.len; omega
  obtain ⟨s, l, e, h1, h2, h3, h4, h5⟩ := export_loop he hc' he.le_last n [] rfl
    ((Motive.Splines.Spline.create n.length).init r (grain T)) (Motive.Splines.Spline.wf_init _ _ (grain_pos he.pos)) rfl rfl rfl .nil
  refine ⟨s, r, ?_, hr, hc', h1, h2, h3, h4, h5⟩
  unfold createCompactSpline
  rw [if_neg (by have := he.two; omega), hb, hr]
  simp only
  rw [hg, hlen]
  have e' : List.foldlM exportStep (((Motive.Splines.Spline.create n.length).init r (grain T)), none) n = some (s, l) := e
  rw [e']
  rfl

/-! ### Accuracy -/

theorem slope_diff {D d L η : ℝ} (h : |Real.arctan D - Real.arctan d| ≤ η) (hD : |D| ≤ L) (hd : |d| ≤ L) : |D - d| ≤ η * (1 + L ^ 2) := by
  have key : ∀ a b : ℝ, a < b → |a| ≤ L → |b| ≤ L → b - a ≤ (Real.arctan b - Real.arctan a) * (1 + L ^ 2) := by
    intro a b hab ha hb
    obtain ⟨c, hc, hc'⟩ := exists_hasDerivAt_eq_slope Real.arctan (fun x => 1 / (1 + x ^ 2)) hab Real.continuous_arctan.continuousOn
      fun x _ => Real.hasDerivAt_arctan x
    rw [eq_div_iff (by linarith)] at hc'
    have hcL : c ^ 2 ≤ L ^ 2 := by
      apply sq_le_sq'
      · linarith [(abs_le.mp ha).1, hc.1]
      · linarith [(abs_le.mp hb).2, hc.2]
    have h1 : (0 : ℝ) < 1 + c ^ 2 := by positivity
    rw [← hc', div_mul_eq_mul_div, one_mul, div_mul_eq_mul_div, le_div_iff₀ h1]
    exact mul_le_mul_of_nonneg_left (by linarith) (by linarith)
  have hp : (0 : ℝ) < 1 + L ^ 2 := by positivity
  rcases lt_trichotomy D d with hlt | rfl | hlt
  · have := key D d hlt hD hd
    rw [abs_sub_comm, abs_of_pos (by linarith)]
    refine this.trans (mul_le_mul_of_nonneg_right ?_ hp.le)
    exact (le_abs_self _).trans (by rw [abs_sub_comm]; exact h)
  · rw [sub_self, abs_zero]
    exact mul_nonneg ((abs_nonneg _).trans h) hp.le
  · have := key d D hlt hd hD
    rw [abs_of_pos (by linarith)]
    exact this.trans (mul_le_mul_of_nonneg_right ((le_abs_self _).trans h) hp.le)

theorem Make.slope_le {T : ℤ} {r : Range ℝ} {n : Node} {x : SNode} (h : Make T r n x) : |x.D| ≤ |n.deriv| := by
  have e := (Motive.Splines.make_some h).2.2
  have := (Motive.Splines.C21_derivative_accurate n.deriv x.x x.y).2.1
  unfold Motive.Splines.Node.D at *
  rw [e]
  exact this

/-- Two cubics with the same parameter. -/
theorem hermite_diff {y0 s0 y1 s1 w y0' s0' y1' s1' w' u A B : ℝ} (hu0 : 0 ≤ u) (hu1 : u ≤ 1) (hw : 0 < w) (hw' : 0 < w') (h0 : |y0 - y0'| ≤ A)
    (h1 : |y1 - y1'| ≤ A) (h2 : |s0 * w - s0' * w'| ≤ B) (h3 : |s1 * w - s1' * w'| ≤ B) :
    |hermite y0 s0 y1 s1 w (u * w) - hermite y0' s0' y1' s1' w' (u * w')| ≤ A + B / 4 := by
  unfold hermite
  rw [mul_div_cancel_right₀ _ hw.ne', mul_div_cancel_right₀ _ hw'.ne']
  have e : y0 * (2 * u ^ 3 - 3 * u ^ 2 + 1) + s0 * w * (u ^ 3 - 2 * u ^ 2 + u) + y1 * (3 * u ^ 2 - 2 * u ^ 3) + s1 * w * (u ^ 3 - u ^ 2) -
      (y0' * (2 * u ^ 3 - 3 * u ^ 2 + 1) + s0' * w' * (u ^ 3 - 2 * u ^ 2 + u) + y1' * (3 * u ^ 2 - 2 * u ^ 3) + s1' * w' * (u ^ 3 - u ^ 2)) =
      (y0 - y0') * ((1 - u) ^ 2 * (1 + 2 * u)) + (y1 - y1') * (u ^ 2 * (3 - 2 * u)) +
        ((s0 * w - s0' * w') * (u * (1 - u) ^ 2) - (s1 * w - s1' * w') * (u ^ 2 * (1 - u))) := by ring
  rw [e]
  have p1 : 0 ≤ (1 - u) ^ 2 * (1 + 2 * u) := by positivity
  have p2 : 0 ≤ u ^ 2 * (3 - 2 * u) := mul_nonneg (sq_nonneg _) (by linarith)
  have p3 : 0 ≤ u * (1 - u) ^ 2 := by positivity
  have p4 : 0 ≤ u ^ 2 * (1 - u) := mul_nonneg (sq_nonneg _) (by linarith)
  have q : ∀ {x C k : ℝ}, |x| ≤ C → 0 ≤ k → |x * k| ≤ C * k := by
    intro x C k hx hk
    rw [abs_mul, abs_of_nonneg hk]
    exact mul_le_mul_of_nonneg_right hx hk
  have hB : 0 ≤ B := (abs_nonneg _).trans h2
  calc _ ≤ |(y0 - y0') * ((1 - u) ^ 2 * (1 + 2 * u))| + |(y1 - y1') * (u ^ 2 * (3 - 2 * u))| +
        (|(s0 * w - s0' * w') * (u * (1 - u) ^ 2)| + |(s1 * w - s1' * w') * (u ^ 2 * (1 - u))|) :=
        (abs_add_le _ _).trans (add_le_add (abs_add_le _ _) (abs_sub _ _))
    _ ≤ A * ((1 - u) ^ 2 * (1 + 2 * u)) + A * (u ^ 2 * (3 - 2 * u)) + (B * (u * (1 - u) ^ 2) + B * (u ^ 2 * (1 - u))) :=
        add_le_add (add_le_add (q h0 p1) (q h1 p2)) (add_le_add (q h2 p3) (q h3 p4))
    _ = A + B * (u * (1 - u)) := by ring
    _ ≤ A + B / 4 := by
      have : u * (1 - u) ≤ 1 / 4 := by nlinarith [sq_nonneg (2 * u - 1)]
      have := mul_le_mul_of_nonneg_left this hB
      linarith

/-! ### C70 -/

/-- C70: every curve that can be exported is exported to a well-formed spline, that ends at exactly the time at which the curve ends, and whose range
spans exactly the values of the nodes.  Its nodes stand for those of the curve, in the same order, the first for the first and the last for the
last. -/
theorem C70_export {T : ℤ} {n : List Node} (he : Exportable T n) : ∃ s r, createCompactSpline n = some s ∧ s.WF ∧ s.Indexable ∧
    s.yRange = r ∧ s.g = grain T ∧ s.endX = some (T : ℝ) ∧
    (∀ a ∈ n, r.start ≤ a.val ∧ a.val ≤ r.stop) ∧ (∃ a ∈ n, r.start = a.val) ∧ (∃ a ∈ n, r.stop = a.val) ∧
    (∀ a ∈ n, ∃ x ∈ s.nodes, Stands T r a x) ∧
    (∀ a, n.head? = some a → ∃ x, s.nodes.head? = some x ∧ Stands T r a x) ∧
    (∀ a, n.getLast? = some a → ∃ x, s.nodes.getLast? = some x ∧ Stands T r a x) ∧
    ∀ (i : ℕ) (x y : SNode), s.nodes[i]? = some x → s.nodes[i + 1]? = some y →
      ∃ pa a b rest, n = pa ++ a :: b :: rest ∧ Stands T r a x ∧ Stands T r b y := by
  obtain ⟨s, r, e, hr, hc, h1, h2, h3, h4, h5⟩ := export_spec he
  have st : ∀ a ∈ n, ∀ x, Make T r a x → Stands T r a x := fun a ha x hx => hx.stands he.pos (he.nonneg a ha) (he.le_last a ha) (hc a ha)
  have hne : n ≠ [] := by
    rintro rfl
    have := he.two
    simp at this
  obtain ⟨b, hb, hT⟩ := Option.map_eq_some_iff.mp he.last
  obtain ⟨v, hv, hmv⟩ := h5.last b hb
  have hvx : v.x = 65535 := by
    have := hmv.floor he.pos (he.nonneg b (List.mem_of_getLast? hb))
    have e2 : (b.time : ℝ) / grain T = 65535 := by
      have : (0 : ℝ) < T := by exact_mod_cast he.pos
      rw [hT]
      unfold grain
      field_simp
    rw [e2, show ⌊(65535 : ℝ) + 1 / 2⌋ = 65535 by norm_num [Int.floor_eq_iff]] at this
    exact_mod_cast this
  have hends : (∃ a ∈ n, r.start = a.val) ∧ (∃ a ∈ n, r.stop = a.val) := by
    cases hn : n.map Node.val with
    | nil => simp at hn; exact absurd hn hne
    | cons w ws =>
      obtain ⟨r', k1, -, k2, k3⟩ := Range.C55_covers w ws
      rw [hn, k1] at hr
      obtain rfl := Option.some.inj hr
      rw [← hn] at k2 k3
      obtain ⟨a, ha, ea⟩ := List.mem_map.mp k2
      obtain ⟨c, hc, ec⟩ := List.mem_map.mp k3
      exact ⟨⟨a, ha, ea.symm⟩, c, hc, ec.symm⟩
  refine ⟨s, r, e, h1, ⟨?_, ?_⟩, h3, h2, ?_, hc, hends.1, hends.2, ?_, ?_, ?_, ?_⟩
  · apply List.length_pos_iff.mpr
    exact fun hq => hne (h5.nil_iff.mpr hq)
  · exact h5.length.trans he.len
  · unfold Motive.Splines.Spline.endX
    rw [hv]
    simp only [Option.map_some, Motive.Splines.Node.X, hvx, h2, grain]
    push_cast
    congr 1
    ring
  · intro a ha
    obtain ⟨x, hx, hm⟩ := h5.mem.2 a ha
    exact ⟨x, hx, st a ha x hm⟩
  · intro a ha
    obtain ⟨x, hx, hm⟩ := h5.head a ha
    exact ⟨x, hx, st a (List.mem_of_head? ha) x hm⟩
  · intro a ha
    obtain ⟨x, hx, hm⟩ := h5.last a ha
    exact ⟨x, hx, st a (List.mem_of_getLast? ha) x hm⟩
  · intro i x y hx hy
    obtain ⟨pa, a, b, rest, rfl, k1, k2⟩ := h5.pair i x y hx hy
    exact ⟨pa, a, b, rest, rfl, st a (by simp) x k1, st b (by simp) y k2⟩

/-- The largest difference in value that `C70_accurate` allows: of a curve whose values span `R`, whose slopes are at most `L` and whose nodes are at
most `w` apart. -/
def exportError (T : ℤ) (R L w : ℝ) : ℝ := R / 65535 + (Motive.Splines.angleScale * (1 + L ^ 2) * w + L * grain T) / 4

/-- C70: every cubic of the exported spline follows the curve, to within half a grain in time and `exportError` in value. -/
theorem C70_accurate {T : ℤ} {n : List Node} (he : Exportable T n) {L w : ℝ} (hL : ∀ a ∈ n, |a.deriv| ≤ L) (hw : Gaps w n) {s : CSpline}
    (hs : createCompactSpline n = some s) {i : ℕ} {x y : SNode} (hx : s.nodes[i]? = some x) (hy : s.nodes[i + 1]? = some y) {c : Cubic ℝ}
    (hc : s.Hermite x y c) {t : ℝ} (h1 : x.X s.g ≤ t) (h2 : t < y.X s.g) :
    ∃ t', |t' - t| ≤ grain T / 2 ∧ |c.eval (t - x.X s.g) - curveAt n t'| ≤ exportError T s.yRange.length L w := by
  obtain ⟨s', r, e, hr, hcov, k1, k2, k3, k4, k5⟩ := export_spec he
  rw [hs] at e
  obtain rfl := Option.some.inj e
  obtain ⟨pa, a, b, rest, hn, ma, mb⟩ := k5.pair i x y hx hy
  have ha : a ∈ n := by rw [hn]; simp
  have hb : b ∈ n := by rw [hn]; simp
  obtain ⟨a1, a2, a3⟩ := ma.stands he.pos (he.nonneg a ha) (he.le_last a ha) (hcov a ha)
  obtain ⟨b1, b2, b3⟩ := mb.stands he.pos (he.nonneg b hb) (he.le_last b hb) (hcov b hb)
  have hg := grain_pos he.pos
  have hgap : (b.time : ℝ) - a.time ≤ w := by
    have hw' := hw
    unfold Gaps at hw'
    rw [hn] at hw'
    exact (List.isChain_cons_cons.mp (List.isChain_append.mp hw').2.1).1
  have hxy : x.x < y.x := by
    by_contra hcon
    have : (y.x : ℝ) ≤ x.x := by exact_mod_cast not_lt.mp hcon
    have := mul_le_mul_of_nonneg_right this k1.g_pos.le
    unfold Motive.Splines.Node.X at h1 h2
    linarith
  have hab : a.time < b.time := by
    by_contra hcon
    have := mb.le he.pos ma (he.nonneg b hb) (not_lt.mp hcon)
    omega
  have hW : (0 : ℝ) < b.time - a.time := by
    have : (a.time : ℝ) < b.time := by exact_mod_cast hab
    linarith
  rw [k2] at h1 h2
  set X0 := x.X (grain T) with hX0
  set X1 := y.X (grain T) with hX1
  have hW' : 0 < X1 - X0 := by linarith
  set u := (t - X0) / (X1 - X0) with hu
  have hut : t = X0 + u * (X1 - X0) := by
    rw [hu, div_mul_cancel₀ _ hW'.ne']
    ring
  have hu0 : 0 ≤ u := div_nonneg (by linarith) hW'.le
  have hu1 : u < 1 := by rw [hu, div_lt_one hW']; linarith
  refine ⟨a.time + u * (b.time - a.time), ?_, ?_⟩
  · have e : (a.time : ℝ) + u * (b.time - a.time) - t = (1 - u) * -(X0 - a.time) + u * -(X1 - b.time) := by
      rw [hut]; ring
    rw [e]
    calc _ ≤ |(1 - u) * -(X0 - a.time)| + |u * -(X1 - b.time)| := abs_add_le _ _
      _ = (1 - u) * |X0 - a.time| + u * |X1 - b.time| := by
        rw [abs_mul, abs_mul, abs_neg, abs_neg, abs_of_nonneg hu0, abs_of_nonneg (show 0 ≤ 1 - u by linarith)]
      _ ≤ (1 - u) * (grain T / 2) + u * (grain T / 2) :=
        add_le_add (mul_le_mul_of_nonneg_left a1 (by linarith)) (mul_le_mul_of_nonneg_left b1 hu0)
      _ = grain T / 2 := by ring
  · have hcurve : curveAt n (a.time + u * (b.time - a.time)) = curveBetween a b (a.time + u * (b.time - a.time)) := by
      have hord := he.kinked.1
      rw [hn] at hord ⊢
      exact curveAt_span pa a b rest hord _ (by nlinarith) (by nlinarith)
    have heval : c.eval (t - x.X s.g) = hermite (x.Y r) x.D (y.Y r) y.D (X1 - X0) (u * (X1 - X0)) := by
      rw [(Motive.Splines.Spline.hermite_iff k1.g_pos hxy c).mp hc]
      unfold Motive.Splines.Spline.cubicInit
      rw [Motive.Splines.Spline.width_eq, k2, k3, init_eval _ _ _ _ hW', ← hX0, hut]
      ring_nf
    rw [hcurve, heval]
    unfold curveBetween
    rw [show (a.time : ℝ) + u * (b.time - a.time) - a.time = u * (b.time - a.time) by ring]
    have hwd : |X1 - X0 - (b.time - a.time)| ≤ grain T := by
      rw [show X1 - X0 - ((b.time : ℝ) - a.time) = (X1 - b.time) - (X0 - a.time) by ring]
      exact (abs_sub _ _).trans (by linarith)
    have hs : ∀ {z : SNode} {m : Node}, Make T r m z → m ∈ n → |Real.arctan z.D - Real.arctan m.deriv| < Motive.Splines.angleScale →
        |z.D * (X1 - X0) - m.deriv * (b.time - a.time)| ≤ Motive.Splines.angleScale * (1 + L ^ 2) * w + L * grain T := by
      intro z m hz hm hd
      have l1 : |z.D| ≤ L := hz.slope_le.trans (hL m hm)
      have l2 := slope_diff hd.le l1 (hL m hm)
      have e : z.D * (X1 - X0) - m.deriv * (b.time - a.time) = (z.D - m.deriv) * (b.time - a.time) + z.D * (X1 - X0 - (b.time - a.time)) := by ring
      rw [e]
      refine (abs_add_le _ _).trans (add_le_add ?_ ?_)
      · rw [abs_mul, abs_of_pos hW]
        exact mul_le_mul l2 hgap hW.le ((abs_nonneg _).trans l2)
      · rw [abs_mul]
        exact mul_le_mul l1 hwd (abs_nonneg _) ((abs_nonneg _).trans l1)
    have := hermite_diff hu0 hu1.le hW' hW a2 b2 (hs ma ha a3) (hs mb hb b3)
    unfold exportError
    rw [k3]
    exact this

/-- C70: directly evaluating the exported spline follows the curve just as closely, at every time that is not within half a grain of a node (where it may
use the cubic on the other side, `C25_window_uses_neighbour`), and after the end. -/
theorem C70_evaluate {T : ℤ} {n : List Node} (he : Exportable T n) {L w : ℝ} (hL : ∀ a ∈ n, |a.deriv| ≤ L) (hw : Gaps w n) (hw0 : 0 ≤ w) {s : CSpline}
    (hs : createCompactSpline n = some s) {t : ℝ} (h0 : 0 ≤ t) (ht : t / grain T + 1 / 2 < 2147483648)
    (haway : ∀ x ∈ s.nodes, t < x.X s.g - grain T / 2 ∨ x.X s.g + grain T / 2 ≤ t) :
    ∃ v t', s.calculate t .value = some v ∧ |t' - t| ≤ grain T / 2 ∧ |v - curveAt n t'| ≤ exportError T s.yRange.length L w := by
  obtain ⟨s', r, e, k1, k2, k3, k4, k5, kc, -, -, -, k6, k7, -⟩ := C70_export he
  rw [hs] at e
  obtain rfl := Option.some.inj e
  have hg := grain_pos he.pos
  have hne : s.nodes ≠ [] := List.length_pos_iff.mp k2.1
  have hn : n ≠ [] := by
    rintro rfl
    have := he.two
    simp at this
  obtain ⟨a0, ha0⟩ : ∃ a0, n.head? = some a0 := ⟨_, List.head?_eq_some_head hn⟩
  obtain ⟨x0, hx0, sx0⟩ := k6 a0 ha0
  obtain ⟨a1, ha1⟩ : ∃ a1, n.getLast? = some a1 := ⟨_, List.getLast?_eq_getLast_of_ne_nil hn⟩
  obtain ⟨x1, hx1, sx1⟩ := k7 a1 ha1
  have hord := he.kinked.1
  have hL0 : 0 ≤ L := (abs_nonneg _).trans (hL a0 (List.mem_of_head? ha0))
  have hmore : 0 ≤ (Motive.Splines.angleScale * (1 + L ^ 2) * w + L * grain T) / 4 := by
    have := Motive.Splines.angleScale_pos
    positivity
  have hout := Motive.Splines.Spline.C25_outside k1 k2 (x := t) (x0 := x0.X s.g) (x1 := (T : ℝ)) (by unfold Motive.Splines.Spline.startX; rw [hx0]; rfl)
    k5 (by rw [k4]; exact ht)
  have hT1 : x1.X s.g = T := by
    unfold Motive.Splines.Spline.endX at k5
    rw [hx1] at k5
    exact Option.some.inj k5
  rcases haway x0 (List.mem_of_head? hx0) with hb | hb
  · refine ⟨x0.Y s.yRange, a0.time + (t - x0.X s.g), ?_, ?_, ?_⟩
    · rw [(hout.1 h0 (by rw [k4]; rw [k4] at hb; exact hb)).1]
      unfold Motive.Splines.Spline.startY
      rw [hx0]
      rfl
    · rw [show (a0.time : ℝ) + (t - x0.X s.g) - t = -(x0.X s.g - a0.time) by ring, abs_neg, k4]
      exact sx0.1
    · obtain ⟨rest, hrest⟩ : ∃ rest, n = a0 :: rest := by
        cases n with
        | nil => simp at ha0
        | cons z zs =>
          obtain rfl : z = a0 := by simpa using ha0
          exact ⟨zs, rfl⟩
      have : curveAt n (a0.time + (t - x0.X s.g)) = a0.val := by
        rw [hrest]
        exact curveAt_before _ _ _ (by linarith)
      rw [this, k3]
      unfold exportError
      linarith [sx0.2.1]
  rcases haway x1 (List.mem_of_getLast? hx1) with ha | ha
  · -- between two nodes
    obtain ⟨i, x, y, hx, hy, hxt, hty⟩ : ∃ (i : ℕ) (x y : SNode), s.nodes[i]? = some x ∧ s.nodes[i + 1]? = some y ∧ x.X s.g + grain T / 2 ≤ t ∧
        t < y.X s.g - grain T / 2 := by
      have key : ∀ (l : List SNode) (z : SNode), (∀ x ∈ z :: l, t < x.X s.g - grain T / 2 ∨ x.X s.g + grain T / 2 ≤ t) →
          z.X s.g + grain T / 2 ≤ t → (∃ z', (z :: l).getLast? = some z' ∧ t < z'.X s.g - grain T / 2) →
          ∃ (i : ℕ) (x y : SNode), (z :: l)[i]? = some x ∧ (z :: l)[i + 1]? = some y ∧ x.X s.g + grain T / 2 ≤ t ∧ t < y.X s.g - grain T / 2 := by
        intro l
        induction l with
        | nil =>
          rintro z - h2 ⟨z', h3, h4⟩
          obtain rfl : z = z' := by simpa using h3
          linarith
        | cons z2 l ih =>
          intro z h1 h2 h3
          rcases h1 z2 (by simp) with h | h
          · exact ⟨0, z, z2, rfl, rfl, h2, h⟩
          · obtain ⟨i, x, y, e1, e2, e3⟩ := ih z2 (fun x hx => h1 x (List.mem_cons_of_mem _ hx)) h (by simpa using h3)
            exact ⟨i + 1, x, y, e1, e2, e3⟩
      cases hq : s.nodes with
      | nil => exact absurd hq hne
      | cons z l =>
        rw [hq] at haway hx0 hx1
        obtain rfl : z = x0 := by simpa using hx0
        exact key l z haway hb ⟨x1, hx1, ha⟩
    obtain ⟨c, hc, hv⟩ := Motive.Splines.Spline.C25_inside_segment k1 k2 hx hy (x := t) (by rw [k4]; rw [k4] at hxt; exact hxt)
      (by rw [k4]; rw [k4] at hty; exact hty)
    obtain ⟨t', e1, e2⟩ := C70_accurate he hL hw hs hx hy hc (t := t) (by linarith) (by linarith)
    exact ⟨_, t', hv .value, e1, e2⟩
  · refine ⟨x1.Y s.yRange, t, ?_, ?_, ?_⟩
    · rw [(hout.2 (by rw [hT1] at ha; rw [k4]; exact ha)).1]
      unfold Motive.Splines.Spline.endY
      rw [hx1]
      rfl
    · rw [sub_self, abs_zero]; positivity
    · obtain ⟨pa, hpa⟩ : ∃ pa, n = pa ++ [a1] := List.getLast?_eq_some_iff.mp ha1
      have hta : (a1.time : ℝ) = T := by
        have := he.last
        rw [ha1] at this
        exact_mod_cast Option.some.inj this
      have : curveAt n t = a1.val := by
        rw [hpa] at hord ⊢
        exact curveAt_after pa a1 hord t (by rw [hT1] at ha; linarith)
      rw [this, k3]
      unfold exportError
      linarith [sx1.2.1]

/-- The curve of `C70`: it rises for a second, jumps back, and falls for another; and what the bounds are for it. -/
example : ∃ n, Exportable 2000 n ∧ (∀ a ∈ n, |a.deriv| ≤ 1 / 10) ∧ Gaps 1000 n ∧ grain 2000 < 1 / 30 ∧ exportError 2000 100 (1 / 10) 1000 < 1 / 32 := by
  refine ⟨[⟨0, 0, 0⟩, ⟨1000, 100, 1 / 10⟩, ⟨1000, 50, -(1 / 10)⟩, ⟨2000, 0, 0⟩], ?_, ?_, ?_, ?_, ?_⟩
  · refine Exportable.short (by simp) (by simp) ?_ (by simp) rfl (by norm_num) (by norm_num)
    rw [kinked_cons, kinked_cons, kinked_pair]
    norm_num
  · simp [abs_of_pos]
  · simp [Gaps]
    norm_num
  · norm_num [grain]
  · unfold exportError grain Motive.Splines.angleScale
    have := Real.pi_lt_d2
    norm_num
    linarith

/-- A channel of 65536 nodes is not exported: their number does not fit 16 bits, and the spline has no room for the first. -/
theorem C70_too_many_nodes {n : List Node} (h : n.length % 65536 = 0) : createCompactSpline n = none := by
  unfold createCompactSpline
  split_ifs
  · rfl
  split
  · rename_i back r _ _
    rw [h]
    cases n with
    | nil => simp at *
    | cons a n =>
      rw [List.foldlM_cons]
      have : exportStep ((Motive.Splines.Spline.create 0).init r (Motive.Splines.Spline.recommendG ↑back.time), none) a = none := by
        unfold exportStep Motive.Splines.Spline.addNode Motive.Splines.Spline.addVerbatim Motive.Splines.Spline.create Motive.Splines.Spline.init
        simp only
        rw [if_pos (by simp)]
        cases Motive.Splines.Node.make _ _ _ _ _ <;> simp
      rw [this]
      rfl
  · rfl

end

end Motive.Pipeline
