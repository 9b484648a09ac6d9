import Verif.Spline.AddProps
import Verif.Spline.Layout

/-!
# Many splines of unknown size in one buffer (C123)

Model of the use of `Finalize` that its comment documents (include/motive/math/compact_spline.h:163-198): place a spline
at the front of a buffer with as many nodes as the caller has room for, add nodes, call `Finalize`, and go on behind it.
Addresses are byte offsets in the buffer, as in `Verif.Spline.Layout`.
-/

namespace Motive.Splines.Packed

open Math Curve Spline

/-- One turn of the outer loop of the documented code (compact_spline.h:172-192): the capacity that the caller creates
the spline with, the arguments of `Init`, and the `AddNode` calls. -/
structure Job where
  capacity : ℕ
  range : Range ℝ
  grain : ℝ
  calls : List AddCall

/-- The spline of one turn before `Finalize` (compact_spline.h:174-184). -/
noncomputable def Job.build (j : Job) : Option Spline := ((create j.capacity).init j.range j.grain).addAll j.calls

/-- The documented loop (compact_spline.h:168-195) from offset `buf` of a buffer that ends at `stop`: the splines with
their offsets, and the final `buf`.  `CreateInPlaceMaxNodes`, which the comment calls, does not exist; the caller gives the
capacity to `CreateInPlace` (330-335).  A capacity that does not fit the rest of the buffer, or a failed assertion of
`AddNode`, is `none`. -/
noncomputable def pack (stop : ℕ) : ℕ → List Job → Option (List (ℕ × Spline) × ℕ)
  | buf, [] => some ([], buf)
  | buf, j :: js =>
    if buf + Layout.size j.capacity ≤ stop then
      j.build.bind fun s =>
        (pack stop (buf + Layout.size s.finalize.maxNodes) js).map fun p => ((buf, s.finalize) :: p.1, p.2)
    else none

/-- `Next` (compact_spline.h:213-222): where the spline behind the one at offset `o` starts. -/
def next (o : ℕ) (s : Spline) : ℕ := o + Layout.size s.maxNodes

theorem addVerbatim_fits {s t : Spline} {n : Node} (h : s.addVerbatim n = some t) :
    t.nodes.length ≤ t.maxNodes ∧ t.maxNodes = s.maxNodes := by
  unfold addVerbatim at h
  split at h
  · cases h; simp; omega
  · cases h

theorem addNode_fits {s t : Spline} {x y d : ℝ} {m : AddMethod} (hs : s.nodes.length ≤ s.maxNodes)
    (h : s.addNode x y d m = some t) : t.nodes.length ≤ t.maxNodes ∧ t.maxNodes = s.maxNodes := by
  unfold addNode at h
  simp only [Option.bind_eq_some_iff] at h
  obtain ⟨n, -, h⟩ := h
  split at h
  · exact addVerbatim_fits h
  · split at h
    · cases h
    · split at h
      · cases h; exact ⟨hs, rfl⟩
      · split at h
        · obtain ⟨h1, h2⟩ := addVerbatim_fits h
          refine ⟨h1, h2.trans ?_⟩
          unfold dropMiddle
          split <;> [split <;> rfl; rfl]
        · split at h
          · rw [Option.bind_eq_some_iff] at h
            obtain ⟨u, hu, h⟩ := h
            obtain ⟨h1, h2⟩ := addVerbatim_fits h
            refine ⟨h1, h2.trans ?_⟩
            unfold addMiddle at hu
            split at hu
            · cases hu; rfl
            · simp only [Option.bind_eq_some_iff] at hu
              obtain ⟨_, -, mid, -, hu⟩ := hu
              split at hu
              · exact (addVerbatim_fits hu).2
              · cases hu; rfl
          · exact addVerbatim_fits h

theorem addAll_fits : ∀ (cs : List AddCall) {s t : Spline}, s.nodes.length ≤ s.maxNodes → s.addAll cs = some t →
    t.nodes.length ≤ t.maxNodes ∧ t.maxNodes = s.maxNodes := by
  intro cs
  induction cs with
  | nil => intro s t hs h; simp only [addAll, Option.some.injEq] at h; subst h; exact ⟨hs, rfl⟩
  | cons c cs ih =>
    intro s t hs h
    simp only [addAll, Option.bind_eq_some_iff] at h
    obtain ⟨u, hu, h⟩ := h
    obtain ⟨h1, h2⟩ := addNode_fits hs hu
    obtain ⟨h3, h4⟩ := ih h1 h
    exact ⟨h3, h4.trans h2⟩

theorem size_mono {a b : ℕ} (h : a ≤ b) : Layout.size a ≤ Layout.size b := by
  simp only [Layout.size, Layout.align4, Layout.baseSize_eq, Layout.nodeSize]
  omega

/-- What holds of the result of packing jobs from offset `buf` to `fin` of a buffer that ends at `stop`. -/
structure Tidy (stop buf fin : ℕ) (js : List Job) (l : List (ℕ × Spline)) : Prop where
  /-- every job has its spline, … -/
  all : l.length = js.length
  /-- … which holds exactly the nodes that the job's calls put into a spline of its own, and has no spare capacity; -/
  content : ∀ (i : ℕ) (j : Job) (o : ℕ) (s : Spline), js[i]? = some j → l[i]? = some (o, s) →
    ∃ t, j.build = some t ∧ s.nodes = t.nodes ∧ s.yRange = t.yRange ∧ s.g = t.g ∧ s.maxNodes = t.nodes.length
  /-- it is aligned, and all that was written while its nodes were added lies in the buffer; -/
  inside : ∀ (i : ℕ) (j : Job) (o : ℕ) (s : Spline), js[i]? = some j → l[i]? = some (o, s) →
    o % 4 = 0 ∧ buf ≤ o ∧ o + Layout.bytesUsed j.capacity ≤ stop ∧ o + Layout.bytesUsed s.nodes.length ≤ fin
  /-- no spline reaches into a later one; -/
  apart : ∀ (i k o o' : ℕ) (s s' : Spline), i < k → l[i]? = some (o, s) → l[k]? = some (o', s') →
    o + Layout.bytesUsed s.nodes.length ≤ o'
  /-- `Next` leads from each spline to the one behind it, and from the last to the rest of the buffer; -/
  linked : ∀ (i o : ℕ) (s : Spline), l[i]? = some (o, s) → next o s = ((l[i + 1]?).map (·.1)).getD fin
  /-- and what is consumed is what splines of just these numbers of nodes need. -/
  consumed : fin = buf + (l.map fun p => Layout.size p.2.nodes.length).sum
  /-- The buffer is not overrun. -/
  enough : fin ≤ stop

/-- C123: splines that are packed into a buffer one after the other with `Finalize` keep their nodes, do not overlap,
waste nothing and stay in the buffer. -/
theorem C123_packed {stop : ℕ} : ∀ (js : List Job) {buf fin : ℕ} {l : List (ℕ × Spline)}, buf ≤ stop → buf % 4 = 0 →
    pack stop buf js = some (l, fin) → Tidy stop buf fin js l := by
  intro js
  induction js with
  | nil =>
    intro buf fin l hb _ h
    simp only [pack, Option.some.injEq, Prod.mk.injEq] at h
    obtain ⟨rfl, rfl⟩ := h
    exact ⟨rfl, by simp, by simp, by simp, by simp, by simp, hb⟩
  | cons j js ih =>
    intro buf fin l hb h4 h
    simp only [pack] at h
    by_cases hroom : buf + Layout.size j.capacity ≤ stop
    · rw [if_pos hroom] at h
      simp only [Option.bind_eq_some_iff, Option.map_eq_some_iff] at h
      obtain ⟨t, ht, ⟨l', fin'⟩, hp, he⟩ := h
      simp only [Prod.mk.injEq] at he
      obtain ⟨rfl, rfl⟩ := he
      obtain ⟨hlen, hmax⟩ := addAll_fits j.calls (by simp [init]) ht
      have hcap : t.nodes.length ≤ j.capacity := by
        rw [hmax] at hlen; simpa [init, create] using hlen
      have hfm : t.finalize.maxNodes = t.nodes.length := rfl
      have hfn : t.finalize.nodes = t.nodes := rfl
      have hle := size_mono hcap
      obtain ⟨q1, q2, -⟩ := Layout.C28_size_holds t.nodes.length
      obtain ⟨-, q3, -⟩ := Layout.C28_size_holds j.capacity
      rw [hfm] at hp
      have T := ih (by omega) (by omega) hp
      have hfin : buf + Layout.size t.nodes.length ≤ fin' := by have := T.consumed; omega
      refine ⟨by simp [T.all], ?_, ?_, ?_, ?_, ?_, T.enough⟩
      · intro i j' o s hj hl
        cases i with
        | zero =>
          simp only [List.getElem?_cons_zero, Option.some.injEq, Prod.mk.injEq] at hj hl
          obtain ⟨-, rfl⟩ := hl
          subst hj
          exact ⟨t, ht, rfl, rfl, rfl, hfm⟩
        | succ i =>
          simp only [List.getElem?_cons_succ] at hj hl
          exact T.content i j' o s hj hl
      · intro i j' o s hj hl
        cases i with
        | zero =>
          simp only [List.getElem?_cons_zero, Option.some.injEq, Prod.mk.injEq] at hj hl
          obtain ⟨rfl, rfl⟩ := hl
          subst hj
          rw [hfn]
          exact ⟨h4, le_rfl, by omega, by omega⟩
        | succ i =>
          simp only [List.getElem?_cons_succ] at hj hl
          obtain ⟨a, b, c, d⟩ := T.inside i j' o s hj hl
          exact ⟨a, by omega, c, d⟩
      · intro i k o o' s s' hik hi hk
        obtain ⟨k, rfl⟩ : ∃ n, k = n + 1 := ⟨k - 1, by omega⟩
        simp only [List.getElem?_cons_succ] at hk
        cases i with
        | zero =>
          simp only [List.getElem?_cons_zero, Option.some.injEq, Prod.mk.injEq] at hi
          obtain ⟨rfl, rfl⟩ := hi
          obtain ⟨j', hj'⟩ : ∃ j', js[k]? = some j' := by
            have : k < js.length := by
              have := (List.getElem?_eq_some_iff.mp hk).1
              rw [T.all] at this; exact this
            exact ⟨js[k], List.getElem?_eq_getElem this⟩
          have := (T.inside k j' o' s' hj' hk).2.1
          rw [hfn]; omega
        | succ i =>
          simp only [List.getElem?_cons_succ] at hi
          exact T.apart i k o o' s s' (by omega) hi hk
      · intro i o s hi
        cases i with
        | zero =>
          simp only [List.getElem?_cons_zero, Option.some.injEq, Prod.mk.injEq] at hi
          obtain ⟨rfl, rfl⟩ := hi
          simp only [List.getElem?_cons_succ, next, hfm]
          cases hl : l' with
          | nil =>
            have := T.consumed
            rw [hl] at this
            simpa using this.symm
          | cons p l'' =>
            cases js with
            | nil => have := T.all; rw [hl] at this; simp at this
            | cons j2 js2 =>
              have hp' := hp
              simp only [pack] at hp'
              by_cases hr : buf + Layout.size t.nodes.length + Layout.size j2.capacity ≤ stop
              · rw [if_pos hr] at hp'
                simp only [Option.bind_eq_some_iff, Option.map_eq_some_iff] at hp'
                obtain ⟨t2, -, p2, -, he⟩ := hp'
                rw [hl] at he
                simp only [Prod.mk.injEq, List.cons.injEq] at he
                obtain ⟨⟨rfl, -⟩, -⟩ := he
                simp
              · rw [if_neg hr] at hp'; cases hp'
        | succ i =>
          simp only [List.getElem?_cons_succ] at hi ⊢
          exact T.linked i o s hi
      · have := T.consumed
        simp only [List.map_cons, List.sum_cons, hfn]
        omega
    · rw [if_neg hroom] at h; cases h

/-- C123: `Finalize` closes a spline: a node at a later x can no longer be added, and no `AddNode` makes it longer. -/
theorem C123_closed (s : Spline) (x y d : ℝ) (m : AddMethod) :
    (∀ t, s.finalize.addNode x y d m = some t → t.nodes.length ≤ s.nodes.length) ∧
    (∀ last n, s.nodes.getLast? = some last → Node.make x y d s.g s.yRange = some n → last.x < n.x →
      s.finalize.addNode x y d m = none) := by
  have hfull : ∀ n, s.finalize.addVerbatim n = none := by
    intro n
    simp [addVerbatim, finalize]
  constructor
  · intro t ht
    obtain ⟨h1, h2⟩ := addNode_fits (s := s.finalize) le_rfl ht
    rw [h2] at h1
    exact h1
  · intro last n hl hn hlt
    have hn' : Node.make x y d s.finalize.g s.finalize.yRange = some n := hn
    have hl' : s.finalize.nodes.getLast? = some last := hl
    unfold addNode
    rw [hn']
    simp only [Option.bind_some, hl']
    rw [if_neg (by omega), if_neg (by rintro rfl; omega), if_neg (by omega)]
    split
    · rw [Option.bind_eq_none_iff]
      intro u hu
      unfold addMiddle at hu
      split at hu
      · cases hu; exact hfull n
      · simp only [Option.bind_eq_some_iff] at hu
        obtain ⟨_, -, mid, -, hu⟩ := hu
        split at hu
        · rw [hfull] at hu; cases hu
        · cases hu; exact hfull n
    · exact hfull n

/-- C22: after `Clear` a spline takes nodes just as it did after `Init`, whatever was in it. -/
theorem C22_clear_starts_over (s t : Spline) (r : Range ℝ) {g : ℝ} (hg : 0 < g) (cs ds : List AddCall)
    (h : (s.init r g).addAll cs = some t) : t.clear.addAll ds = (s.init r g).addAll ds ∧ t.clear.nodes = [] := by
  obtain ⟨-, ⟨f1, f2, f3⟩, -⟩ := addAll_wf (wf_init s r hg) h
  have : t.clear = s.init r g := by
    obtain ⟨a, b, c, d⟩ := t
    simp only [init] at f1 f2 f3
    simp only [clear, init, f1, f2, f3]
  rw [this]
  exact ⟨rfl, rfl⟩

/-! ### The check for room in the documented loop

The documented loop stops when the numbers of nodes and of allowed nodes are equal (compact_spline.h:178-179; it calls
them `num_splines` and `max_splines`).  But `AddNode` adds two nodes when it inserts one to split the curve. -/

/-- C123: where `AddNode` adds two nodes to a spline with enough room, it fails its assertion, or without assertions
writes behind the spline, if there is only one free place. -/
theorem C123_one_free_place {s t : Spline} {x y d : ℝ} {m : AddMethod} {M : ℕ} (h1 : s.maxNodes = s.nodes.length + 1)
    (h : ({ s with maxNodes := M } : Spline).addNode x y d m = some t) (h2 : t.nodes.length = s.nodes.length + 2) :
    s.nodes.length ≠ s.maxNodes ∧ s.addNode x y d m = none := by
  refine ⟨by omega, ?_⟩
  have av : ∀ {u v : Spline} {n : Node}, u.addVerbatim n = some v → v.nodes.length = u.nodes.length + 1 := by
    intro u v n hv
    unfold addVerbatim at hv
    split at hv
    · cases hv; simp
    · cases hv
  unfold addNode at h ⊢
  simp only [Option.bind_eq_some_iff] at h
  obtain ⟨n, hn, h⟩ := h
  rw [hn]
  simp only [Option.bind_some]
  cases hl : s.nodes.getLast? with
  | none =>
    simp only [hl] at h
    have := av h
    simp only at this
    omega
  | some last =>
    simp only [hl] at h
    simp only
    by_cases c1 : n.x < last.x
    · rw [if_pos c1]
    rw [if_neg c1] at h ⊢
    by_cases c2 : last = n
    · rw [if_pos c2] at h
      cases h
      simp only at h2
      omega
    rw [if_neg c2] at h ⊢
    by_cases c3 : last.x = n.x
    · rw [if_pos c3] at h
      have e1 := av h
      have e2 : (dropMiddle { s with maxNodes := M } n).nodes.length ≤ s.nodes.length := by
        unfold dropMiddle
        simp only
        split
        · split
          · simp
          · exact le_rfl
        · exact le_rfl
      omega
    rw [if_neg c3] at h ⊢
    by_cases c4 : m = .ensureWellBehaved
    · rw [if_pos c4] at h ⊢
      rw [Option.bind_eq_some_iff] at h
      obtain ⟨u, hu, h⟩ := h
      have e1 := av h
      unfold addMiddle at hu ⊢
      by_cases c5 : (Cubic.init (s.cubicInit last n)).uniformCurvature ⟨0, s.widthX last n⟩ = true
      · have hu' : u = { s with maxNodes := M } := by
          have : some ({ s with maxNodes := M } : Spline) = some u := by rw [← hu]; exact (if_pos c5).symm
          cases this; rfl
        rw [hu'] at e1
        simp only at e1
        omega
      · have hu' := (if_neg c5).symm.trans hu
        rw [if_neg c5]
        simp only [Option.bind_eq_some_iff] at hu'
        obtain ⟨p, hp, mid, hmid, hu'⟩ := hu'
        have hp' : Dual.dualCubicMidNode (s.cubicInit last n) = some p := hp
        have hmid' : Node.make (last.X s.g + p.1) p.2.1 p.2.2 s.g s.yRange = some mid := hmid
        rw [hp']
        simp only [Option.bind_some, hmid']
        by_cases c6 : mid.x ≠ last.x ∧ mid.x ≠ n.x
        · rw [if_pos c6]
          have : s.addVerbatim mid = some { s with nodes := s.nodes ++ [mid] } := by
            unfold addVerbatim; rw [if_pos (by omega)]
          rw [this]
          simp only [Option.bind_some]
          unfold addVerbatim
          rw [if_neg (by simp; omega)]
        · rw [if_neg c6] at hu'
          cases hu'
          simp only at e1
          omega
    · rw [if_neg c4] at h
      have := av h
      simp only at this
      omega

/-- A segment that starts flat and ends with slope 1, 8 wide and 1 high. -/
noncomputable def bend : CubicInit ℝ := ⟨0, 0, 1, 1, 8⟩

open Dual Quad in
theorem bend_controlNodes : controlNodes bend = (⟨0, 0, 0, 7 / 16⟩, ⟨1, 1, 8, 219 / 4⟩) := by
  have h1 : steepness (0 * 8 * (1 / max |(1 : ℝ) - 0| (1 / 10))) = 0 := by
    unfold steepness
    rw [if_pos]
    norm_num
  have h2 : steepness (1 * 8 * (1 / max |(1 : ℝ) - 0| (1 / 10))) = 3 := by
    unfold steepness
    have e : |(1 * 8 * (1 / max |(1 : ℝ) - 0| (1 / 10)) : ℝ)| = 2 ^ (3 : ℕ) := by norm_num
    rw [if_neg (by rw [e]; norm_num), e, ← Real.rpow_natCast, Real.logb_rpow] <;> norm_num
  simp only [controlNodes, approximateMidPercent, bend, h1, h2]
  norm_num [lerp, extremeStart, extremeEnd]

open Dual Quad in
/-- Where the segment is split. -/
theorem bend_mid : ∃ k, 7 / 10 < k ∧ k < 3 / 4 ∧
    dualCubicMidNode bend = some ((midNode ⟨0, 0, 0, 7 / 16⟩ ⟨1, 1, 8, 219 / 4⟩ k).x * 8,
      (midNode ⟨0, 0, 0, 7 / 16⟩ ⟨1, 1, 8, 219 / 4⟩ k).y, (midNode ⟨0, 0, 0, 7 / 16⟩ ⟨1, 1, 8, 219 / 4⟩ k).s / 8) := by
  have hE : endSpline ⟨0, 0, 0, 7 / 16⟩ ⟨1, 1, 8, 219 / 4⟩ = ⟨-869 / 16, 529 / 4, -135 / 2⟩ := by
    simp only [endSpline]; norm_num
  have hS : startSpline ⟨0, 0, 0, 7 / 16⟩ ⟨1, 1, 8, 219 / 4⟩ = ⟨869 / 16, -1247 / 16, 115 / 4⟩ := by
    simp only [startSpline]; norm_num
  have hEw : (⟨-869 / 16, 529 / 4, -135 / 2⟩ : Quad ℝ).WellConditioned := by
    intro n xr h
    rw [normalized_moderate (e := -2) (g := 9)] at h
    · cases h
      right
      simp only [epsilon, maxCoeff, epsScale, discriminant, scaleInXByReciprocal, scaleUp]
      norm_num [abs_of_pos, abs_of_neg]
    all_goals norm_num [abs_of_pos, abs_of_neg]
  have hSw : (⟨869 / 16, -1247 / 16, 115 / 4⟩ : Quad ℝ).WellConditioned := by
    intro n xr h
    rw [normalized_moderate (e := -1) (g := 7)] at h
    · cases h
      right
      simp only [epsilon, maxCoeff, epsScale, discriminant, scaleInXByReciprocal, scaleUp]
      norm_num [abs_of_pos, abs_of_neg]
    all_goals norm_num [abs_of_pos, abs_of_neg]
  have hpos : ∀ x, (⟨869 / 16, -1247 / 16, 115 / 4⟩ : Quad ℝ).eval x ≠ 0 := by
    intro x h; simp only [eval] at h; nlinarith [sq_nonneg (869 * 2 * x - 1247)]
  have hSc : (⟨869 / 16, -1247 / 16, 115 / 4⟩ : Quad ℝ).ClearOfLimits zeroToOne := by
    intro x h; exact absurd h (hpos x)
  have hEc : (⟨-869 / 16, 529 / 4, -135 / 2⟩ : Quad ℝ).ClearOfLimits zeroToOne := by
    apply clearOfLimits_unit
    · intro x h1 h2 h; simp only [eval] at h; nlinarith
    · intro x h1 h2 h; simp only [eval] at h; nlinarith
  have hr : (⟨869 / 16, -1247 / 16, 115 / 4⟩ : Quad ℝ).rootsInRange zeroToOne = some [] := by
    obtain ⟨rs, h1, -, h3⟩ := rootsInRange_exact hSw (by simp [zeroToOne, Math.Range.valid]) hSc
    cases rs with
    | nil => exact h1
    | cons r rs => exact absurd ((h3 r).mp (by simp)).1 (hpos r)
  obtain ⟨t, ht, -, -, -, hut⟩ := single_root hEw hEc (by norm_num [eval])
  have htb := root_between hut (a := 7 / 10) (b := 3 / 4) (by norm_num) (by norm_num) (by norm_num) (by norm_num [eval])
  have hSr : (⟨869 / 16, -1247 / 16, 115 / 4⟩ : Quad ℝ).rangesMatchingSign zeroToOne (7 / 16) = some [⟨0, 1⟩] := by
    simp only [rangesMatchingSign, hr, Option.bind_eq_bind, Option.bind_some, rangesForRoots, eval]
    norm_num [zeroToOne]
  have hEr : (⟨-869 / 16, 529 / 4, -135 / 2⟩ : Quad ℝ).rangesMatchingSign zeroToOne (219 / 4) = some [⟨t, 1⟩] := by
    simp only [rangesMatchingSign, ht, Option.bind_eq_bind, Option.bind_some, rangesForRoots, eval]
    norm_num [zeroToOne]
  have hmid : midPercent ⟨0, 0, 0, 7 / 16⟩ ⟨1, 1, 8, 219 / 4⟩ = some t := by
    have hi : (Math.Range.mk (0 : ℝ) 1).intersect ⟨t, 1⟩ = ⟨t, 1⟩ := by
      simp only [Math.Range.intersect]
      rw [max_eq_right (by linarith), min_eq_left (by linarith)]
    have hch := chooseRange_single hi (by simp only [Math.Range.valid]; linarith)
    have hcl : (Math.Range.mk t 1).clamp (1 / 2) = t :=
      Math.Range.clamp_of_lt (by simp only [Math.Range.valid]; linarith) (by simp only; linarith)
    simp only [midPercent, validMidRange, hE, hS, hEr, hSr, Option.bind_eq_bind, Option.bind_some, hch, hcl]
    rw [min_eq_left (by linarith), max_eq_right (by linarith)]
  refine ⟨t, htb.1, htb.2, ?_⟩
  simp only [dualCubicMidNode, bend_controlNodes, hmid, Option.bind_eq_bind, Option.bind_some]
  rfl

theorem bend_not_uniform : (Cubic.init bend).uniformCurvature ⟨0, 8⟩ = false := by
  simp only [Cubic.init, bend, Cubic.uniformCurvature, Cubic.second, Cubic.epsilon, Curve.epsScale, Curve.clampNearZero]
  norm_num [abs_of_pos, abs_of_neg]

/-- C123: the documented check for room is not enough.  After the first node the spline has room for one more, but the
second `AddNode` fails; a spline for three nodes takes the same calls. -/
theorem C123_documented_check_fails :
    ∃ s, ((create 2).init ⟨-1, 2⟩ 1).addNode 0 0 0 .ensureWellBehaved = some s ∧ s.nodes.length < s.maxNodes ∧
      s.addNode 8 1 1 .ensureWellBehaved = none ∧
      ∃ t, ((create 3).init ⟨-1, 2⟩ 1).addAll [⟨0, 0, 0, .ensureWellBehaved⟩, ⟨8, 1, 1, .ensureWellBehaved⟩] = some t ∧
        t.nodes.length = 3 := by
  have ha : Node.make 0 0 0 1 ⟨-1, 2⟩ = some ⟨0, 21845, 0⟩ := by
    have := C21_exact_on_grid (n := ⟨0, 21845, 0⟩) (by unfold Node.Ok; norm_num) (g := 1) (by norm_num) (r := ⟨-1, 2⟩) (by norm_num)
    simp only [Node.X, Node.Y, Node.D, Range.lerp] at this
    norm_num at this
    exact this
  have hD : Real.tan (8192 * angleScale) = 1 := by
    rw [show 8192 * angleScale = Real.pi / 4 by unfold angleScale; ring, Real.tan_pi_div_four]
  have hb : Node.make 8 1 1 1 ⟨-1, 2⟩ = some ⟨8, 43690, 8192⟩ := by
    have := C21_exact_on_grid (n := ⟨8, 43690, 8192⟩) (by unfold Node.Ok; norm_num) (g := 1) (by norm_num) (r := ⟨-1, 2⟩) (by norm_num)
    simp only [Node.X, Node.Y, Node.D, Range.lerp] at this
    norm_num [hD] at this
    exact this
  have hi : ∀ s : Spline, s.yRange = ⟨-1, 2⟩ → s.g = 1 → s.cubicInit ⟨0, 21845, 0⟩ ⟨8, 43690, 8192⟩ = bend := by
    intro s h1 h2
    simp only [cubicInit, widthX, h1, h2, Node.Y, Node.D, Range.lerp, bend]
    norm_num [hD]
  obtain ⟨k, k1, k2, hk⟩ := bend_mid
  have hy : -1 ≤ (Dual.midNode ⟨0, 0, 0, 7 / 16⟩ ⟨1, 1, 8, 219 / 4⟩ k).y ∧ (Dual.midNode ⟨0, 0, 0, 7 / 16⟩ ⟨1, 1, 8, 219 / 4⟩ k).y ≤ 2 := by
    simp only [Dual.midNode, Dual.lerp]
    have e1 : 0 ≤ k * (1 - k) := by nlinarith
    have e2 : k * (1 - k) ≤ 1 / 4 := by nlinarith
    constructor <;> nlinarith
  have hxk : (Dual.midNode ⟨0, 0, 0, 7 / 16⟩ ⟨1, 1, 8, 219 / 4⟩ k).x = k := by
    simp only [Dual.midNode, Dual.lerp]; ring
  obtain ⟨mid, hm, -, hmx, -⟩ := C21_make (x := (⟨0, 21845, 0⟩ : Node).X 1 + k * 8)
    (d := (Dual.midNode ⟨0, 0, 0, 7 / 16⟩ ⟨1, 1, 8, 219 / 4⟩ k).s / 8) (g := 1) (r := ⟨-1, 2⟩) one_pos
    (by simp only [Node.X]; push_cast; linarith) (by simp only [Node.X]; push_cast; linarith) hy
  have hne : mid.x ≠ 0 ∧ mid.x ≠ 8 := by
    rw [abs_le] at hmx
    simp only [Node.X] at hmx
    push_cast at hmx
    constructor
    · intro h; rw [h] at hmx; push_cast at hmx; linarith [hmx.1]
    · intro h; rw [h] at hmx; push_cast at hmx; linarith [hmx.2]
  have hw : ∀ s : Spline, s.g = 1 → s.widthX ⟨0, 21845, 0⟩ ⟨8, 43690, 8192⟩ = 8 := by
    intro s h; simp only [widthX, h]; norm_num
  have first : ∀ M, 0 < M → ((create M).init ⟨-1, 2⟩ 1).addNode 0 0 0 .ensureWellBehaved =
      some ⟨⟨-1, 2⟩, 1, [⟨0, 21845, 0⟩], M⟩ := by
    intro M hM
    simp [addNode, init, create, ha, addVerbatim, hM]
  have second : (⟨⟨-1, 2⟩, 1, [⟨0, 21845, 0⟩], 3⟩ : Spline).addNode 8 1 1 .ensureWellBehaved =
      some ⟨⟨-1, 2⟩, 1, [⟨0, 21845, 0⟩, mid, ⟨8, 43690, 8192⟩], 3⟩ := by
    have hmiddle : (⟨⟨-1, 2⟩, 1, [⟨0, 21845, 0⟩], 3⟩ : Spline).addMiddle ⟨0, 21845, 0⟩ ⟨8, 43690, 8192⟩ =
        some ⟨⟨-1, 2⟩, 1, [⟨0, 21845, 0⟩, mid], 3⟩ := by
      unfold addMiddle
      rw [hi _ rfl rfl, hw _ rfl, bend_not_uniform, if_neg (by simp), hk]
      simp only [Option.bind_some, hxk, hm]
      rw [if_pos hne]
      simp [addVerbatim]
    simp [addNode, hb, hmiddle, addVerbatim]
  refine ⟨_, first 2 (by norm_num), by simp, ?_, ⟨⟨-1, 2⟩, 1, [⟨0, 21845, 0⟩, mid, ⟨8, 43690, 8192⟩], 3⟩, ?_, rfl⟩
  · exact (C123_one_free_place (s := ⟨⟨-1, 2⟩, 1, [⟨0, 21845, 0⟩], 2⟩) (M := 3) rfl second rfl).2
  · simp only [addAll, first 3 (by norm_num), Option.bind_some, second]

/-- Two splines packed into 100 bytes: the first, created for 5 nodes, keeps 2 of them, and the second starts at byte 32
and ends at byte 56.  The documented code would return 44 as the number of bytes consumed, which is what is left. -/
theorem C123_documented_result : ∃ l, pack 100 0
    [⟨5, ⟨0, 1⟩, 1, [⟨0, 0, 0, .withoutModification⟩, ⟨3, 1, 0, .withoutModification⟩]⟩,
     ⟨7, ⟨0, 1⟩, 1, [⟨0, 1, 0, .withoutModification⟩]⟩] = some (l, 56) ∧ l.map (·.1) = [0, 32] ∧ 100 - 56 ≠ 56 - 0 := by
  have ha : Node.make 0 0 0 1 ⟨0, 1⟩ = some ⟨0, 0, 0⟩ := by
    have := C21_exact_on_grid (n := ⟨0, 0, 0⟩) (by unfold Node.Ok; norm_num) (g := 1) (by norm_num) (r := ⟨0, 1⟩) (by norm_num)
    simp only [Node.X, Node.Y, Node.D, Range.lerp] at this
    norm_num at this
    exact this
  have hb : Node.make 3 1 0 1 ⟨0, 1⟩ = some ⟨3, 65535, 0⟩ := by
    have := C21_exact_on_grid (n := ⟨3, 65535, 0⟩) (by unfold Node.Ok; norm_num) (g := 1) (by norm_num) (r := ⟨0, 1⟩) (by norm_num)
    simp only [Node.X, Node.Y, Node.D, Range.lerp] at this
    norm_num at this
    exact this
  have hc : Node.make 0 1 0 1 ⟨0, 1⟩ = some ⟨0, 65535, 0⟩ := by
    have := C21_exact_on_grid (n := ⟨0, 65535, 0⟩) (by unfold Node.Ok; norm_num) (g := 1) (by norm_num) (r := ⟨0, 1⟩) (by norm_num)
    simp only [Node.X, Node.Y, Node.D, Range.lerp] at this
    norm_num at this
    exact this
  refine ⟨[(0, ⟨⟨0, 1⟩, 1, [⟨0, 0, 0⟩, ⟨3, 65535, 0⟩], 2⟩), (32, ⟨⟨0, 1⟩, 1, [⟨0, 65535, 0⟩], 1⟩)], ?_, rfl, by norm_num⟩
  simp [pack, Job.build, addAll, addNode, init, create, ha, hb, hc, addVerbatim, finalize, Layout.size, Layout.align4,
    Layout.baseSize_eq, Layout.nodeSize]

end Motive.Splines.Packed
