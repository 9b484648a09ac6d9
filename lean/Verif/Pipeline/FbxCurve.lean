import Verif.Pipeline.Fbx
import Verif.Pipeline.PruneProps
/-!
# C76: the import of an animation curve, and of the curves of a scene
-/

namespace Motive.Pipeline
open Motive.Curve Motive.Matrix4

noncomputable section
open Classical

/-! ### Nodes in order -/

theorem Kinked.tail {a : Node} {n : List Node} (h : Kinked (a :: n)) : Kinked n :=
  ⟨(List.pairwise_cons.mp h.1).2, fun pa x y z r e => h.2 (a :: pa) x y z r (by rw [e]; rfl)⟩

theorem Kinked.triple {x y z : Node} : ∀ {n : List Node}, Kinked n → [x, y, z].Sublist n → x.time < z.time
  | [], _, h => by simp at h
  | a :: n, hk, h => by
    cases h with
    | cons _ h => exact hk.tail.triple h
    | cons_cons _ h =>
      match n, hk, h with
      | [], _, h => simp at h
      | [b], _, h => have := h.length_le; simp at this
      | b :: c :: r, hk, h =>
        have h1 := hk.2 [] x b c r rfl
        have hz : z ∈ c :: r := by
          cases h with
          | cons _ h => exact h.subset (by simp)
          | cons_cons _ h => exact h.subset (by simp)
        rcases List.mem_cons.mp hz with rfl | hz
        · exact h1
        · have := (List.pairwise_cons.mp hk.tail.tail.1).1 z hz
          omega

theorem Kinked.sublist {m n : List Node} (h : Kinked n) (hs : m.Sublist n) : Kinked m := by
  refine ⟨h.1.sublist hs, fun pa x y z r e => h.triple (y := y) (List.Sublist.trans ?_ hs)⟩
  rw [e]
  exact (List.Sublist.append (List.nil_sublist pa) (List.Sublist.append (List.Sublist.refl [x, y, z]) (List.nil_sublist r)) :
    ([] ++ ([x, y, z] ++ [])).Sublist (pa ++ ([x, y, z] ++ r)))

theorem Kinked.append {m n : List Node} (hm : Kinked m) (hn : Kinked n) (h : ∀ a ∈ m, ∀ b ∈ n, a.time < b.time) : Kinked (m ++ n) := by
  induction m with
  | nil => exact hn
  | cons a m ih =>
    have ih := ih hm.tail fun x hx => h x (by simp [hx])
    refine ⟨?_, fun pa x y z r e => ?_⟩
    · rw [List.cons_append, List.pairwise_cons]
      refine ⟨fun b hb => ?_, ih.1⟩
      rcases List.mem_append.mp hb with hb | hb
      · exact (List.pairwise_cons.mp hm.1).1 b hb
      · exact (h a (by simp) b hb).le
    · cases pa with
      | cons p pa =>
        rw [List.cons_append, List.cons_append, List.cons.injEq] at e
        exact ih.2 pa x y z r e.2
      | nil =>
        rw [List.nil_append, List.cons_append, List.cons.injEq] at e
        obtain ⟨rfl, e⟩ := e
        match m, e with
        | [], e =>
          rw [List.nil_append] at e
          exact h a (by simp) z (by rw [e]; simp)
        | [b], e =>
          rw [List.singleton_append, List.cons.injEq] at e
          exact h a (by simp) z (by rw [e.2]; simp)
        | b :: c :: m, e =>
          simp only [List.cons_append, List.cons.injEq] at e
          obtain ⟨rfl, rfl, -⟩ := e
          exact hm.2 [] a b c m rfl

theorem kinked_of_lt {n : List Node} (h : n.Pairwise fun a b => a.time < b.time) : Kinked n := by
  refine ⟨h.imp fun h => h.le, fun pa x y z r e => ?_⟩
  rw [e] at h
  have := (List.pairwise_append.mp h).2.1
  exact (List.pairwise_cons.mp this).1 z (by simp)

/-! ### `AddCurve` with enough ticks -/

/-- At least a tick for each step of the index. -/
def Roomy (p q : ℤ × ℕ) : Prop := p.2 < q.2 ∧ (q.2 : ℤ) - p.2 ≤ q.1 - p.1

theorem mid_roomy (s : Segment) (vals derivs : ℕ → ℝ) (hs : ((s.count - 1 : ℕ) : ℤ) ≤ s.timeEnd - s.timeStart) (h : 0 < (s.worst vals derivs).idx) :
    ((s.worst vals derivs).idx : ℤ) ≤ s.mid vals derivs - s.timeStart ∧
      ((s.count - (s.worst vals derivs).idx - 1 : ℕ) : ℤ) ≤ s.timeEnd - s.mid vals derivs := by
  obtain ⟨-, -, h3, -⟩ := s.worst_spec vals derivs
  have hlt := s.worst_lt vals derivs h
  set k := (s.worst vals derivs).idx with hk
  have hc : (0 : ℝ) < ((s.count - 1 : ℕ) : ℝ) := by exact_mod_cast (by omega : 0 < s.count - 1)
  have hw : ((s.count - 1 : ℕ) : ℝ) ≤ ((s.timeEnd - s.timeStart : ℤ) : ℝ) := by exact_mod_cast hs
  set W : ℝ := ((s.timeEnd - s.timeStart : ℤ) : ℝ) with hW
  set C : ℝ := ((s.count - 1 : ℕ) : ℝ) with hC
  have hr : 1 ≤ W / C := by rw [le_div_iff₀ hc]; linarith
  have hk0 : (0 : ℝ) < k := by exact_mod_cast h
  have hkC : (k : ℝ) + 1 ≤ C := by rw [hC]; exact_mod_cast (by omega : k + 1 ≤ s.count - 1)
  have hnn : 0 ≤ (s.worst vals derivs).time := by rw [h3]; positivity
  have h1 : (k : ℝ) ≤ (s.worst vals derivs).time := by
    rw [h3]
    nlinarith
  have h2 : (s.worst vals derivs).time ≤ W - (C - k) := by
    rw [h3]
    have : W / C * C = W := by field_simp
    nlinarith
  unfold Segment.mid
  rw [trunc_of_nonneg hnn]
  constructor
  · have : ((k : ℤ) : ℝ) ≤ (s.worst vals derivs).time := by exact_mod_cast h1
    have := Int.le_floor.mpr this
    omega
  · have h4 : (⌊(s.worst vals derivs).time⌋ : ℝ) ≤ W - (C - k) := (Int.floor_le _).trans h2
    have h5 : ((s.count - k - 1 : ℕ) : ℝ) = C - k := by
      rw [hC, show s.count - k - 1 = s.count - 1 - k by omega, Nat.cast_sub (by omega)]
    have h6 : (((s.count - k - 1 : ℕ) : ℤ) : ℝ) ≤ ((s.timeEnd - (s.timeStart + ⌊(s.worst vals derivs).time⌋) : ℤ) : ℝ) := by
      push_cast at hW ⊢
      rw [h5]
      linarith
    exact_mod_cast h6

theorem addCurveLoop_roomy (vals derivs : ℕ → ℝ) {tol : ℝ} (q : ℤ × ℕ) (segs : List Segment) (n : List Node) :
    ∀ p, Chained p segs q → (∀ s ∈ segs, ((s.count - 1 : ℕ) : ℤ) ≤ s.timeEnd - s.timeStart) → ∃ ks, List.IsChain Roomy (p :: ks) ∧ (p :: ks).getLast? = some q ∧
      (addCurveLoop vals derivs tol segs n = if segs = [] then n else
        (if n.getLast? = some (sample vals derivs p) then n else n ++ [sample vals derivs p]) ++ ks.map (sample vals derivs)) := by
  induction segs, n using addCurveLoop.induct vals derivs tol with
  | case1 n => intro p hp _; exact ⟨[], by simp, by rw [show p = q from hp]; rfl, by simp [addCurveLoop]⟩
  | case2 s rest n hd ih =>
    rintro p ⟨rfl, hc, ht, hrest⟩ hw
    obtain ⟨m1, m2⟩ := mid_bounds s vals derivs ht hd.1
    obtain ⟨w1, w2⟩ := mid_roomy s vals derivs (hw s (by simp)) hd.1
    have hlt := s.worst_lt vals derivs hd.1
    have hidx := hd.1
    obtain ⟨ks, k1, k2, k3⟩ := ih s.start ⟨rfl, by simp only [Segment.left]; omega, m1, by
      refine ⟨?_, by simp only [Segment.right]; omega, m2, ?_⟩
      · simp only [Segment.left, Segment.right, Segment.start, Segment.stop]; congr 1
      · have : (s.right vals derivs).stop = s.stop := by
          simp only [Segment.right, Segment.stop]; congr 1; omega
        rw [this]; exact hrest⟩ (by
      intro r hr
      rcases List.mem_cons.mp hr with rfl | hr
      · simp only [Segment.left, Nat.add_sub_cancel]; exact w1
      rcases List.mem_cons.mp hr with rfl | hr
      · simp only [Segment.right]; exact w2
      · exact hw r (by simp [hr]))
    refine ⟨ks, k1, k2, ?_⟩
    rw [addCurveLoop, dif_pos hd, k3, if_neg (List.cons_ne_nil _ _), if_neg (List.cons_ne_nil _ _)]
  | case3 s rest n hd ih =>
    rintro p ⟨rfl, hc, ht, hrest⟩ hw
    obtain ⟨ks, k1, k2, k3⟩ := ih s.stop hrest fun r hr => hw r (by simp [hr])
    have hf : Roomy s.start s.stop := by
      have := hw s (by simp)
      simp only [Roomy, Segment.start, Segment.stop]
      constructor
      · omega
      · push_cast at this ⊢
        omega
    have he : s.emit vals derivs n = (if n.getLast? = some (sample vals derivs s.start) then n
        else n ++ [sample vals derivs s.start]) ++ [sample vals derivs s.stop] := rfl
    refine ⟨s.stop :: ks, List.isChain_cons_cons.mpr ⟨hf, k1⟩, by rw [List.getLast?_cons_cons]; exact k2, ?_⟩
    rw [addCurveLoop, dif_neg hd, k3, if_neg (List.cons_ne_nil s rest)]
    rw [he]
    by_cases hr : rest = []
    · rw [if_pos hr]
      subst hr
      have hks : ks = [] := by
        cases ks with
        | nil => rfl
        | cons k ks =>
          exfalso
          have hq : s.stop = q := hrest
          rw [← hq] at k2
          have hmono : ∀ (l : List (ℤ × ℕ)) (a b : ℤ × ℕ), List.IsChain Roomy (a :: l) →
              (a :: l).getLast? = some b → l ≠ [] → a.2 < b.2 := by
            intro l
            induction l with
            | nil => intro a b _ _ h; exact absurd rfl h
            | cons x l ihl =>
              intro a b h1 h2 _
              obtain ⟨h3, h4⟩ := List.isChain_cons_cons.mp h1
              rw [List.getLast?_cons_cons] at h2
              rcases l with _ | ⟨y, l⟩
              · simp at h2; rw [← h2]; exact h3.1
              · exact h3.1.trans (ihl x b h4 h2 (by simp))
          exact absurd (hmono _ _ _ k1 k2 (by simp)) (lt_irrefl _)
      rw [hks]; rfl
    · rw [if_neg hr, if_pos (by rw [List.getLast?_append]; simp)]
      simp

/-- With a tick for each sample, the nodes that `AddCurve` appends are at different times. -/
theorem addCurve_roomy {tol : ℝ} (n : List Node) {timeStart timeEnd : ℤ} (vals derivs : ℕ → ℝ) (ht : timeStart + 15 ≤ timeEnd) :
    ∃ m z, addCurve tol n timeStart timeEnd vals derivs 16 =
        some ((if n.getLast? = some ⟨timeStart, vals 0, derivs 0⟩ then n else n ++ [⟨timeStart, vals 0, derivs 0⟩]) ++ (m ++ [z])) ∧
      z = ⟨timeEnd, vals 15, derivs 15⟩ ∧ (m ++ [z]).Pairwise (fun a b => a.time < b.time) ∧ ∀ a ∈ m ++ [z], timeStart < a.time := by
  obtain ⟨ks, k1, k2, k3⟩ := addCurveLoop_roomy vals derivs (tol := tol) (timeEnd, 15) [⟨timeStart, timeEnd, 0, 16⟩] n (timeStart, 0)
    ⟨rfl, by simp, by simp; omega, by simp [Chained, Segment.stop]⟩ (by intro s hs; rw [List.mem_singleton.mp hs]; simp; omega)
  have hne : ks ≠ [] := by rintro rfl; simp at k2
  have hlt : ((timeStart, 0) :: ks).Pairwise fun a b : ℤ × ℕ => a.1 < b.1 := by
    have : List.IsChain (fun a b : ℤ × ℕ => a.1 < b.1) ((timeStart, 0) :: ks) := k1.imp fun a b h => by
      have := h.1; have := h.2; omega
    exact List.isChain_iff_pairwise.mp this
  obtain ⟨h1, h2⟩ := List.pairwise_cons.mp hlt
  have hlast : ks.getLast? = some (timeEnd, 15) := by
    obtain ⟨k, ks, rfl⟩ := List.exists_cons_of_ne_nil hne
    rw [List.getLast?_cons_cons] at k2
    exact k2
  obtain ⟨l, hl⟩ := List.getLast?_eq_some_iff.mp hlast
  have hm : l.map (sample vals derivs) ++ [⟨timeEnd, vals 15, derivs 15⟩] = ks.map (sample vals derivs) := by rw [hl, List.map_append]; rfl
  refine ⟨l.map (sample vals derivs), _, ?_, rfl, ?_, ?_⟩
  · rw [addCurve, if_neg (by omega), k3, if_neg (by simp), hm]; rfl
  · rw [hm, List.pairwise_map]; exact h2
  · rw [hm]
    intro a ha
    obtain ⟨k, hk, rfl⟩ := List.mem_map.mp ha
    exact h1 k hk

/-! ### Curves -/

/-- Nodes from `t0` on, of which the last is the only one at `T`. -/
def Tidy (t0 T : ℤ) (n : List Node) : Prop :=
  ∃ A z, n = A ++ [z] ∧ z.time = T ∧ Kinked A ∧ (∀ a ∈ A, a.time < T) ∧ n.head?.map Node.time = some t0

theorem Tidy.kinked {t0 T : ℤ} {n : List Node} (h : Tidy t0 T n) : Kinked n := by
  obtain ⟨A, z, rfl, hz, h1, h2, -⟩ := h
  exact h1.append (kinked_of_lt (by simp)) (by intro a ha b hb; rw [List.mem_singleton.mp hb, hz]; exact h2 a ha)

/-- The node at a key. -/
def keyNode (ms : ℤ → ℤ) (p : AnimProperty) (c : FCurve) (k : FKey) : Node :=
  ⟨ms k.time, flatValue (c.eval k.time) p, flatDerivative (c.rightDeriv k.time) p⟩

/-- Two keys that follow each other, inside the span, at least 15 milliseconds apart. -/
def Apart (ms : ℤ → ℤ) (span : ℤ × ℤ) (a b : FKey) : Prop := a.time < b.time ∧ span.1 ≤ a.time ∧ b.time ≤ span.2 ∧ ms a.time + 15 ≤ ms b.time

theorem gatherInterval_spec {ms : ℤ → ℤ} {span : ℤ × ℤ} (tol : ℝ) (p : AnimProperty) (c : FCurve) {a b : FKey} (h : Apart ms span a b) {t0 : ℤ} {n : List Node}
    (hn : (n = [] ∧ t0 = ms a.time) ∨ Tidy t0 (ms a.time) n) :
    ∃ n', gatherInterval ms span tol p c a b n = some n' ∧ Tidy t0 (ms b.time) n' ∧ n ⊆ n' ∧ keyNode ms p c a ∈ n' ∧
      n'.getLast?.map Node.val = some (flatValue (c.eval (a.time + Int.tdiv (b.time - a.time) 15 * 15)) p) := by
  obtain ⟨h1, h2, h3, h4⟩ := h
  have hmax : max span.1 a.time = a.time := max_eq_right h2
  have hmin : min span.2 b.time = b.time := min_eq_right h3
  obtain ⟨m, z, e, hz, m1, m2⟩ := addCurve_roomy (tol := tol) n (samples p c a.time (Int.tdiv (b.time - a.time) 15)).1
    (samples p c a.time (Int.tdiv (b.time - a.time) 15)).2 h4
  have hs : (⟨ms a.time, (samples p c a.time (Int.tdiv (b.time - a.time) 15)).1 0, (samples p c a.time (Int.tdiv (b.time - a.time) 15)).2 0⟩ : Node) =
      keyNode ms p c a := by
    simp [samples, keyNode]
  rw [hs] at e
  obtain ⟨m3, -, m4⟩ := List.pairwise_append.mp m1
  have hzt : z.time = ms b.time := by rw [hz]
  refine ⟨(if n.getLast? = some (keyNode ms p c a) then n else n ++ [keyNode ms p c a]) ++ (m ++ [z]), ?_,
    ⟨(if n.getLast? = some (keyNode ms p c a) then n else n ++ [keyNode ms p c a]) ++ m, z, (List.append_assoc _ m [z]).symm, hzt, ?_, ?_, ?_⟩, ?_, ?_, ?_⟩
  · unfold gatherInterval
    rw [if_neg (by omega), hmax, hmin]
    exact e
  · -- the nodes before the last
    refine Kinked.append ?_ (kinked_of_lt m3) ?_
    · rcases hn with ⟨rfl, -⟩ | hn
      · simp only [List.getLast?_nil, reduceCtorEq, if_false, List.nil_append]
        exact kinked_of_lt (by simp)
      · split_ifs
        · exact hn.kinked
        · obtain ⟨A, y, rfl, hy, a1, a2, -⟩ := hn
          rw [List.append_assoc]
          refine a1.append (kinked_pair.mpr (by rw [hy]; rfl)) ?_
          intro x hx w hw
          have : w.time = ms a.time := by
            rcases List.mem_cons.mp hw with rfl | hw
            · exact hy
            · rw [List.mem_singleton.mp hw]; rfl
          rw [this]; exact a2 x hx
    · intro x hx w hw
      have hw' := m2 w (by simp [hw])
      have hx' : x.time ≤ ms a.time := by
        have hxn : ∀ x ∈ n, x.time ≤ ms a.time := by
          intro x hx
          rcases hn with ⟨rfl, -⟩ | ⟨A, y, rfl, hy, -, a2, -⟩
          · simp at hx
          · rcases List.mem_append.mp hx with hx | hx
            · exact (a2 x hx).le
            · rw [List.mem_singleton.mp hx]; exact hy.le
        split_ifs at hx
        · exact hxn x hx
        · rcases List.mem_append.mp hx with hx | hx
          · exact hxn x hx
          · rw [List.mem_singleton.mp hx]; exact le_rfl
      omega
  · intro x hx
    have hxn : ∀ x ∈ n, x.time ≤ ms a.time := by
      intro x hx
      rcases hn with ⟨rfl, -⟩ | ⟨A, y, rfl, hy, -, a2, -⟩
      · simp at hx
      · rcases List.mem_append.mp hx with hx | hx
        · exact (a2 x hx).le
        · rw [List.mem_singleton.mp hx]; exact hy.le
    rcases List.mem_append.mp hx with hx | hx
    · split_ifs at hx
      · have := hxn x hx; omega
      · rcases List.mem_append.mp hx with hx | hx
        · have := hxn x hx; omega
        · rw [List.mem_singleton.mp hx]; change ms a.time < ms b.time; omega
    · rw [← hzt]; exact m4 x hx z (by simp)
  · rcases hn with ⟨rfl, rfl⟩ | ⟨A, y, rfl, hy, -, -, hh⟩
    · simp [keyNode]
    · rw [← hh]
      split_ifs
      · cases A <;> simp
      · cases A <;> simp
  · intro x hx
    split_ifs <;> simp [hx]
  · split_ifs with hl
    · exact List.mem_append_left _ (List.mem_of_mem_getLast? hl)
    · simp
  · rw [← List.append_assoc, List.getLast?_concat, Option.map_some, hz]
    simp [samples]

theorem gatherIntervals_spec {ms : ℤ → ℤ} {span : ℤ × ℤ} (tol : ℝ) (p : AnimProperty) (c : FCurve) {t0 : ℤ} :
    ∀ (a b : FKey) (rest : List FKey) (n : List Node), List.IsChain (Apart ms span) (a :: b :: rest) →
      ((n = [] ∧ t0 = ms a.time) ∨ Tidy t0 (ms a.time) n) →
      ∃ n', gatherIntervals ms span tol p c (a :: b :: rest) n = some n' ∧ (∀ z, (b :: rest).getLast? = some z → Tidy t0 (ms z.time) n') ∧ n ⊆ n' ∧
        ∀ k ∈ (a :: b :: rest).dropLast, keyNode ms p c k ∈ n'
  | a, b, rest, n, h, hn => by
    obtain ⟨h1, h2⟩ := List.isChain_cons_cons.mp h
    obtain ⟨n1, e1, t1, s1, k1, -⟩ := gatherInterval_spec tol p c h1 hn
    rw [gatherIntervals, e1]
    dsimp only
    match rest, h2 with
    | [], _ =>
      rw [gatherIntervals]
      · refine ⟨n1, rfl, ?_, s1, ?_⟩
        · intro z hz; simp at hz; rw [← hz]; exact t1
        · intro k hk; simp at hk; rw [hk]; exact k1
      · simp
    | d :: rest, h2 =>
      obtain ⟨n2, e2, t2, s2, k2⟩ := gatherIntervals_spec tol p c b d rest n1 h2 (Or.inr t1)
      refine ⟨n2, e2, ?_, fun y hy => s2 (s1 hy), ?_⟩
      · intro z hz
        rw [List.getLast?_cons_cons] at hz
        exact t2 z hz
      · intro k hk
        rw [List.dropLast_cons_cons, List.mem_cons] at hk
        rcases hk with rfl | hk
        · exact s2 k1
        · exact k2 k hk

/-- A curve that is not constant has two keys. -/
theorem animConst_none {p : AnimProperty} {channel : ℕ} {tol dtol : ℝ} (h : animConst p channel tol dtol = none) :
    ∃ node c, p.property.node = some node ∧ channel < node.count ∧ node.curve channel = some c ∧ 2 ≤ c.keys.length := by
  unfold animConst at h
  cases hn : p.property.node with
  | none => rw [hn] at h; simp at h
  | some node =>
    rw [hn] at h
    simp only at h
    split_ifs at h with hc
    cases hcv : node.curve channel with
    | none => rw [hcv] at h; simp at h
    | some c =>
      rw [hcv] at h
      refine ⟨node, c, rfl, by omega, hcv, ?_⟩
      simp only at h
      match hk : c.keys with
      | [] => rw [hk] at h; simp at h
      | [k] => rw [hk] at h; simp [keysConst] at h
      | a :: b :: r => simp

/-- C76: the nodes that are imported for a curve with keys inside the time span of the take, at least 15 milliseconds apart.  The import
succeeds.  Before redundant nodes are removed, there is a node for each key but the last, with the value and the slope to its right; nodes
are in order, at most two at the same time, from the first key to the last, and this holds for those that remain as well. -/
theorem C76_curve {ms : ℤ → ℤ} {span : ℤ × ℤ} {tol dtol : ℝ} (p : AnimProperty) (c : FCurve) (hl : 2 ≤ c.keys.length)
    (hk : List.IsChain (Apart ms span) c.keys) {first last : FKey} (hf : c.keys.head? = some first) (hz : c.keys.getLast? = some last) :
    ∃ n, gatherCurve ms span tol dtol p c = some (pruneNodes tol dtol n) ∧ (∀ k ∈ c.keys.dropLast, keyNode ms p c k ∈ n) ∧
      Spans (ms first.time) (ms last.time) n ∧ Spans (ms first.time) (ms last.time) (pruneNodes tol dtol n) := by
  obtain ⟨keys, ev, ld, rd⟩ := c
  simp only at hl hk hf hz
  match keys, hl, hk, hf, hz with
  | a :: b :: rest, hl, hk, hf, hz =>
    obtain rfl : a = first := by simpa using hf
    rw [List.getLast?_cons_cons] at hz
    obtain ⟨n, e, t, -, k⟩ := gatherIntervals_spec tol p ⟨a :: b :: rest, ev, ld, rd⟩ (t0 := ms a.time) a b rest [] hk (Or.inl ⟨rfl, rfl⟩)
    have ht := t last hz
    have hkink := ht.kinked
    have hne : n ≠ [] := by obtain ⟨A, z, rfl, -⟩ := ht; simp
    have hhead : n.head?.map Node.time = some (ms a.time) := by obtain ⟨A, z, -, -, -, -, h⟩ := ht; exact h
    have hlast : n.getLast?.map Node.time = some (ms last.time) := by
      obtain ⟨A, z, rfl, hz, -⟩ := ht
      simp [hz]
    obtain ⟨p1, p2⟩ := C51_prune_ends tol dtol n hne
    have hpn : pruneNodes tol dtol n ≠ [] := by
      intro e
      rw [e] at p1
      cases n with
      | nil => exact hne rfl
      | cons x n => simp at p1
    have len : ∀ l : List Node, l ≠ [] → l.length = 1 ∨ 2 ≤ l.length := fun l h => by
      have := List.length_pos_iff.mpr h
      omega
    refine ⟨n, ?_, k, ?_, ?_⟩
    · unfold gatherCurve
      simp only
      rw [if_neg (by simp), e]
      simp only [if_neg hpn]
    · exact (len n hne).imp id fun h => ⟨h, hkink, hhead, hlast⟩
    · rcases len _ hpn with h | h
      · exact Or.inl h
      · refine Or.inr ⟨h, hkink.sublist (C51_prune_sublist tol dtol n), by rw [p1]; exact hhead, ?_⟩
        rcases p2 with p2 | ⟨x, y, -, -, p2, -⟩
        · rw [p2]; exact hlast
        · rw [p2] at h; simp at h

/-! ### Constant curves -/

theorem slope_le {x dtol : ℝ} (h : |derivativeAngle x| ≤ dtol) (hd : dtol < Real.pi / 2) : |x| ≤ Real.tan dtol := by
  unfold derivativeAngle at h
  obtain ⟨h1, h2⟩ := abs_le.mp h
  have hr : ∀ y, Real.arctan y ≤ dtol → y ≤ Real.tan dtol := by
    intro y hy
    rcases hy.lt_or_eq with hy | hy
    · have := Real.tan_lt_tan_of_lt_of_lt_pi_div_two (Real.neg_pi_div_two_lt_arctan y) hd hy
      rw [Real.tan_arctan] at this
      exact this.le
    · rw [← hy, Real.tan_arctan]
  rw [abs_le]
  refine ⟨?_, hr x h2⟩
  have := hr (-x) (by rw [Real.arctan_neg]; linarith)
  linarith

/-- The cubic of an FBX curve between two keys, as nodes: the slope to the right of the first, and to the left of the second. -/
def leftNode (ms : ℤ → ℤ) (p : AnimProperty) (k : FKey) : Node := ⟨ms k.time, flatValue k.val p, flatDerivative k.right p⟩
def rightNode (ms : ℤ → ℤ) (p : AnimProperty) (k : FKey) : Node := ⟨ms k.time, flatValue k.val p, flatDerivative k.left p⟩

theorem keysConst_spec {p : AnimProperty} {tol dtol first : ℝ} : ∀ {l : List FKey}, keysConst p tol dtol first l →
    (∀ k ∈ l.tail, |flatValue k.val p - first| ≤ tol) ∧
      ∀ k ∈ l.dropLast, |derivativeAngle (flatDerivative k.left p)| ≤ dtol ∧ |derivativeAngle (flatDerivative k.right p)| ≤ dtol
  | [], _ => by simp
  | [a], _ => by simp
  | a :: b :: rest, h => by
    obtain ⟨h1, h2, h3, h4⟩ := h
    obtain ⟨i1, i2⟩ := keysConst_spec h4
    refine ⟨fun k hk => ?_, fun k hk => ?_⟩
    · rcases List.mem_cons.mp hk with rfl | hk
      · exact h3
      · exact i1 k hk
    · rw [List.dropLast_cons_cons, List.mem_cons] at hk
      rcases hk with rfl | hk
      · exact ⟨h1, h2⟩
      · exact i2 k hk

/-- C76: a curve that is imported as a constant is close to that constant, provided that its last key is approached with a flat slope: between
two keys, up to the tolerance and what slopes within their tolerance can add. -/
theorem C76_constant {ms : ℤ → ℤ} {p : AnimProperty} {channel : ℕ} {tol dtol v : ℝ} (h0 : 0 ≤ tol) (hd : dtol < Real.pi / 2) {node : CurveNode} {c : FCurve}
    (hn : p.property.node = some node) (hcount : channel < node.count) (hc : node.curve channel = some c)
    (h : animConst p channel tol dtol = some v) (hlast : ∀ z, c.keys.getLast? = some z → |derivativeAngle (flatDerivative z.left p)| ≤ dtol)
    {pa r : List FKey} {a b : FKey} (e : c.keys = pa ++ a :: b :: r) (hab : ms a.time < ms b.time) (t : ℝ) (t1 : (ms a.time : ℝ) ≤ t)
    (t2 : t ≤ ms b.time) :
    |curveBetween (leftNode ms p a) (rightNode ms p b) t - v| ≤ tol + Real.tan dtol * ((ms b.time : ℝ) - ms a.time) / 4 := by
  unfold animConst at h
  rw [hn] at h
  simp only at h
  rw [if_neg (by omega), hc] at h
  simp only at h
  obtain ⟨k, ks, hks⟩ : ∃ k ks, c.keys = k :: ks := by
    cases pa with
    | nil => exact ⟨_, _, e⟩
    | cons x pa => exact ⟨_, _, e⟩
  rw [hks] at h
  simp only at h
  split_ifs at h with hcst
  obtain rfl : flatValue k.val p = v := by simpa using h
  rw [← hks] at hcst
  obtain ⟨s1, s2⟩ := keysConst_spec hcst
  have val : ∀ x ∈ c.keys, |flatValue x.val p - flatValue k.val p| ≤ tol := by
    intro x hx
    rw [hks] at hx s1
    rcases List.mem_cons.mp hx with rfl | hx
    · simpa using h0
    · exact s1 x hx
  have ha : a ∈ c.keys.dropLast := by rw [e, List.dropLast_append_of_ne_nil (by simp)]; simp
  have hbl : |derivativeAngle (flatDerivative b.left p)| ≤ dtol := by
    rcases List.eq_nil_or_concat r with rfl | ⟨r', z, rfl⟩
    · exact hlast b (by rw [e]; simp)
    · refine (s2 b ?_).1
      rw [e, List.dropLast_append_of_ne_nil (by simp)]
      apply List.mem_append_right
      rw [show a :: b :: r'.concat z = (a :: b :: r') ++ [z] by simp, List.dropLast_concat]
      simp
  have key := between_diff (a := leftNode ms p a) (b := rightNode ms p b) (a' := ⟨ms a.time, flatValue k.val p, 0⟩) (b' := ⟨ms b.time, flatValue k.val p, 0⟩)
    (tol := tol) (D := Real.tan dtol) (w := (ms b.time : ℝ) - ms a.time) hab rfl rfl (val a (by rw [e]; simp)) (val b (by rw [e]; simp))
    (by simpa [leftNode] using slope_le (s2 a ha).2 hd) (by simpa [rightNode] using slope_le hbl hd) le_rfl t t1 t2
  have hv : curveBetween ⟨ms a.time, flatValue k.val p, 0⟩ ⟨ms b.time, flatValue k.val p, 0⟩ t = flatValue k.val p := by
    unfold curveBetween hermite
    ring
  rwa [hv] at key

/-- C76: the slope at the last key is not looked at.  Curves that rise to any height before their last key are imported as constant. -/
theorem C76_last_slope_ignored (tol dtol : ℝ) (h0 : 0 ≤ tol) (hd : 0 ≤ dtol) (height : ℝ) :
    ∃ (p : AnimProperty) (c : FCurve) (a b : FKey) (ms : ℤ → ℤ), c.keys = [a, b] ∧ ms a.time = 0 ∧ ms b.time = 1000 ∧
      (p.property.node.bind fun node => node.curve 0) = some c ∧
      animConst p 0 tol dtol = some 0 ∧ curveBetween (leftNode ms p a) (rightNode ms p b) 500 = height := by
  refine ⟨⟨⟨fun _ => 0, some ⟨3, fun _ => 0, fun _ => some ⟨[⟨0, 0, 0, 0⟩, ⟨1000, 0, -8 * height, 0⟩], fun _ => 0, fun _ => 0, fun _ => 0⟩⟩⟩, 0, .translateX, false⟩,
    ⟨[⟨0, 0, 0, 0⟩, ⟨1000, 0, -8 * height, 0⟩], fun _ => 0, fun _ => 0, fun _ => 0⟩, ⟨0, 0, 0, 0⟩, ⟨1000, 0, -8 * height, 0⟩, id, rfl, rfl, rfl, rfl, ?_, ?_⟩
  · simp [animConst, keysConst, flatValue, flatDerivative, invertValue, OpType.isRotate, derivativeAngle, h0, hd]
  · simp only [curveBetween, leftNode, rightNode, hermite, flatValue, flatDerivative, invertValue, OpType.isRotate, id]
    norm_num
    ring

/-- C76: a curve that is not constant, with all of its keys after the end of the take, fails an assertion. -/
theorem C76_outside_fails {ms : ℤ → ℤ} {span : ℤ × ℤ} {tol dtol : ℝ} (p : AnimProperty) (c : FCurve) (h : ∀ k ∈ c.keys, span.2 < k.time) :
    gatherCurve ms span tol dtol p c = none := by
  have hi : ∀ (l : List FKey), (∀ k ∈ l, span.2 < k.time) → gatherIntervals ms span tol p c l [] = some [] := by
    intro l
    induction l with
    | nil => intro _; rw [gatherIntervals]; simp
    | cons a l ih =>
      intro hl
      cases l with
      | nil => rw [gatherIntervals]; simp
      | cons b l =>
        rw [gatherIntervals]
        have : gatherInterval ms span tol p c a b [] = some [] := by
          unfold gatherInterval
          rw [if_pos (Or.inl (hl a (by simp)))]
        rw [this]
        exact ih fun k hk => hl k (by simp [hk])
  unfold gatherCurve
  split_ifs
  · rfl
  · rw [hi _ h]
    have : pruneNodes tol dtol [] = [] := List.eq_nil_of_sublist_nil (C51_prune_sublist tol dtol [])
    simp [this]

/-! ### Curves that extend beyond the take -/

/-- A chain of times and indices lies between its ends. -/
theorem chain_bounds {q : ℤ × ℕ} : ∀ (l : List (ℤ × ℕ)) (p : ℤ × ℕ), List.IsChain (fun p q => p.1 ≤ q.1 ∧ p.2 < q.2) (p :: l) →
    (p :: l).getLast? = some q → ∀ k ∈ p :: l, p.1 ≤ k.1 ∧ k.1 ≤ q.1 ∧ k.2 ≤ q.2
  | [], p, _, hq, k, hk => by
    simp at hk hq
    subst hk; subst hq
    exact ⟨le_rfl, le_rfl, le_rfl⟩
  | x :: l, p, h, hq, k, hk => by
    obtain ⟨h1, h2⟩ := List.isChain_cons_cons.mp h
    rw [List.getLast?_cons_cons] at hq
    have ih := chain_bounds l x h2 hq
    rcases List.mem_cons.mp hk with rfl | hk
    · have := ih x (by simp)
      exact ⟨le_rfl, h1.1.trans this.2.1, by omega⟩
    · have := ih k hk
      exact ⟨h1.1.trans this.1, this.2⟩

/-- A node of the curve in the span: it has the value of the curve at a time of the span, and its time is in the span. -/
def InSpan (ms : ℤ → ℤ) (span : ℤ × ℤ) (p : AnimProperty) (c : FCurve) (x : Node) : Prop :=
  ms span.1 ≤ x.time ∧ x.time ≤ ms span.2 ∧ ∃ t, span.1 ≤ t ∧ t ≤ span.2 ∧ x.val = flatValue (c.eval t) p

theorem gatherInterval_inSpan {ms : ℤ → ℤ} (hms : Monotone ms) {span : ℤ × ℤ} (hspan : span.1 ≤ span.2) {tol : ℝ} (h0 : 0 ≤ tol) (p : AnimProperty)
    (c : FCurve) {a b : FKey} (hab : a.time ≤ b.time) {n : List Node} (hn : ∀ x ∈ n, InSpan ms span p c x) :
    ∃ n', gatherInterval ms span tol p c a b n = some n' ∧ n <+: n' ∧ (∀ x ∈ n', InSpan ms span p c x) ∧
      (a.time ≤ span.2 → span.1 ≤ b.time → n'.getLast?.map Node.time = some (ms (min span.2 b.time)) ∧
        (n = [] → n'.head?.map Node.time = some (ms (max span.1 a.time)))) := by
  unfold gatherInterval
  split_ifs with hout
  · exact ⟨n, rfl, List.prefix_refl n, hn, fun h1 h2 => by omega⟩
  · push Not at hout
    simp only
    set start := max span.1 a.time with hstart
    set stop := min span.2 b.time with hstop
    have hle : start ≤ stop := by omega
    set inc := Int.tdiv (stop - start) 15 with hinc
    have hinc0 : 0 ≤ inc := Int.tdiv_nonneg (by omega) (by norm_num)
    have hinc1 : inc * 15 ≤ stop - start := by
      have := Int.mul_tdiv_add_tmod (stop - start) 15
      have := Int.tmod_nonneg 15 (show 0 ≤ stop - start by omega)
      omega
    obtain ⟨ks, e, k1, k2⟩ := C51_add_curve h0 n (hms hle) (samples p c start inc).1 (samples p c start inc).2 (count := 16) (by norm_num)
    have hks : ks ≠ [] := by rintro rfl; simp at k2
    have k3 : ((ms start, 0) :: ks).getLast? = some (ms stop, 15) := by
      obtain ⟨x, l, rfl⟩ := List.exists_cons_of_ne_nil hks
      rw [List.getLast?_cons_cons]; exact k2
    have hb := chain_bounds ks _ k1 k3
    have hval : ∀ k ∈ (ms start, 0) :: ks, InSpan ms span p c (sample (samples p c start inc).1 (samples p c start inc).2 k) := by
      intro k hk
      obtain ⟨b1, b2, b3⟩ := hb k hk
      have b4 : ((k.2 : ℕ) : ℤ) ≤ 15 := by exact_mod_cast b3
      have b5 : inc * (k.2 : ℤ) ≤ inc * 15 := mul_le_mul_of_nonneg_left b4 hinc0
      have b6 : 0 ≤ inc * (k.2 : ℤ) := mul_nonneg hinc0 (Int.natCast_nonneg _)
      exact ⟨(hms (show span.1 ≤ start by omega)).trans b1, b2.trans (hms (show stop ≤ span.2 by omega)), start + inc * k.2, by omega, by omega, rfl⟩
    have hfirst : InSpan ms span p c ⟨ms start, (samples p c start inc).1 0, (samples p c start inc).2 0⟩ := hval (ms start, 0) (by simp)
    refine ⟨_, e, ?_, ?_, fun _ _ => ⟨?_, ?_⟩⟩
    · split_ifs
      · exact List.prefix_append _ _
      · rw [List.append_assoc]; exact List.prefix_append _ _
    · intro x hx
      rcases List.mem_append.mp hx with hx | hx
      · split_ifs at hx with hl
        · exact hn x hx
        · rcases List.mem_append.mp hx with hx | hx
          · exact hn x hx
          · rw [List.mem_singleton.mp hx]; exact hfirst
      · obtain ⟨k, hk, rfl⟩ := List.mem_map.mp hx
        exact hval k (List.mem_cons_of_mem _ hk)
    · rw [List.getLast?_append, List.getLast?_map, k2]; rfl
    · rintro rfl
      simp

/-- C76: a curve may extend beyond the take on both sides, or have keys at any distance.  If its keys are in order, every imported node lies in
the take and has the value of the curve at some time of the take.  If the first key is not after the start of the take and the last key is not
before its end, the nodes cover the take from its start to its end, or a single node stands for a constant. -/
theorem C76_clipped {ms : ℤ → ℤ} (hms : Monotone ms) {span : ℤ × ℤ} (hspan : span.1 ≤ span.2) {tol dtol : ℝ} (h0 : 0 ≤ tol) (p : AnimProperty) (c : FCurve)
    (hl : 2 ≤ c.keys.length) (hk : List.IsChain (fun a b : FKey => a.time ≤ b.time) c.keys) :
    (∀ n, gatherCurve ms span tol dtol p c = some n → ∀ x ∈ n, InSpan ms span p c x) ∧
    ∀ first last, c.keys.head? = some first → c.keys.getLast? = some last → first.time ≤ span.1 → span.2 ≤ last.time →
      ∃ n, gatherCurve ms span tol dtol p c = some n ∧ n.head?.map Node.time = some (ms span.1) ∧
        (n.length = 1 ∨ n.getLast?.map Node.time = some (ms span.2)) := by
  -- the first interval that is reached, and all that follow
  have hall : ∀ (rest : List FKey) (a : FKey) (n : List Node), List.IsChain (fun a b : FKey => a.time ≤ b.time) (a :: rest) →
      (∀ x ∈ n, InSpan ms span p c x) →
      ∃ n', gatherIntervals ms span tol p c (a :: rest) n = some n' ∧ n <+: n' ∧ (∀ x ∈ n', InSpan ms span p c x) ∧
        ∀ last, (a :: rest).getLast? = some last → span.2 ≤ last.time →
          (a.time ≤ span.2 → rest ≠ [] → n'.getLast?.map Node.time = some (ms span.2)) ∧
          (span.2 < a.time → n' = n) ∧ (n = [] → a.time ≤ span.1 → rest ≠ [] → n'.head?.map Node.time = some (ms span.1)) := by
    intro rest
    induction rest with
    | nil =>
      intro a n _ hn
      exact ⟨n, by rw [gatherIntervals]; simp, List.prefix_refl n, hn, fun _ _ _ => ⟨fun _ h => absurd rfl h, fun _ => rfl, fun _ _ h => absurd rfl h⟩⟩
    | cons b rest ih =>
      intro a n h hn
      obtain ⟨hab, h2⟩ := List.isChain_cons_cons.mp h
      obtain ⟨n1, e1, s1, p1, t1⟩ := gatherInterval_inSpan hms hspan h0 p c hab hn
      obtain ⟨n2, e2, s2, p2, t2⟩ := ih b n1 h2 p1
      refine ⟨n2, by rw [gatherIntervals, e1]; exact e2, s1.trans s2, p2, fun last hlast hend => ?_⟩
      rw [List.getLast?_cons_cons] at hlast
      obtain ⟨u1, u2, u3⟩ := t2 last hlast hend
      have hlast' : rest = [] → last = b := by rintro rfl; simpa using hlast.symm
      refine ⟨fun ha _ => ?_, fun ha => ?_, fun hnil ha _ => ?_⟩
      · by_cases hb : b.time ≤ span.2
        · by_cases hr : rest = []
          · have hbe : b.time = span.2 := le_antisymm hb (by rw [← hlast' hr]; exact hend)
            have := (t1 ha (by omega)).1
            rw [hbe, min_self] at this
            subst hr
            rw [gatherIntervals] at e2
            · cases e2; exact this
            · simp
          · exact u1 hb hr
        · rw [u2 (by omega), (t1 ha (by omega)).1, min_eq_left (by omega)]
      · have : n1 = n := by
          unfold gatherInterval at e1
          rw [if_pos (Or.inl ha)] at e1
          exact (Option.some.inj e1).symm
        rw [u2 (by omega), this]
      · by_cases hb : b.time < span.1
        · have hn1 : n1 = [] := by
            unfold gatherInterval at e1
            rw [if_pos (Or.inr hb)] at e1
            rw [← Option.some.inj e1, hnil]
          refine u3 hn1 hb.le ?_
          intro hr
          have := hlast' hr
          subst this
          omega
        · have h3 := (t1 (by omega) (by omega)).2 hnil
          rw [max_eq_left ha] at h3
          cases n1 with
          | nil => simp at h3
          | cons y n1 =>
            obtain ⟨n3, rfl⟩ := s2
            simpa using h3
  match hkeys : c.keys, hl, hk with
  | a :: b :: rest, hl, hk =>
    obtain ⟨n, e, -, hp, ht⟩ := hall (b :: rest) a [] hk (by simp)
    have hg : gatherCurve ms span tol dtol p c = if pruneNodes tol dtol n = [] then none else some (pruneNodes tol dtol n) := by
      unfold gatherCurve
      rw [hkeys, if_neg (by simp), e]
    constructor
    · intro m hm x hx
      rw [hg] at hm
      split_ifs at hm
      cases hm
      exact hp x ((C51_prune_sublist tol dtol n).subset hx)
    · intro first last hf hz h1 h2
      obtain rfl : a = first := by simpa using hf
      obtain ⟨t1, -, t3⟩ := ht last hz h2
      have t1 := t1 (by omega) (by simp)
      have t3 := t3 rfl h1 (by simp)
      have hne : n ≠ [] := by rintro rfl; simp at t1
      obtain ⟨p1, p2⟩ := C51_prune_ends tol dtol n hne
      have hpn : pruneNodes tol dtol n ≠ [] := by
        intro h
        rw [h] at p1
        cases n with
        | nil => exact hne rfl
        | cons x n => simp at p1
      refine ⟨pruneNodes tol dtol n, by rw [hg, if_neg hpn], ?_, ?_⟩
      · rw [p1]; exact t3
      · rcases p2 with p2 | ⟨x, y, -, -, p2, -⟩
        · right; rw [p2]; exact t1
        · left; rw [p2]; rfl

/-- The hypotheses of `C76_clipped`: a ramp with keys at 0 and 100, and a take from 10 to 50. -/
example : Monotone (fun t : ℤ => t) ∧ ((10, 50) : ℤ × ℤ).1 ≤ ((10, 50) : ℤ × ℤ).2 ∧
    ∃ c : FCurve, List.IsChain (fun a b : FKey => a.time ≤ b.time) c.keys ∧ c.keys.map FKey.time = [0, 100] ∧ c.eval 30 = 30 :=
  ⟨monotone_id, by norm_num, ⟨[⟨0, 0, 1, 1⟩, ⟨100, 100, 1, 1⟩], fun t => t, fun _ => 1, fun _ => 1⟩, by simp, rfl, by norm_num⟩

/-! ### Transforms with such curves -/

/-- All curves of a transform with two or more keys are as `C76_curve` requires, with a duration of at most `w` milliseconds, and those that
drive operations of the same kind, other than scales, have the same first and last key. -/
def FTransform.Animated (x : FTransform) (ms : ℤ → ℤ) (span : ℤ × ℤ) (τ : OpType → ℤ × ℤ) (w : ℝ) : Prop :=
  ∀ i < 11, ∀ axis < 3, ∀ node c, (x.prop i).property.node = some node → node.curve axis = some c → 2 ≤ c.keys.length →
    List.IsChain (Apart ms span) c.keys ∧ ∀ first last, c.keys.head? = some first → c.keys.getLast? = some last →
      ((ms last.time : ℝ) - ms first.time ≤ w) ∧ ((x.op i axis).isScale = false → τ (x.op i axis) = (ms first.time, ms last.time))

theorem gaps_of_spans {t0 t1 : ℤ} {w : ℝ} {n : List Node} (h : Spans t0 t1 n) (hw : (t1 : ℝ) - t0 ≤ w) : Gaps w n := by
  rcases h with h | ⟨-, h, h0, h1⟩
  · obtain ⟨a, rfl⟩ := List.length_eq_one_iff.mp h
    unfold Gaps
    simp
  · have hb : ∀ a ∈ n, t0 ≤ a.time ∧ a.time ≤ t1 := by
      intro a ha
      constructor
      · cases n with
        | nil => simp at ha
        | cons y n =>
          have : y.time = t0 := by simpa using h0
          rcases List.mem_cons.mp ha with rfl | ha
          · exact this.ge
          · rw [← this]; exact (List.pairwise_cons.mp h.1).1 a ha
      · rcases List.eq_nil_or_concat n with rfl | ⟨m, z, rfl⟩
        · simp at ha
        · rw [List.concat_eq_append] at *
          have : z.time = t1 := by simpa using h1
          rcases List.mem_append.mp ha with ha | ha
          · rw [← this]; exact (List.pairwise_append.mp h.1).2.2 a ha z (by simp)
          · rw [List.mem_singleton.mp ha]; exact this.le
    have key : ∀ l : List Node, (∀ a ∈ l, t0 ≤ a.time ∧ a.time ≤ t1) → List.IsChain (fun a b : Node => (b.time : ℝ) - a.time ≤ w) l := by
      intro l
      induction l with
      | nil => simp
      | cons a l ih =>
        intro hl
        cases l with
        | nil => simp
        | cons b l =>
          refine List.isChain_cons_cons.mpr ⟨?_, ih fun c hc => hl c (by simp [hc])⟩
          have h1 : (t0 : ℝ) ≤ a.time := by exact_mod_cast (hl a (by simp)).1
          have h2 : (b.time : ℝ) ≤ t1 := by exact_mod_cast (hl b (by simp)).2
          linarith
    exact key n hb

/-- C76: the curves that are imported for such a transform are as C75 requires. -/
theorem C76_meets {ms : ℤ → ℤ} {span : ℤ × ℤ} (tl : Tolerances) {τ : OpType → ℤ × ℤ} {w : ℝ} {x : FTransform} (ha : x.Animated ms span τ w) :
    ∀ i < 11, ∀ axis < 3, ∃ n, x.nodes ms span tl i axis = some n ∧ ∀ id, ChannelOk τ w ⟨x.op i axis, id, n⟩ := by
  intro i hi axis hax
  have hsup : Supported (x.op i axis) := by
    obtain ⟨s, hs, rfl, rfl⟩ := parts_all x hi hax
    exact (parts_ok x fun _ _ => []).2.2 _ (List.mem_map_of_mem hs)
  cases hc : animConst (x.prop i) axis (tl.forOp (x.op i axis)) tl.derivativeAngle with
  | some v =>
    refine ⟨[⟨0, v, 0⟩], by unfold FTransform.nodes; rw [hc], fun id => ⟨hsup, ⟨(τ (x.op i axis)).1, (τ (x.op i axis)).2, Or.inl rfl, fun _ => rfl⟩, fun _ => ?_⟩⟩
    unfold Gaps
    simp
  | none =>
    obtain ⟨node, c, n1, -, n2, n3⟩ := animConst_none hc
    obtain ⟨a1, a2⟩ := ha i hi axis hax node c n1 n2 n3
    obtain ⟨first, hf⟩ : ∃ f, c.keys.head? = some f := by
      cases hk : c.keys with
      | nil => rw [hk] at n3; simp at n3
      | cons f l => exact ⟨f, rfl⟩
    obtain ⟨last, hl⟩ : ∃ f, c.keys.getLast? = some f := by
      cases hk : c.keys with
      | nil => rw [hk] at n3; simp at n3
      | cons f l => exact ⟨_, List.getLast?_eq_some_getLast (by simp)⟩
    obtain ⟨b1, b2⟩ := a2 first last hf hl
    obtain ⟨n, e, -, -, hs⟩ := C76_curve (tol := tl.forOp (x.op i axis)) (dtol := tl.derivativeAngle) (x.prop i) c n3 a1 hf hl
    refine ⟨_, ?_, fun id => ⟨hsup, ⟨_, _, hs, b2⟩, fun _ => gaps_of_spans hs b1⟩⟩
    unfold FTransform.nodes
    rw [hc]
    simp only
    rw [n1, Option.bind_some, n2, Option.bind_some]
    exact e

/-- C75 for a whole scene: if the transform of each bone is as required, the import succeeds.  Each bone that is reached (C74) has
channels that represent the transform of its own node. -/
theorem C75_scene {tl : Tolerances} (htl : tl.Ok) {nu rootOnly : Bool} {τ : FNode → OpType → ℤ × ℤ} {w : ℝ} (hw : 0 ≤ w)
    {sort : List Channel → List Channel} (hsort : Sorts sort) (ms : ℤ → ℤ) (span : ℤ × ℤ) (x : FNode → FTransform) (cs : List FNode) (hcs : Addressed cs)
    (h : ∀ n ∈ boneNodes cs, (x n).ThreeChannels ∧ (x n).Animated ms span (τ n) w) :
    ∃ (bones : List Bone) (result : FNode → List Channel),
      gatherFlatAnim (fun n => gatherTransform ms span tl (x n)) (pruneChannels sort tl nu) rootOnly cs = some bones ∧
      bones.length = (boneNodes cs).length ∧
      (∀ (k : ℕ) (n : FNode), (boneNodes cs)[k]? = some n → ∃ b, bones[k]? = some b ∧ b.name = n.name ∧
        (Reached rootOnly result cs n → b.channels = result n) ∧ (¬ Reached rootOnly result cs n → b.channels = [])) ∧
      ∀ n ∈ boneNodes cs, ∀ t : ℝ, ∃ u : ℕ → ℕ → ℝ,
        (∀ i < 11, ∀ axis < 3, |u i axis - (x n).imported ms span tl t i axis| ≤ tl.error w ((x n).op i axis)) ∧
        (calculate ((result n).map (opAt t))).map Prod.fst = some (transform (eulerImported (x n).order) (euler (x n).order) u) := by
  have hall : ∀ n, ∃ out, n ∈ boneNodes cs → (∃ g, gatherTransform ms span tl (x n) = some g ∧ pruneChannels sort tl nu g = some out ∧
      pruneChannels sort tl nu out = some out) ∧ ∀ t : ℝ, ∃ u : ℕ → ℕ → ℝ,
        (∀ i < 11, ∀ axis < 3, |u i axis - (x n).imported ms span tl t i axis| ≤ tl.error w ((x n).op i axis)) ∧
        (calculate (out.map (opAt t))).map Prod.fst = some (transform (eulerImported (x n).order) (euler (x n).order) u) := by
    intro n
    by_cases hn : n ∈ boneNodes cs
    · obtain ⟨chs, out, c1, c2, c3, -, c5⟩ := C75_transform htl (nu := nu) hw hsort ms span (x n) (h n hn).1 (C76_meets tl (h n hn).2)
      exact ⟨out, fun _ => ⟨⟨chs, c1, c2, c3⟩, c5⟩⟩
    · exact ⟨[], fun h => absurd h hn⟩
  choose result hr using hall
  have h0 : pruneChannels sort tl nu [] = some [] := by
    obtain ⟨out, o1, o2, -⟩ := C52_prune_channels htl (nu := nu) (τ := fun _ => (0, 0)) hw hsort (chs := []) (by simp) .nil
    obtain rfl : out = [] := List.eq_nil_of_length_eq_zero (by simpa using o2)
    exact o1
  obtain ⟨bones, b1, b2, b3⟩ := C74_animation (chans := fun n => gatherTransform ms span tl (x n)) (prune := pruneChannels sort tl nu)
    (rootOnly := rootOnly) (result := result) cs hcs h0 (fun n hn => (hr n hn).1)
  refine ⟨bones, result, b1, b2, ?_, fun n hn => (hr n hn).2⟩
  intro k n hk
  obtain ⟨b, hb, hname, hch, -⟩ := (C74_bones cs hcs).2 k n hk
  obtain ⟨c1, c2⟩ := b3 k n b hk hb
  by_cases hre : Reached rootOnly result cs n
  · exact ⟨_, c1 hre, hname, fun _ => rfl, fun h => absurd hre h⟩
  · exact ⟨b, c2 hre, hname, fun h => absurd h hre, fun _ => hch⟩

/-- A node that moves along the x-axis, with a rotation that is not animated and a pivot. -/
def demoTransform : FTransform where
  lclTranslation := ⟨fun _ => 0, some ⟨3, fun _ => 0, fun a => if a = 0 then
    some ⟨[⟨0, 0, 0, 0⟩, ⟨1000, 10, 0, 0⟩, ⟨3000, 4, 0, 0⟩], fun t => t, fun _ => 0, fun _ => 0⟩ else none⟩⟩
  rotationOffset := ⟨fun _ => 0, none⟩
  rotationPivot := ⟨fun a => a, none⟩
  preRotation := ⟨fun _ => 0, none⟩
  lclRotation := ⟨fun a => 30 * a, none⟩
  postRotation := ⟨fun _ => 0, none⟩
  scalingOffset := ⟨fun _ => 0, none⟩
  scalingPivot := ⟨fun _ => 0, none⟩
  lclScaling := ⟨fun _ => 2, none⟩
  order := .xyz

example : demoTransform.ThreeChannels ∧ demoTransform.Animated id (0, 5000) (fun _ => (0, 3000)) 3000 := by
  constructor
  · intro p hp node hn
    simp only [demoTransform, FTransform.properties, List.mem_cons, List.not_mem_nil, or_false] at hp
    rcases hp with rfl | rfl | rfl | rfl | rfl | rfl | rfl | rfl | rfl | rfl | rfl <;> simp at hn
    rw [← hn]
  · intro i hi axis ha node c hn hc hl
    have h1 : i = 0 ∨ i = 1 ∨ i = 2 ∨ i = 3 ∨ i = 4 ∨ i = 5 ∨ i = 6 ∨ i = 7 ∨ i = 8 ∨ i = 9 ∨ i = 10 := by omega
    rcases h1 with rfl | rfl | rfl | rfl | rfl | rfl | rfl | rfl | rfl | rfl | rfl <;>
      simp [FTransform.prop, FTransform.properties, demoTransform] at hn
    rw [← hn] at hc
    simp only at hc
    split_ifs at hc
    obtain rfl := Option.some.inj hc
    refine ⟨by simp [Apart], fun first last hf hla => ?_⟩
    obtain rfl : _ = first := by simpa using hf
    obtain rfl : _ = last := by simpa using hla
    norm_num

end
end Motive.Pipeline
