import Verif.Spline.NodeProps
import Verif.Curve.DualProps

/-!
# Adding nodes (C22)
-/

namespace Motive.Splines
open Motive.Math Motive.Curve

/-- Node x-values never decrease along the list. -/
def SortedX (l : List Node) : Prop := ∀ i a b, l[i]? = some a → l[i + 1]? = some b → a.x ≤ b.x
/-- No three consecutive nodes share an x. -/
def AtMostTwo (l : List Node) : Prop := ∀ i a c, l[i]? = some a → l[i + 2]? = some c → a.x < c.x

/-- The well-formedness that `C22_nodes_sorted` establishes for every spline built with `AddNode`. -/
structure Spline.WF (s : Spline) : Prop where
  g_pos : 0 < s.g
  sorted : SortedX s.nodes
  atMostTwo : AtMostTwo s.nodes
  capacity : s.nodes.length ≤ s.maxNodes
  ok : ∀ n ∈ s.nodes, n.Ok

theorem SortedX.le {l : List Node} (h : SortedX l) : ∀ {i j : ℕ} {a b : Node}, i ≤ j → l[i]? = some a →
    l[j]? = some b → a.x ≤ b.x := by
  intro i j a b hij ha hb
  induction j, hij using Nat.le_induction generalizing b with
  | base => rw [ha] at hb; cases hb; exact le_rfl
  | succ j hij ih =>
    have hlt := (List.getElem?_eq_some_iff.mp hb).1
    obtain ⟨c, hc⟩ : ∃ c, l[j]? = some c := ⟨l[j], List.getElem?_eq_getElem (by omega)⟩
    exact le_trans (ih hc) (h j c b hc hb)

theorem getLast?_eq_getElem {l : List Node} {b : Node} (h : l.getLast? = some b) :
    l[l.length - 1]? = some b ∧ 1 ≤ l.length := by
  rw [List.getLast?_eq_getElem?] at h
  refine ⟨h, ?_⟩
  have := (List.getElem?_eq_some_iff.mp h).1
  omega

theorem sorted_append {l : List Node} {n : Node} (h : SortedX l) (hl : ∀ b, l.getLast? = some b → b.x ≤ n.x) :
    SortedX (l ++ [n]) := by
  intro i a b ha hb
  have h1 := (List.getElem?_eq_some_iff.mp hb).1
  simp only [List.length_append, List.length_singleton] at h1
  rcases Nat.lt_or_ge (i + 1) l.length with hi | hi
  · rw [List.getElem?_append_left (by omega)] at ha hb
    exact h i a b ha hb
  · have hi : i + 1 = l.length := by omega
    rw [List.getElem?_append_left (by omega)] at ha
    rw [hi, List.getElem?_append_right le_rfl] at hb
    simp only [Nat.sub_self, List.getElem?_cons_zero, Option.some.injEq] at hb
    subst hb
    apply hl
    rw [List.getLast?_eq_getElem?, ← hi]
    exact ha

theorem atMostTwo_append {l : List Node} {n : Node} (h : AtMostTwo l)
    (hl : ∀ a, 2 ≤ l.length → l[l.length - 2]? = some a → a.x < n.x) : AtMostTwo (l ++ [n]) := by
  intro i a c ha hc
  have h1 := (List.getElem?_eq_some_iff.mp hc).1
  simp only [List.length_append, List.length_singleton] at h1
  rcases Nat.lt_or_ge (i + 2) l.length with hi | hi
  · rw [List.getElem?_append_left (by omega)] at ha hc
    exact h i a c ha hc
  · have hi : i + 2 = l.length := by omega
    rw [List.getElem?_append_left (by omega)] at ha
    rw [hi, List.getElem?_append_right le_rfl] at hc
    simp only [Nat.sub_self, List.getElem?_cons_zero, Option.some.injEq] at hc
    subst hc
    apply hl a (by omega)
    rw [← hi]; exact ha

theorem sorted_dropLast {l : List Node} (h : SortedX l) : SortedX l.dropLast := by
  intro i a b ha hb
  rw [List.getElem?_dropLast] at ha hb
  split at hb
  · rw [if_pos (by omega)] at ha
    exact h i a b ha hb
  · simp at hb

theorem atMostTwo_dropLast {l : List Node} (h : AtMostTwo l) : AtMostTwo l.dropLast := by
  intro i a b ha hb
  rw [List.getElem?_dropLast] at ha hb
  split at hb
  · rw [if_pos (by omega)] at ha
    exact h i a b ha hb
  · simp at hb

theorem make_some {x y d g : ℝ} {r : Range ℝ} {n : Node} (h : Node.make x y d g r = some n) :
    compactX x g = some n.x ∧ compactY y r = some n.y ∧ n.angle = compactDerivative d := by
  unfold Node.make at h
  cases hx : compactX x g with
  | none => rw [hx] at h; simp at h
  | some qx =>
    cases hy : compactY y r with
    | none => rw [hx, hy] at h; simp at h
    | some qy => rw [hx, hy] at h; simp at h; subst h; simp

theorem compactX_le {x g : ℝ} {q : ℕ} (h : compactX x g = some q) : q ≤ 65535 := by
  unfold compactX at h
  cases hq : quantizeX x g with
  | none => rw [hq] at h; simp at h
  | some k =>
    rw [hq] at h
    simp only [Option.bind_some] at h
    split at h
    · simp at h; omega
    · simp at h

theorem compactY_le {y : ℝ} {r : Range ℝ} {q : ℕ} (h : compactY y r = some q) :
    q ≤ 65535 ∧ r.start ≤ y ∧ y ≤ r.stop := by
  by_cases hy : r.start ≤ y ∧ y ≤ r.stop
  · obtain ⟨q', h', hle, -⟩ := C21_y_accurate hy
    rw [h] at h'; cases h'
    exact ⟨hle, hy⟩
  · unfold compactY at h; rw [if_neg hy] at h; simp at h

theorem make_ok {x y d g : ℝ} {r : Range ℝ} {n : Node} (h : Node.make x y d g r = some n) : n.Ok := by
  obtain ⟨h1, h2, h3⟩ := make_some h
  refine ⟨compactX_le h1, (compactY_le h2).1, ?_, ?_⟩ <;> rw [h3]
  · exact (compactDerivative_range d).1
  · exact (compactDerivative_range d).2

theorem compactX_floor {x g : ℝ} (hg : 0 < g) {q : ℕ} (h : compactX x g = some q) (h0 : 0 ≤ x) :
    (q : ℤ) = ⌊x / g + 1 / 2⌋ := by
  have hle := compactX_le h
  unfold compactX at h
  have hn : 0 ≤ x / g + 1 / 2 := by have := div_nonneg h0 hg.le; linarith
  have hq : quantizeX x g = toInt (x / g + 1 / 2) := if_neg hg.ne'
  rw [hq] at h
  unfold toInt at h
  rw [trunc_of_nonneg hn] at h
  split at h
  · simp only [Option.bind_some] at h
    split at h
    · simp only [Option.some.injEq] at h; omega
    · simp at h
  · simp at h

namespace Spline

theorem addVerbatim_some {s s' : Spline} {n : Node} (h : s.addVerbatim n = some s') :
    s' = { s with nodes := s.nodes ++ [n] } ∧ s.nodes.length < s.maxNodes := by
  unfold addVerbatim at h
  split at h
  · rename_i hlt; exact ⟨(Option.some.inj h).symm, hlt⟩
  · simp at h

theorem wf_addVerbatim {s s' : Spline} {n : Node} (hs : s.WF) (hn : n.Ok) (h : s.addVerbatim n = some s')
    (h1 : ∀ b, s.nodes.getLast? = some b → b.x ≤ n.x)
    (h2 : ∀ a, 2 ≤ s.nodes.length → s.nodes[s.nodes.length - 2]? = some a → a.x < n.x) : s'.WF := by
  obtain ⟨rfl, hlt⟩ := addVerbatim_some h
  exact ⟨hs.g_pos, sorted_append hs.sorted h1, atMostTwo_append hs.atMostTwo h2, by simp; omega, by
    intro m hm
    rcases List.mem_append.mp hm with h | h
    · exact hs.ok m h
    · rw [List.mem_singleton.mp h]; exact hn⟩

/-- The spline keeps its y range, granularity and capacity. -/
def SameFrame (s s' : Spline) : Prop := s'.g = s.g ∧ s'.yRange = s.yRange ∧ s'.maxNodes = s.maxNodes

theorem dropMiddle_spec {s : Spline} (hs : s.WF) {n last : Node} (hlast : s.nodes.getLast? = some last)
    (hx : last.x = n.x) :
    (s.dropMiddle n).WF ∧ SameFrame s (s.dropMiddle n) ∧ (s.dropMiddle n).nodes.length ≤ s.nodes.length ∧
    ((s.dropMiddle n).nodes = s.nodes ∨ (s.dropMiddle n).nodes = s.nodes.dropLast) ∧
    (∀ b, (s.dropMiddle n).nodes.getLast? = some b → b.x ≤ n.x) ∧
    (∀ a, 2 ≤ (s.dropMiddle n).nodes.length →
      (s.dropMiddle n).nodes[(s.dropMiddle n).nodes.length - 2]? = some a → a.x < n.x) := by
  obtain ⟨hl, h1⟩ := getLast?_eq_getElem hlast
  unfold dropMiddle
  split
  · rename_i b a t hrev
    have hnodes : s.nodes = t.reverse ++ [a, b] := by
      have := congrArg List.reverse hrev
      simpa using this
    have hlen : s.nodes.length = t.length + 2 := by rw [hnodes]; simp
    have hb : b = last := by
      rw [hnodes, List.getLast?_append] at hlast; simpa using hlast
    have ha : s.nodes[s.nodes.length - 2]? = some a := by
      rw [hlen, hnodes]; simp
    subst hb
    split
    · rename_i hc
      refine ⟨⟨hs.g_pos, sorted_dropLast hs.sorted, atMostTwo_dropLast hs.atMostTwo, ?_, ?_⟩, ⟨rfl, rfl, rfl⟩,
        by simp, Or.inr rfl, ?_, ?_⟩
      · have := hs.capacity; simp; omega
      · intro m hm; exact hs.ok m (List.dropLast_subset _ hm)
      · intro c hc'
        have hd : s.nodes.dropLast = t.reverse ++ [a] := by
          rw [hnodes, show t.reverse ++ [a, b] = (t.reverse ++ [a]) ++ [b] by simp, List.dropLast_concat]
        simp only [hd, List.getLast?_append] at hc'
        simp at hc'; subst hc'; omega
      · intro c h2 hc'
        simp only [List.length_dropLast] at h2 hc'
        rw [List.getElem?_dropLast, if_pos (by omega)] at hc'
        have := hs.atMostTwo (s.nodes.length - 1 - 2) c b hc' (by
          rw [show s.nodes.length - 1 - 2 + 2 = s.nodes.length - 1 by omega]; exact hl)
        omega
    · rename_i hc
      refine ⟨hs, ⟨rfl, rfl, rfl⟩, le_rfl, Or.inl rfl, ?_, ?_⟩
      · intro c hc'; rw [hlast] at hc'; cases hc'; omega
      · intro c h2 hc'
        rw [ha] at hc'; cases hc'
        have := hs.sorted (s.nodes.length - 2) a b ha (by
          rw [show s.nodes.length - 2 + 1 = s.nodes.length - 1 by omega]; exact hl)
        omega
  · rename_i hno
    have hlen : s.nodes.length < 2 := by
      by_contra hge
      have : 2 ≤ s.nodes.reverse.length := by simp; omega
      match hr : s.nodes.reverse with
      | [] => rw [hr] at this; simp at this
      | [_] => rw [hr] at this; simp at this
      | b :: a :: t => exact hno b a t hr
    refine ⟨hs, ⟨rfl, rfl, rfl⟩, le_rfl, Or.inl rfl, ?_, ?_⟩
    · intro c hc'; rw [hlast] at hc'; cases hc'; omega
    · intro c h2; omega

theorem mid_between {s : Spline} (hs : s.WF) {last n : Node} (hlt : last.x < n.x) {m : ℝ × ℝ × ℝ}
    (hm : Dual.dualCubicMidNode (s.cubicInit last n) = some m) {mid : Node}
    (hmid : Node.make (last.X s.g + m.1) m.2.1 m.2.2 s.g s.yRange = some mid)
    (hne : mid.x ≠ last.x ∧ mid.x ≠ n.x) : last.x < mid.x ∧ mid.x < n.x := by
  have hg := hs.g_pos
  have hd : (1 : ℝ) ≤ (n.x : ℝ) - last.x := by
    have : last.x + 1 ≤ n.x := hlt
    have : ((last.x + 1 : ℕ) : ℝ) ≤ n.x := by exact_mod_cast this
    push_cast at this; linarith
  have hw : (s.cubicInit last n).widthX = ((n.x : ℝ) - last.x) * s.g := rfl
  have hwpos : 0 < (s.cubicInit last n).widthX := by rw [hw]; positivity
  obtain ⟨b1, b2, -⟩ := Dual.C32_mid_inside hwpos hm
  rw [hw] at b1 b2
  have hx0 : (0 : ℝ) ≤ (last.x : ℝ) * s.g := by positivity
  have hpos : 0 ≤ last.X s.g + m.1 := by
    simp only [Node.X]
    have : 0 < ((n.x : ℝ) - last.x) * s.g := by positivity
    linarith
  have hf := compactX_floor hg (make_some hmid).1 hpos
  have hq : (last.X s.g + m.1) / s.g = last.x + m.1 / s.g := by
    simp only [Node.X]; field_simp
  have c1 : ((n.x : ℝ) - last.x) / 10 ≤ m.1 / s.g := by rw [le_div_iff₀ hg]; linarith
  have c2 : m.1 / s.g ≤ 9 * ((n.x : ℝ) - last.x) / 10 := by rw [div_le_iff₀ hg]; linarith
  have f1 := Int.floor_le ((last.X s.g + m.1) / s.g + 1 / 2)
  have f2 := Int.lt_floor_add_one ((last.X s.g + m.1) / s.g + 1 / 2)
  rw [← hf, hq] at f1 f2
  push_cast at f1 f2
  have g1 : (last.x : ℝ) < mid.x + 1 := by linarith
  have g2 : (mid.x : ℝ) < n.x + 1 := by linarith
  have g1' : last.x < mid.x + 1 := by exact_mod_cast g1
  have g2' : mid.x < n.x + 1 := by exact_mod_cast g2
  omega

/-- What one successful `AddNode` does to a well-formed spline. -/
theorem addNode_spec {s s' : Spline} (hs : s.WF) {x y d : ℝ} {m : AddMethod} (h : s.addNode x y d m = some s') :
    s'.WF ∧ SameFrame s s' ∧ s'.nodes.length ≤ s.nodes.length + 2 ∧
    (m = .withoutModification → s'.nodes.length ≤ s.nodes.length + 1) ∧
    (∃ n, Node.make x y d s.g s.yRange = some n ∧ s'.nodes.getLast? = some n) ∧
    s.nodes.dropLast <+: s'.nodes := by
  unfold addNode at h
  cases hn : Node.make x y d s.g s.yRange with
  | none => rw [hn] at h; simp at h
  | some n =>
    rw [hn] at h
    simp only [Option.bind_some] at h
    have hok := make_ok hn
    cases hlast : s.nodes.getLast? with
    | none =>
      rw [hlast] at h; simp only at h
      have hnil : s.nodes = [] := List.getLast?_eq_none_iff.mp hlast
      have hwf := wf_addVerbatim hs hok h (by rw [hlast]; simp) (by rw [hnil]; simp)
      obtain ⟨rfl, -⟩ := addVerbatim_some h
      exact ⟨hwf, ⟨rfl, rfl, rfl⟩, by simp, by simp, ⟨n, rfl, by simp⟩, by simp [hnil]⟩
    | some last =>
      rw [hlast] at h; simp only at h
      obtain ⟨hl, hl1⟩ := getLast?_eq_getElem hlast
      split at h
      · simp at h
      · rename_i hge
        split at h
        · rename_i heq
          simp only [Option.some.injEq] at h
          subst h
          exact ⟨hs, ⟨rfl, rfl, rfl⟩, by omega, by omega, ⟨n, rfl, by rw [hlast, heq]⟩, List.dropLast_prefix _⟩
        · rename_i hne
          split at h
          · rename_i hx
            obtain ⟨w, f, hlen, hor, c1, c2⟩ := dropMiddle_spec hs hlast hx
            have hwf := wf_addVerbatim w hok h c1 c2
            obtain ⟨rfl, hlt⟩ := addVerbatim_some h
            refine ⟨hwf, f, by simp; omega, fun _ => by simp; omega, ⟨n, rfl, by simp⟩, ?_⟩
            simp only
            rcases hor with e | e <;> rw [e]
            · exact (List.dropLast_prefix _).trans (List.prefix_append _ _)
            · exact List.prefix_append _ _
          · rename_i hx
            have hlt : last.x < n.x := by omega
            have hbefore : ∀ a, 2 ≤ s.nodes.length → s.nodes[s.nodes.length - 2]? = some a → a.x ≤ last.x := by
              intro a h2 ha
              exact hs.sorted (s.nodes.length - 2) a last ha (by
                rw [show s.nodes.length - 2 + 1 = s.nodes.length - 1 by omega]; exact hl)
            have hdirect : ∀ t, s.addVerbatim n = some t → t.WF ∧ SameFrame s t ∧
                t.nodes.length ≤ s.nodes.length + 1 ∧ t.nodes.getLast? = some n ∧ s.nodes.dropLast <+: t.nodes := by
              intro t ht
              have hwf := wf_addVerbatim hs hok ht (by intro b hb; rw [hlast] at hb; cases hb; omega)
                (by intro a h2 ha; have := hbefore a h2 ha; omega)
              obtain ⟨rfl, -⟩ := addVerbatim_some ht
              exact ⟨hwf, ⟨rfl, rfl, rfl⟩, by simp, by simp,
                (List.dropLast_prefix _).trans (List.prefix_append _ _)⟩
            split at h
            · rename_i hm
              cases hadd : s.addMiddle last n with
              | none => rw [hadd] at h; simp at h
              | some s1 =>
                rw [hadd] at h
                simp only [Option.bind_some] at h
                unfold addMiddle at hadd
                split at hadd
                · simp only [Option.some.injEq] at hadd
                  subst hadd
                  obtain ⟨w, f, e, l, p⟩ := hdirect s' h
                  exact ⟨w, f, by omega, by omega, ⟨n, rfl, l⟩, p⟩
                · cases hdual : Dual.dualCubicMidNode (s.cubicInit last n) with
                  | none => rw [hdual] at hadd; simp at hadd
                  | some md =>
                    rw [hdual] at hadd
                    simp only [Option.bind_some] at hadd
                    cases hmid : Node.make (last.X s.g + md.1) md.2.1 md.2.2 s.g s.yRange with
                    | none => rw [hmid] at hadd; simp at hadd
                    | some mid =>
                      rw [hmid] at hadd
                      simp only [Option.bind_some] at hadd
                      split at hadd
                      · rename_i huniq
                        obtain ⟨m1, m2⟩ := mid_between hs hlt hdual hmid huniq
                        have hwf1 := wf_addVerbatim hs (make_ok hmid) hadd
                          (by intro b hb; rw [hlast] at hb; cases hb; omega)
                          (by intro a h2 ha; have := hbefore a h2 ha; omega)
                        obtain ⟨rfl, -⟩ := addVerbatim_some hadd
                        have hwf2 := wf_addVerbatim hwf1 hok h (by
                            intro b hb; simp at hb; subst hb; omega) (by
                            intro a h2 ha
                            simp only [List.length_append, List.length_singleton] at ha h2
                            rw [List.getElem?_append_left (by omega),
                              show s.nodes.length + 1 - 2 = s.nodes.length - 1 by omega, hl] at ha
                            cases ha; omega)
                        obtain ⟨rfl, -⟩ := addVerbatim_some h
                        refine ⟨hwf2, ⟨rfl, rfl, rfl⟩, by simp, by rw [hm]; simp, ⟨n, rfl, by simp⟩, ?_⟩
                        simp only [List.append_assoc]
                        exact (List.dropLast_prefix _).trans (List.prefix_append _ _)
                      · simp only [Option.some.injEq] at hadd
                        subst hadd
                        obtain ⟨w, f, e, l, p⟩ := hdirect s' h
                        exact ⟨w, f, by omega, by omega, ⟨n, rfl, l⟩, p⟩
            · obtain ⟨w, f, e, l, p⟩ := hdirect s' h
              exact ⟨w, f, by omega, by omega, ⟨n, rfl, l⟩, p⟩

/-- One `AddNode` call. -/
structure AddCall where
  x : ℝ
  y : ℝ
  d : ℝ
  m : AddMethod

/-- A sequence of `AddNode` calls; `none` as soon as one of them fails an assertion. -/
noncomputable def addAll (s : Spline) : List AddCall → Option Spline
  | [] => some s
  | c :: cs => (s.addNode c.x c.y c.d c.m).bind fun s' => s'.addAll cs

theorem addAll_wf {cs : List AddCall} : ∀ {s s' : Spline}, s.WF → s.addAll cs = some s' →
    s'.WF ∧ SameFrame s s' ∧ s'.nodes.length ≤ s.nodes.length + 2 * cs.length := by
  induction cs with
  | nil => intro s s' hs h; simp only [addAll, Option.some.injEq] at h; subst h; exact ⟨hs, ⟨rfl, rfl, rfl⟩, by simp⟩
  | cons c cs ih =>
    intro s s' hs h
    simp only [addAll] at h
    cases h1 : s.addNode c.x c.y c.d c.m with
    | none => rw [h1] at h; simp at h
    | some s1 =>
      rw [h1] at h
      simp only [Option.bind_some] at h
      obtain ⟨w, f, l, -⟩ := addNode_spec hs h1
      obtain ⟨w', f', l'⟩ := ih w h
      exact ⟨w', ⟨f'.1.trans f.1, f'.2.1.trans f.2.1, f'.2.2.trans f.2.2⟩, by simp only [List.length_cons]; omega⟩

theorem wf_init (s : Spline) (r : Range ℝ) {g : ℝ} (hg : 0 < g) : (s.init r g).WF :=
  ⟨hg, by intro i a b h; simp [init] at h, by intro i a b h; simp [init] at h, by simp [init], by simp [init]⟩

/-- C22: after `Init` and any sequence of `AddNode` calls (of both kinds) the nodes are sorted by x, at most two
neighbours share an x, there are never more than `max_nodes` of them and at most two per call. -/
theorem C22_nodes_sorted (s : Spline) (r : Range ℝ) {g : ℝ} (hg : 0 < g) (cs : List AddCall) {s' : Spline}
    (h : (s.init r g).addAll cs = some s') :
    SortedX s'.nodes ∧ AtMostTwo s'.nodes ∧ s'.nodes.length ≤ s.maxNodes ∧ s'.nodes.length ≤ 2 * cs.length ∧
    s'.yRange = r ∧ s'.g = g := by
  obtain ⟨w, f, l⟩ := addAll_wf (wf_init s r hg) h
  refine ⟨w.sorted, w.atMostTwo, ?_, by simpa [init] using l, f.2.1, f.1⟩
  have := w.capacity; rw [f.2.2] at this; exact this

/-- C22, progress: plain additions at nondecreasing x inside the x and y ranges all succeed when there are at
least as many free slots as calls, and the last node is the last one added. -/
theorem C22_plain_additions_succeed {cs : List AddCall} : ∀ {s : Spline}, s.WF →
    (∀ c ∈ cs, c.m = .withoutModification ∧ 0 ≤ c.x ∧ c.x ≤ 65535 * s.g ∧ s.yRange.start ≤ c.y ∧
      c.y ≤ s.yRange.stop) →
    (cs.Pairwise fun a b => a.x ≤ b.x) →
    (∀ b, s.nodes.getLast? = some b → ∀ c ∈ cs, b.X s.g - s.g / 2 ≤ c.x) →
    s.nodes.length + cs.length ≤ s.maxNodes → ∃ s', s.addAll cs = some s' := by
  induction cs with
  | nil => intro s _ _ _ _ _; exact ⟨s, rfl⟩
  | cons c cs ih =>
    intro s hs hc hp hb hcap
    have hg := hs.g_pos
    obtain ⟨hm, h0, h1, hy⟩ := hc c (by simp)
    simp only [List.length_cons] at hcap
    have hadd : ∃ s1, s.addNode c.x c.y c.d c.m = some s1 := by
      obtain ⟨n, hn, hok, hclose, -⟩ := C21_make (d := c.d) hg h0 h1 hy
      unfold addNode
      rw [hn]
      simp only [Option.bind_some]
      cases hlast : s.nodes.getLast? with
      | none =>
        exact ⟨{ s with nodes := s.nodes ++ [n] }, by simp only [addVerbatim]; rw [if_pos (by omega)]⟩
      | some last =>
        simp only
        have hle : last.x ≤ n.x := by
          have hbx := hb last hlast c (by simp)
          have hf := compactX_floor hg (make_some hn).1 h0
          have : (last.x : ℝ) - 1 / 2 ≤ c.x / s.g := by
            rw [le_div_iff₀ hg]; simp only [Node.X] at hbx; linarith
          have : (last.x : ℤ) ≤ ⌊c.x / s.g + 1 / 2⌋ := Int.le_floor.mpr (by push_cast; linarith)
          omega
        rw [if_neg (by omega)]
        split
        · exact ⟨s, rfl⟩
        · split
          · rename_i hx
            obtain ⟨-, f, hlen, -⟩ := dropMiddle_spec hs hlast hx
            exact ⟨_, if_pos (by rw [f.2.2]; omega)⟩
          · rw [if_neg (by rw [hm]; simp)]
            exact ⟨_, if_pos (by omega)⟩
    obtain ⟨s1, hs1⟩ := hadd
    obtain ⟨w, f, -, l, ⟨n, hn, hlast⟩, -⟩ := addNode_spec hs hs1
    have hp' := List.pairwise_cons.mp hp
    obtain ⟨s', h'⟩ := ih w (by
        intro c' hc'
        rw [f.1, f.2.1]; exact hc c' (List.mem_cons_of_mem _ hc')) hp'.2 (by
        intro b hb' c' hc'
        rw [hlast] at hb'; cases hb'
        rw [f.1]
        have hcc := hp'.1 c' hc'
        obtain ⟨n', hn', -, hclose, -⟩ := C21_make (d := c.d) hg h0 h1 hy
        rw [hn] at hn'; cases hn'
        have := (abs_le.mp hclose).2
        linarith) (by rw [f.2.2]; have := l hm; omega)
    exact ⟨s', by simp only [addAll, hs1, Option.bind_some, h']⟩

/-- C22, capacity of the other method: with two free slots the outcome of `AddNode` does not depend on the
capacity. -/
theorem C22_two_slots_suffice {s : Spline} (hs : s.WF) (hcap : s.nodes.length + 2 ≤ s.maxNodes) {M : ℕ}
    (hM : s.maxNodes ≤ M) (x y d : ℝ) (m : AddMethod) :
    (s.addNode x y d m).map (·.nodes) = (({ s with maxNodes := M } : Spline).addNode x y d m).map (·.nodes) := by
  have hv : ∀ (l : List Node) (n : Node), l.length < s.nodes.length + 2 →
      (({ s with nodes := l } : Spline).addVerbatim n).map (·.nodes) = some (l ++ [n]) ∧
      (({ s with nodes := l, maxNodes := M } : Spline).addVerbatim n).map (·.nodes) = some (l ++ [n]) := by
    intro l n hl
    constructor <;> · simp only [addVerbatim]; rw [if_pos (by omega)]; rfl
  unfold addNode
  simp only
  cases hn : Node.make x y d s.g s.yRange with
  | none => rfl
  | some n =>
    simp only [Option.bind_some]
    cases hlast : s.nodes.getLast? with
    | none => exact (hv s.nodes n (by omega)).1.trans (hv s.nodes n (by omega)).2.symm
    | some last =>
      simp only
      split
      · rfl
      · split
        · rfl
        · split
          · rename_i hx
            obtain ⟨-, -, hlen, hor, -⟩ := dropMiddle_spec hs hlast hx
            have e1 : s.dropMiddle n = { s with nodes := (s.dropMiddle n).nodes } := by
              unfold dropMiddle; split <;> [split <;> rfl; rfl]
            have e2 : ({ s with maxNodes := M } : Spline).dropMiddle n =
                { s with nodes := (s.dropMiddle n).nodes, maxNodes := M } := by
              unfold dropMiddle; simp only; split <;> [split <;> rfl; rfl]
            rw [e1, e2]
            exact (hv _ n (by omega)).1.trans (hv _ n (by omega)).2.symm
          · split
            · have key : s.addMiddle last n = none ∧
                  ({ s with maxNodes := M } : Spline).addMiddle last n = none ∨
                  ∃ l, l.length < s.nodes.length + 2 ∧ s.addMiddle last n = some { s with nodes := l } ∧
                  ({ s with maxNodes := M } : Spline).addMiddle last n =
                    some { s with nodes := l, maxNodes := M } := by
                by_cases hu : (Cubic.init (s.cubicInit last n)).uniformCurvature ⟨0, s.widthX last n⟩ = true
                · exact Or.inr ⟨s.nodes, by omega, if_pos hu, if_pos hu⟩
                · have r1 : s.addMiddle last n = _ := if_neg hu
                  have r2 : ({ s with maxNodes := M } : Spline).addMiddle last n = _ := if_neg hu
                  have hc : ({ s with maxNodes := M } : Spline).cubicInit last n = s.cubicInit last n := rfl
                  rw [hc] at r2
                  rw [r1, r2]
                  cases Dual.dualCubicMidNode (s.cubicInit last n) with
                  | none => exact Or.inl ⟨rfl, rfl⟩
                  | some md =>
                    simp only [Option.bind_some]
                    cases Node.make (last.X s.g + md.1) md.2.1 md.2.2 s.g s.yRange with
                    | none => exact Or.inl ⟨rfl, rfl⟩
                    | some mid =>
                      simp only [Option.bind_some]
                      by_cases hq : mid.x ≠ last.x ∧ mid.x ≠ n.x
                      · refine Or.inr ⟨s.nodes ++ [mid], by simp, ?_, ?_⟩
                        · rw [if_pos hq]; simp only [addVerbatim]; rw [if_pos (by omega)]
                        · rw [if_pos hq]; simp only [addVerbatim]; rw [if_pos (by omega)]
                      · exact Or.inr ⟨s.nodes, by omega, if_neg hq, if_neg hq⟩
              rcases key with ⟨k1, k2⟩ | ⟨l, hl, k1, k2⟩
              · rw [k1, k2]
              · rw [k1, k2]
                simp only [Option.bind_some]
                exact (hv _ n hl).1.trans (hv _ n hl).2.symm
            · exact (hv s.nodes n (by omega)).1.trans (hv s.nodes n (by omega)).2.symm

/-- The claim that no two neighbours are equal is false: adding A, then B at the same x, then A again removes B
and leaves A twice. -/
theorem C22_equal_neighbours (s : Spline) (hg : 0 < s.g) (hmax : 2 ≤ s.maxNodes) (hr : s.yRange.start < s.yRange.stop)
    (hempty : s.nodes = []) :
    ∃ s' a, s.addAll [⟨0, s.yRange.start, 0, .ensureWellBehaved⟩, ⟨0, s.yRange.stop, 0, .ensureWellBehaved⟩,
      ⟨0, s.yRange.start, 0, .ensureWellBehaved⟩] = some s' ∧ s'.nodes = [a, a] := by
  have hA := C21_exact_on_grid (n := ⟨0, 0, 0⟩) (by unfold Node.Ok; norm_num) hg hr
  have hB := C21_exact_on_grid (n := ⟨0, 65535, 0⟩) (by unfold Node.Ok; norm_num) hg hr
  simp only [Node.X, Node.Y, Node.D, Range.lerp, Nat.cast_zero, zero_mul, Int.cast_zero, Real.tan_zero, sub_zero,
    one_mul, add_zero] at hA hB
  norm_num at hA hB
  refine ⟨{ s with nodes := [⟨0, 0, 0⟩, ⟨0, 0, 0⟩] }, ⟨0, 0, 0⟩, ?_, rfl⟩
  have hm1 : 0 < s.maxNodes := by omega
  have hm2 : 1 < s.maxNodes := by omega
  simp [addAll, addNode, hA, hB, hempty, addVerbatim, dropMiddle, hm1, hm2]

/-- Concrete calls that meet the hypotheses of `C22_plain_additions_succeed`. -/
example : ∃ s', ((create 7).init ⟨0, 1⟩ (1 / 2)).addAll
    [⟨0, 1 / 4, 1, .withoutModification⟩, ⟨3, 1, 0, .withoutModification⟩, ⟨3, 0, 2, .withoutModification⟩,
      ⟨10, 1 / 2, 0, .withoutModification⟩] = some s' := by
  apply C22_plain_additions_succeed (wf_init _ _ (by norm_num))
  · intro c hc
    simp only [List.mem_cons, List.not_mem_nil, or_false] at hc
    rcases hc with rfl | rfl | rfl | rfl <;> norm_num [init]
  · norm_num
  · intro b hb; simp [init] at hb
  · simp [init, create]

end Spline
end Motive.Splines
