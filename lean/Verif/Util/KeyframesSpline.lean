import Verif.Util.KeyframesProps
import Verif.Spline.EvalProps
import Verif.Math.RangeSets
/-!
# C50: the splines made from keyframes
-/

namespace Motive.Util

open Motive.Math Motive.Curve Motive.Splines Motive.Splines.Spline

noncomputable section

/-- What a spline keeps of the nodes of one keyframe: one if both are equal. -/
def kept (a b : Node) : List Node := if a = b then [a] else [a, b]

theorem kept_start (a b : Node) : ∃ r, kept a b = a :: r := by unfold kept; split <;> exact ⟨_, rfl⟩
theorem kept_end (a b : Node) : ∃ r, kept a b = r ++ [b] := by
  unfold kept
  split
  · rename_i h; subst h; exact ⟨[], rfl⟩
  · exact ⟨[a], rfl⟩

/-- The first node of a keyframe is appended. -/
theorem addNode_later {s : Spline} {x y e : ℝ} {n : Node} (hm : Node.make x y e s.g s.yRange = some n)
    (hl : ∀ b, s.nodes.getLast? = some b → b.x < n.x) (hroom : s.nodes.length < s.maxNodes) :
    s.addNode x y e .withoutModification = some { s with nodes := s.nodes ++ [n] } := by
  unfold addNode
  rw [hm, Option.bind_some]
  cases h : s.nodes.getLast? with
  | none => simp only [addVerbatim, if_pos hroom]
  | some last =>
    have := hl last h
    simp only
    rw [if_neg (by omega), if_neg (fun he => by rw [he] at this; omega), if_neg (by omega), if_neg (by simp)]
    simp only [addVerbatim, if_pos hroom]

/-- The second node of a keyframe is appended unless it is equal. -/
theorem addNode_same {s : Spline} {x y e : ℝ} {n m : Node} {l : List Node} (hm : Node.make x y e s.g s.yRange = some n) (hs : s.nodes = l ++ [m])
    (hx : m.x = n.x) (hl : ∀ b, l.getLast? = some b → b.x < m.x) (hroom : s.nodes.length < s.maxNodes) :
    s.addNode x y e .withoutModification = some { s with nodes := l ++ kept m n } := by
  unfold addNode
  rw [hm, Option.bind_some, hs]
  simp only [List.getLast?_append, List.getLast?_singleton, Option.some_or]
  rw [if_neg (by omega)]
  by_cases he : m = n
  · rw [if_pos he, kept, if_pos he, ← hs]
  · rw [if_neg he, if_pos hx, kept, if_neg he]
    have hd : s.dropMiddle n = s := by
      unfold dropMiddle
      rw [hs]
      simp only [List.reverse_append, List.reverse_singleton, List.singleton_append]
      cases hr : l.reverse with
      | nil => rfl
      | cons a r =>
        have : l.getLast? = some a := by rw [← List.head?_reverse, hr]; rfl
        have := hl a this
        simp only
        rw [if_neg (fun h => by omega)]
    rw [hd, addVerbatim, if_pos hroom, hs]
    simp

/-- Adding two nodes for each keyframe. -/
theorem addUncompressed_pairs {n : ℕ} {a b : ℕ → Uncompressed} {qa qb : ℕ → Node} {s : Spline}
    (ha : ∀ k < n, Node.make (a k).x (a k).y (a k).derivative s.g s.yRange = some (qa k))
    (hb : ∀ k < n, Node.make (b k).x (b k).y (b k).derivative s.g s.yRange = some (qb k))
    (hx : ∀ k < n, (qa k).x = (qb k).x) (hinc : ∀ k, k + 1 < n → (qb k).x < (qa (k + 1)).x) (hs : s.nodes = []) (hroom : 2 * n ≤ s.maxNodes) :
    s.addUncompressed ((List.range n).flatMap fun k => [a k, b k]) = some { s with nodes := (List.range n).flatMap fun k => kept (qa k) (qb k) } := by
  induction n with
  | zero => simp only [List.range_zero, List.flatMap_nil, addUncompressed, List.foldlM_nil, ← hs]; rfl
  | succ n ih =>
    have ih := ih (fun k hk => ha k (by omega)) (fun k hk => hb k (by omega)) (fun k hk => hx k (by omega)) (fun k hk => hinc k (by omega)) (by omega)
    have hlen : ((List.range n).flatMap fun k => kept (qa k) (qb k)).length ≤ 2 * n := by
      rw [List.length_flatMap]
      calc ((List.range n).map fun k => (kept (qa k) (qb k)).length).sum ≤ ((List.range n).map fun k => (kept (qa k) (qb k)).length).length • 2 := by
            refine List.sum_le_card_nsmul _ _ ?_
            intro x hx
            obtain ⟨k, -, rfl⟩ := List.mem_map.mp hx
            unfold kept
            split <;> simp
        _ = 2 * n := by simp [mul_comm]
    have hlast : ∀ c, ((List.range n).flatMap fun k => kept (qa k) (qb k)).getLast? = some c → c.x < (qa n).x := by
      intro c hc
      cases n with
      | zero => simp at hc
      | succ n =>
        rw [List.range_succ, List.flatMap_append] at hc
        obtain ⟨r, hr⟩ := kept_end (qa n) (qb n)
        simp only [List.flatMap_cons, List.flatMap_nil, List.append_nil, hr, ← List.append_assoc, List.getLast?_append, List.getLast?_singleton, Option.some_or,
          Option.some.injEq] at hc
        subst hc
        exact hinc n (by omega)
    rw [List.range_succ, List.flatMap_append, List.flatMap_append, addUncompressed, List.foldlM_append]
    unfold addUncompressed at ih
    rw [ih]
    simp only [List.flatMap_cons, List.flatMap_nil, List.append_nil, List.foldlM_cons, List.foldlM_nil, Option.bind_eq_bind, Option.bind_some]
    rw [addNode_later (s := { s with nodes := (List.range n).flatMap fun k => kept (qa k) (qb k) }) (n := qa n) (ha n (by omega)) hlast (by simp only; omega)]
    simp only [Option.bind_some]
    rw [addNode_same (s := { s with nodes := ((List.range n).flatMap fun k => kept (qa k) (qb k)) ++ [qa n] }) (m := qa n) (l := (List.range n).flatMap fun k => kept (qa k) (qb k)) (hb n (by omega)) rfl (hx n (by omega)) hlast (by simp only [List.length_append, List.length_singleton]; omega)]
    rfl

theorem addUncompressed_wf {ns : List Uncompressed} : ∀ {s s' : Spline}, s.WF → s.addUncompressed ns = some s' → s'.WF := by
  induction ns with
  | nil => intro s s' hs h; simp only [addUncompressed, List.foldlM_nil] at h; cases h; exact hs
  | cons n ns ih =>
    intro s s' hs h
    simp only [addUncompressed, List.foldlM_cons, Option.bind_eq_bind] at h
    cases hn : s.addNode n.x n.y n.derivative .withoutModification with
    | none => simp [hn] at h
    | some s1 =>
      simp only [hn, Option.bind_some] at h
      exact ih (addNode_spec hs hn).1 h

/-- `n` keyframes at times `t`: at least one, at most 32766, no negative time, and neighbours at least one grain (1/65535 of the
last time) apart. -/
structure Spaced (n : ℕ) (t : ℕ → ℝ) : Prop where
  pos : 0 < n
  few : 2 * n ≤ 65532
  nonneg : 0 ≤ t 0
  apart : ∀ k, k + 1 < n → t k + recommendG (t (n - 1)) ≤ t (k + 1)

theorem recommendG_pos (x : ℝ) : 0 < recommendG x := by
  unfold recommendG
  split
  · norm_num
  · rename_i h; push Not at h; positivity

theorem Spaced.bounds {n : ℕ} {t : ℕ → ℝ} (h : Spaced n t) {k : ℕ} (hk : k < n) : 0 ≤ t k ∧ t k ≤ t (n - 1) := by
  have hg := recommendG_pos (t (n - 1))
  have hmono : ∀ i j, i ≤ j → j < n → t i ≤ t j := by
    intro i j hij
    induction j, hij using Nat.le_induction with
    | base => intro _; exact le_rfl
    | succ j hij ih => intro hj; have := ih (by omega); have := h.apart j hj; linarith
  exact ⟨le_trans h.nonneg (hmono 0 k (by omega) hk), hmono k (n - 1) (by omega) (by omega)⟩

/-- The spline that a list with two nodes for each keyframe becomes. -/
structure Made (n : ℕ) (a b : ℕ → Uncompressed) (s : Spline) (qa qb : ℕ → Node) : Prop where
  wf : s.WF
  indexable : s.Indexable
  g : s.g = recommendG (a (n - 1)).x
  size : s.maxNodes = 2 * n
  left : ∀ k < n, Node.make (a k).x (a k).y (a k).derivative s.g s.yRange = some (qa k)
  right : ∀ k < n, Node.make (b k).x (b k).y (b k).derivative s.g s.yRange = some (qb k)
  nodes : s.nodes = (List.range n).flatMap fun k => kept (qa k) (qb k)
  same : ∀ k < n, (qa k).x = (qb k).x
  increasing : ∀ j k, j < k → k < n → (qb j).x < (qa k).x
  contained : ∀ k < n, s.yRange.contains (a k).y ∧ s.yRange.contains (b k).y
  tight : ∃ j k, j < n ∧ k < n ∧ (s.yRange.start = (a j).y ∨ s.yRange.start = (b j).y) ∧ (s.yRange.stop = (a k).y ∨ s.yRange.stop = (b k).y)

theorem made {n : ℕ} {t : ℕ → ℝ} (ht : Spaced n t) {a b : ℕ → Uncompressed} (ha : ∀ k < n, (a k).x = t k) (hb : ∀ k < n, (b k).x = t k) {l : List Uncompressed}
    (hl : TwoPer l n a b) : ∃ s qa qb, createFromNodes l = some s ∧ Made n a b s qa qb := by
  have hg := recommendG_pos (t (n - 1))
  set g := recommendG (t (n - 1)) with hgdef
  have hn := ht.pos
  have hmem : ∀ k < n, a k ∈ l ∧ b k ∈ l := by
    intro k hk
    rw [hl]
    simp only [List.mem_flatMap, List.mem_range]
    exact ⟨⟨k, hk, by simp⟩, ⟨k, hk, by simp⟩⟩
  have hlen : l.length = 2 * n := by rw [hl]; simp [List.length_flatMap, mul_comm]
  have hend : l.getLast? = some (b (n - 1)) := by
    rw [hl]
    obtain ⟨m, rfl⟩ : ∃ m, n = m + 1 := ⟨n - 1, by omega⟩
    rw [List.range_succ, List.flatMap_append]
    simp
  obtain ⟨r, hr, hrc, hr1, hr2⟩ : ∃ r, Range.covers (l.map (·.y)) = some r ∧ (∀ x ∈ l.map (·.y), r.contains x) ∧ r.start ∈ l.map (·.y) ∧ r.stop ∈ l.map (·.y) := by
    cases hc : l.map (·.y) with
    | nil => have := congrArg List.length hc; simp at this; rw [this] at hlen; simp at hlen; omega
    | cons v vs => exact Range.C55_covers v vs
  have hcont : ∀ u ∈ l, r.contains u.y := fun u hu => hrc _ (List.mem_map_of_mem (f := (·.y)) hu)
  have hmk : ∀ (u : Uncompressed), u ∈ l → ∀ k < n, u.x = t k → ∃ q, Node.make u.x u.y u.derivative g r = some q := by
    intro u hu k hk hux
    have hbd := ht.bounds hk
    have h65 : t k ≤ 65535 * g := by
      rw [hgdef, recommendG]
      split
      · linarith
      · linarith
    have hc := hcont u hu
    simp only [Range.contains] at hc
    obtain ⟨q, hq, -⟩ := C21_make (x := u.x) (d := u.derivative) hg (by rw [hux]; exact hbd.1) (by rw [hux]; exact h65) hc
    exact ⟨q, hq⟩
  have hqa : ∃ qa : ℕ → Node, ∀ k < n, Node.make (a k).x (a k).y (a k).derivative g r = some (qa k) := by
    refine ⟨fun k => if h : k < n then Classical.choose (hmk (a k) (hmem k h).1 k h (ha k h)) else ⟨0, 0, 0⟩, fun k hk => ?_⟩
    simp only [dif_pos hk]
    exact Classical.choose_spec (hmk (a k) (hmem k hk).1 k hk (ha k hk))
  have hqb : ∃ qb : ℕ → Node, ∀ k < n, Node.make (b k).x (b k).y (b k).derivative g r = some (qb k) := by
    refine ⟨fun k => if h : k < n then Classical.choose (hmk (b k) (hmem k h).2 k h (hb k h)) else ⟨0, 0, 0⟩, fun k hk => ?_⟩
    simp only [dif_pos hk]
    exact Classical.choose_spec (hmk (b k) (hmem k hk).2 k hk (hb k hk))
  obtain ⟨qa, hqa⟩ := hqa
  obtain ⟨qb, hqb⟩ := hqb
  have fa : ∀ k < n, ((qa k).x : ℤ) = ⌊t k / g + 1 / 2⌋ := fun k hk => by
    have := compactX_floor hg (make_some (hqa k hk)).1 (by rw [ha k hk]; exact (ht.bounds hk).1)
    rwa [ha k hk] at this
  have fb : ∀ k < n, ((qb k).x : ℤ) = ⌊t k / g + 1 / 2⌋ := fun k hk => by
    have := compactX_floor hg (make_some (hqb k hk)).1 (by rw [hb k hk]; exact (ht.bounds hk).1)
    rwa [hb k hk] at this
  have hx : ∀ k < n, (qa k).x = (qb k).x := fun k hk => by have := fa k hk; rw [← fb k hk] at this; exact_mod_cast this
  have hinc : ∀ k, k + 1 < n → (qb k).x < (qa (k + 1)).x := by
    intro k hk
    have h1 := fb k (by omega)
    have h2 := fa (k + 1) hk
    have : t k / g + 1 / 2 + 1 ≤ t (k + 1) / g + 1 / 2 := by
      have := ht.apart k hk
      rw [← hgdef] at this
      have : (t k + g) / g ≤ t (k + 1) / g := by gcongr
      rw [add_div, div_self hg.ne'] at this
      linarith
    have := Int.floor_le_floor this
    rw [Int.floor_add_one] at this
    omega
  have hinc' : ∀ j k, j < k → k < n → (qb j).x < (qa k).x := by
    intro j k hjk
    induction k, hjk using Nat.le_induction with
    | base => intro h; exact hinc j h
    | succ k hjk ih => intro h; have := ih (by omega); have := hinc k h; have := hx k (by omega); omega
  have hadd := addUncompressed_pairs (s := (Spline.create l.length).init r g) hqa hqb hx hinc rfl (by simp [Spline.init, Spline.create, hlen])
  have hex : (b (n - 1)).x = t (n - 1) := hb _ (by omega)
  refine ⟨{ (Spline.create l.length).init r g with nodes := (List.range n).flatMap fun k => kept (qa k) (qb k) }, qa, qb, ?_, ?_⟩
  · unfold createFromNodes
    rw [if_pos (by rw [hlen]; exact ht.few), initFromNodes, hend, Option.bind_some, hr, Option.bind_some, hex, ← hgdef]
    rw [show l = (List.range n).flatMap fun k => [a k, b k] from hl] at hadd ⊢
    exact hadd
  · have hne : 0 < ((List.range n).flatMap fun k => kept (qa k) (qb k)).length := by
      obtain ⟨m, rfl⟩ : ∃ m, n = m + 1 := ⟨n - 1, by omega⟩
      rw [List.range_succ, List.flatMap_append]
      obtain ⟨z, hz⟩ := kept_end (qa m) (qb m)
      simp [hz]
    have hlenk : ((List.range n).flatMap fun k => kept (qa k) (qb k)).length ≤ 2 * n := by
      rw [List.length_flatMap]
      calc ((List.range n).map fun k => (kept (qa k) (qb k)).length).sum ≤ ((List.range n).map fun k => (kept (qa k) (qb k)).length).length • 2 := by
            refine List.sum_le_card_nsmul _ _ ?_
            intro x hx
            obtain ⟨k, -, rfl⟩ := List.mem_map.mp hx
            unfold kept
            split <;> simp
        _ = 2 * n := by simp [mul_comm]
    refine ⟨?_, ?_, ?_, ?_, hqa, hqb, rfl, hx, hinc', fun k hk => ⟨hcont _ (hmem k hk).1, hcont _ (hmem k hk).2⟩, ?_⟩
    · exact addUncompressed_wf (wf_init _ r hg) hadd
    · have := ht.few
      exact ⟨hne, by simp only; omega⟩
    · simp only [Spline.init, ha (n - 1) (by omega)]; rfl
    · simp only [Spline.init, Spline.create, hlen]
    · obtain ⟨u, hu, hu1⟩ := List.mem_map.mp hr1
      obtain ⟨w, hw, hw1⟩ := List.mem_map.mp hr2
      rw [hl] at hu hw
      simp only [List.mem_flatMap, List.mem_range, List.mem_cons, List.not_mem_nil, or_false] at hu hw
      obtain ⟨j, hj, hj1⟩ := hu
      obtain ⟨k, hk, hk1⟩ := hw
      refine ⟨j, k, hj, hk, ?_, ?_⟩
      · rcases hj1 with rfl | rfl
        · exact Or.inl hu1.symm
        · exact Or.inr hu1.symm
      · rcases hk1 with rfl | rfl
        · exact Or.inl hw1.symm
        · exact Or.inr hw1.symm

/-! ### What the spline does -/

section use
variable {n : ℕ} {a b : ℕ → Uncompressed} {s : Spline} {qa qb : ℕ → Node}

/-- A node at the x of keyframe `k` is one of its two nodes. -/
theorem Made.at_key (h : Made n a b s qa qb) {k : ℕ} (hk : k < n) {m : Node} (hm : m ∈ s.nodes) (hx : m.x = (qa k).x) : m = qa k ∨ m = qb k := by
  rw [h.nodes] at hm
  simp only [List.mem_flatMap, List.mem_range] at hm
  obtain ⟨j, hj, hmj⟩ := hm
  have hmj : m = qa j ∨ m = qb j := by
    unfold kept at hmj
    split at hmj <;> simp at hmj
    · exact Or.inl hmj
    · exact hmj
  have hmx : m.x = (qa j).x := by
    rcases hmj with rfl | rfl
    · rfl
    · exact (h.same j hj).symm
  rcases lt_trichotomy j k with hjk | rfl | hjk
  · have := h.increasing j k hjk hk; have := h.same j hj; omega
  · exact hmj
  · have := h.increasing k j hjk hj; have := h.same k hk; omega

theorem Made.mem (h : Made n a b s qa qb) {k : ℕ} (hk : k < n) : qa k ∈ s.nodes ∧ qb k ∈ s.nodes := by
  rw [h.nodes]
  simp only [List.mem_flatMap, List.mem_range]
  obtain ⟨r, hr⟩ := kept_start (qa k) (qb k)
  obtain ⟨r', hr'⟩ := kept_end (qa k) (qb k)
  exact ⟨⟨k, hk, by rw [hr]; simp⟩, ⟨k, hk, by rw [hr']; simp⟩⟩

/-- The right node of a keyframe and the left node of the next one are neighbours. -/
theorem Made.neighbours (h : Made n a b s qa qb) {k : ℕ} (hk : k + 1 < n) : ∃ i, s.nodes[i]? = some (qb k) ∧ s.nodes[i + 1]? = some (qa (k + 1)) := by
  rw [h.nodes]
  obtain ⟨m, rfl⟩ : ∃ m, n = k + 2 + m := ⟨n - (k + 2), by omega⟩
  rw [List.range_add, List.flatMap_append, List.range_succ, List.flatMap_append, List.range_succ, List.flatMap_append]
  obtain ⟨r, hr⟩ := kept_start (qa (k + 1)) (qb (k + 1))
  obtain ⟨r', hr'⟩ := kept_end (qa k) (qb k)
  simp only [List.flatMap_cons, List.flatMap_nil, List.append_nil, hr, hr']
  refine ⟨(((List.range k).flatMap fun k => kept (qa k) (qb k)) ++ r').length, ?_, ?_⟩
  · simp only [← List.append_assoc]
    rw [List.append_assoc, List.append_assoc, List.getElem?_append_right (by simp)]
    simp
  · simp only [← List.append_assoc]
    rw [List.append_assoc, List.append_assoc, List.getElem?_append_right (by simp)]
    simp

/-- The first and the last node. -/
theorem Made.ends (h : Made n a b s qa qb) (hn : 0 < n) : s.nodes.head? = some (qa 0) ∧ s.nodes.getLast? = some (qb (n - 1)) := by
  rw [h.nodes]
  constructor
  · obtain ⟨m, rfl⟩ : ∃ m, n = m + 1 := ⟨n - 1, by omega⟩
    rw [List.range_succ_eq_map]
    obtain ⟨r, hr⟩ := kept_start (qa 0) (qb 0)
    simp [hr]
  · obtain ⟨m, rfl⟩ : ∃ m, n = m + 1 := ⟨n - 1, by omega⟩
    rw [List.range_succ, List.flatMap_append]
    obtain ⟨r, hr⟩ := kept_end (qa m) (qb m)
    simp [hr]

/-- A quantised node is near the real one. -/
structure Near (s : Spline) (q : Node) (u : Uncompressed) : Prop where
  time : |q.X s.g - u.x| ≤ s.g / 2
  below : q.Y s.yRange ≤ u.y
  value : u.y - q.Y s.yRange ≤ s.yRange.length / 65535
  angle : |Real.arctan q.D - Real.arctan u.derivative| < angleScale
  slower : |q.D| ≤ |u.derivative|

theorem near_of_make {s : Spline} (hs : 0 < s.g) {u : Uncompressed} {q : Node} (h : Node.make u.x u.y u.derivative s.g s.yRange = some q)
    (h0 : 0 ≤ u.x) (h1 : u.x ≤ 65535 * s.g) : Near s q u := by
  obtain ⟨e1, e2, e3⟩ := make_some h
  obtain ⟨-, hy⟩ := compactY_le e2
  obtain ⟨q', hq', -, b1, b2, b3, b4⟩ := C21_make (d := u.derivative) hs h0 h1 hy
  rw [h] at hq'
  cases hq'
  have hD := C21_derivative_accurate u.derivative q.x q.y
  simp only at hD
  refine ⟨b1, b2, b3, b4, ?_⟩
  have : (Node.mk q.x q.y (compactDerivative u.derivative)) = q := by rw [← e3]
  rw [this] at hD
  exact hD.2.1

theorem Made.near (h : Made n a b s qa qb) {t : ℕ → ℝ} (ht : Spaced n t) (ha : ∀ k < n, (a k).x = t k) (hb : ∀ k < n, (b k).x = t k) {k : ℕ} (hk : k < n) :
    Near s (qa k) (a k) ∧ Near s (qb k) (b k) := by
  have hg := h.wf.g_pos
  have hbd := ht.bounds hk
  have h65 : t k ≤ 65535 * s.g := by
    rw [h.g, ha _ (by omega), recommendG]
    split
    · linarith
    · linarith
  exact ⟨near_of_make hg (h.left k hk) (by rw [ha k hk]; exact hbd.1) (by rw [ha k hk]; exact h65),
    near_of_make hg (h.right k hk) (by rw [hb k hk]; exact hbd.1) (by rw [hb k hk]; exact h65)⟩

end use

end

end Motive.Util
