import Verif.SplineProc.Target
import Verif.Spline.BulkProps
/-!
# Model of `SplineMotiveProcessor::SetTarget` (src/motive/processor/spline_processor.cpp:144-203, 293-311)

One dimension: the record of the evaluator, the local spline and the target.  Which spline object is the local one, and that nobody else owns
it, is C40.
-/

namespace Motive.Targets
open Motive.Math Motive.Curve Motive.Splines

noncomputable section

/-- `kYRangeBufferPercent` (spline_processor.cpp:25). -/
def kYRangeBufferPercent : ℝ := 12 / 10

/-- `override_current` (spline_processor.cpp:153-154). -/
def overrides (c : Slot) (n0 : MNode ℝ) : Bool := n0.time = 0 || c.spline.isNone

/-- The value that a node asks for, normalised for modular values (spline_processor.cpp:161-164, 190-193). -/
def wanted (c : Slot) (v : ℝ) : Option ℝ := if c.modRange.valid then c.modRange.normalizeWild v else some v

/-- `start_y` (spline_processor.cpp:159-165); `NormalizedY` is `NormalizeY(index, Y(index))` (bulk_spline_evaluator.h:138-140). -/
def startY (c : Slot) (n0 : MNode ℝ) : Option ℝ := if overrides c n0 then wanted c n0.value else c.normalizeY c.y

/-- `start_derivative` (spline_processor.cpp:166-167). -/
def startD (c : Slot) (n0 : MNode ℝ) : ℝ := if overrides c n0 then n0.velocity else c.derivative

/-- The nodes from `start_node_index` on (spline_processor.cpp:168, 188). -/
def rest (c : Slot) (t : Target ℝ) (n0 : MNode ℝ) : List (MNode ℝ) := if overrides c n0 then t.nodes.drop 1 else t.nodes

/-- `CalculateYRange` (spline_processor.cpp:293-311). -/
def yRange (c : Slot) (t : Target ℝ) (start : ℝ) : Option (Range ℝ) :=
  if c.modRange.valid then some (c.modRange.lengthen (t.numNodes : ℝ))
  else (t.valueRange start).map fun r => r.lengthen kYRangeBufferPercent

/-- The loop of `SetTarget` (spline_processor.cpp:187-198). -/
def nodeLoop (c : Slot) (s : Spline) (prev : ℝ) : List (MNode ℝ) → Option Spline
  | [] => some s
  | n :: ns =>
    (wanted c n.value).bind fun v =>
      (c.nextY prev v n.dir).bind fun y =>
        (s.addNode (n.time : ℝ) y n.velocity .withoutModification).bind fun s' => nodeLoop c s' y ns

/-- The spline that `SetTarget` writes over the local spline `loc` (spline_processor.cpp:147-198). The first `AddNode` uses the default
method, `kEnsureCubicWellBehaved` (compact_spline.h:147-148). -/
def targetSpline (c : Slot) (loc : Spline) (t : Target ℝ) : Option Spline :=
  t.nodes.head?.bind fun n0 =>
    (startY c n0).bind fun y0 =>
      t.endTime.bind fun e =>
        (yRange c t y0).bind fun r =>
          ((loc.init r (Spline.recommendG (e : ℝ))).addNode 0 y0 (startD c n0) .ensureWellBehaved).bind fun s =>
            nodeLoop c s y0 (rest c t n0)

/-- `SetTarget` (spline_processor.cpp:146-203): the new memory, and the record that starts to play the local spline `id`. -/
def setTarget (h : Heap) (c : Slot) (id : ℕ) (t : Target ℝ) : Option (Heap × Slot) :=
  (h id).bind fun loc =>
    (targetSpline c loc t).bind fun s =>
      let h' : Heap := fun j => if j = id then some s else h j
      (c.setSpline h' id {}).map fun c' => (h', c')

/-! ### Adding nodes that are more than a grain apart -/

/-- The values that the loop asks for, one after the other: each is `NextY` of the one before. -/
def unwrap (c : Slot) (prev : ℝ) : List (MNode ℝ) → Option (List ℝ)
  | [] => some []
  | n :: ns =>
    (wanted c n.value).bind fun v => (c.nextY prev v n.dir).bind fun y => (unwrap c y ns).map fun ys => y :: ys

/-- How a stored node relates to what was asked for: time within half a grain, value not above and at most one rung below, velocity within one
unit of angle. -/
structure Stored (s : Spline) (x y d : ℝ) (n : Node) : Prop where
  ok : n.Ok
  near : |n.X s.g - x| ≤ s.g / 2
  grid : (n.x : ℤ) = ⌊x / s.g + 1 / 2⌋
  below : n.Y s.yRange ≤ y
  rung : y - n.Y s.yRange ≤ s.yRange.length / 65535
  slope : |Real.arctan n.D - Real.arctan d| < angleScale

theorem make_stored {s : Spline} (hg : 0 < s.g) {x y d : ℝ} (h0 : 0 ≤ x) (h1 : x ≤ 65535 * s.g)
    (hy : s.yRange.start ≤ y ∧ y ≤ s.yRange.stop) : ∃ n, Node.make x y d s.g s.yRange = some n ∧ Stored s x y d n := by
  obtain ⟨n, e, a1, a2, a3, a4, a5⟩ := C21_make (d := d) hg h0 h1 hy
  exact ⟨n, e, a1, a2, compactX_floor hg (make_some e).1 h0, a3, a4, a5⟩

theorem grid_lt {g x x' : ℝ} (hg : 0 < g) (h : x + g ≤ x') : ⌊x / g + 1 / 2⌋ < ⌊x' / g + 1 / 2⌋ := by
  have h1 : x / g + 1 ≤ x' / g := by
    have : (x + g) / g ≤ x' / g := by rw [div_le_div_iff_of_pos_right hg]; exact h
    rwa [add_div, div_self hg.ne'] at this
  have := Int.floor_le (x / g + 1 / 2)
  have : ⌊x / g + 1 / 2⌋ + 1 ≤ ⌊x' / g + 1 / 2⌋ := Int.le_floor.mpr (by push_cast; linarith)
  omega

/-- The times of the nodes are more than a grain apart, starting from `prev`. -/
def Apart (g : ℝ) (prev : ℝ) : List (MNode ℝ) → Prop
  | [] => True
  | n :: ns => prev + g ≤ n.time ∧ Apart g n.time ns

theorem nodeLoop_spec (c : Slot) : ∀ (ns : List (MNode ℝ)) (s : Spline) (prev px : ℝ) (ys : List ℝ), 0 < s.g →
    unwrap c prev ns = some ys → (∀ y ∈ ys, s.yRange.start ≤ y ∧ y ≤ s.yRange.stop) →
    Apart s.g px ns → 0 ≤ px → (∀ n ∈ ns, (n.time : ℝ) ≤ 65535 * s.g) →
    ∀ b, s.nodes.getLast? = some b → (b.x : ℤ) = ⌊px / s.g + 1 / 2⌋ →
    s.nodes.length + ns.length ≤ s.maxNodes →
    ∃ l, (b :: l).Pairwise (fun m m' => m.x < m'.x) ∧ nodeLoop c s prev ns = some { s with nodes := s.nodes ++ l } ∧ ys.length = ns.length ∧ l.length = ns.length ∧
      (∀ (i : ℕ) (n : MNode ℝ) (y : ℝ) (m : Node), ns[i]? = some n → ys[i]? = some y → l[i]? = some m → Stored s n.time y n.velocity m) := by
  intro ns
  induction ns with
  | nil =>
    intro s prev px ys hg hu _ _ _ _ b _ _ _
    simp [unwrap] at hu
    subst hu
    exact ⟨[], by simp, by simp [nodeLoop], rfl, rfl, by simp⟩
  | cons n ns ih =>
    intro s prev px ys hg hu hy hap hpx htime b hb hbx hcap
    simp only [unwrap, Option.bind_eq_some_iff, Option.map_eq_some_iff] at hu
    obtain ⟨v, hv, y, hny, ys', hu', rfl⟩ := hu
    obtain ⟨hgap, hap'⟩ := hap
    have hx0 : (0 : ℝ) ≤ n.time := by linarith
    have hx1 := htime n (by simp)
    obtain ⟨m, hm, hst⟩ := make_stored (d := n.velocity) hg hx0 hx1 (hy y (by simp))
    have hlt : b.x < m.x := by
      have := grid_lt hg hgap
      rw [← hbx, ← hst.grid] at this
      omega
    simp only [List.length_cons] at hcap
    have hadd : s.addNode (n.time : ℝ) y n.velocity .withoutModification = some { s with nodes := s.nodes ++ [m] } := by
      unfold Spline.addNode
      rw [hm]
      simp only [Option.bind_some, hb]
      rw [if_neg (by omega), if_neg (by rintro rfl; omega), if_neg (by omega)]
      simp only [reduceCtorEq, if_false, Spline.addVerbatim]
      rw [if_pos (by omega)]
    obtain ⟨l, h0, h1, h2, h3, h4⟩ := ih { s with nodes := s.nodes ++ [m] } y n.time ys' hg hu' (fun z hz => hy z (by simp [hz])) hap' hx0
      (fun k hk => htime k (by simp [hk])) m (by simp) hst.grid (by simp; omega)
    refine ⟨m :: l, ?_, ?_, by simp [h2], by simp [h3], ?_⟩
    · refine List.pairwise_cons.mpr ⟨?_, h0⟩
      intro k hk
      rcases List.mem_cons.mp hk with rfl | hk
      · exact hlt
      · exact hlt.trans ((List.pairwise_cons.mp h0).1 k hk)
    · simp only [nodeLoop, hv, Option.bind_some, hny, hadd, h1]
      simp
    · intro i k z w hk hz hw
      match i with
      | 0 => simp at hk hz hw; subst hk hz hw; exact hst
      | i + 1 =>
        simp at hk hz hw
        have := h4 i k z w hk hz hw
        exact ⟨this.ok, this.near, this.grid, this.below, this.rung, this.slope⟩

theorem recommendG_pos (e : ℝ) : 0 < Spline.recommendG e := by
  unfold Spline.recommendG; split <;> [norm_num; (rename_i h; push Not at h; positivity)]

theorem le_recommendG (e : ℝ) : e ≤ 65535 * Spline.recommendG e := by
  unfold Spline.recommendG; split <;> linarith

/-- The spline that `SetTarget` makes. -/
theorem targetSpline_spec {c : Slot} {loc : Spline} {t : Target ℝ} {n0 : MNode ℝ} {y0 : ℝ} {e : ℤ} {r : Range ℝ} {ys : List ℝ}
    (hn0 : t.nodes.head? = some n0) (hy0 : startY c n0 = some y0) (he : t.endTime = some e) (hr : yRange c t y0 = some r)
    (hin : r.start ≤ y0 ∧ y0 ≤ r.stop) (hu : unwrap c y0 (rest c t n0) = some ys) (hys : ∀ y ∈ ys, r.start ≤ y ∧ y ≤ r.stop)
    (hap : Apart (Spline.recommendG e) 0 (rest c t n0)) (htime : ∀ n ∈ rest c t n0, n.time ≤ e)
    (hcap : (rest c t n0).length + 1 ≤ loc.maxNodes) :
    ∃ s a l, targetSpline c loc t = some s ∧ s.g = Spline.recommendG e ∧ s.yRange = r ∧ s.nodes = a :: l ∧ a.x = 0 ∧ s.WF ∧
      (a :: l).Pairwise (fun m m' => m.x < m'.x) ∧ Stored s 0 y0 (startD c n0) a ∧ ys.length = (rest c t n0).length ∧
      l.length = (rest c t n0).length ∧
      (∀ (i : ℕ) (n : MNode ℝ) (y : ℝ) (m : Node), (rest c t n0)[i]? = some n → ys[i]? = some y → l[i]? = some m →
        Stored s n.time y n.velocity m) := by
  have hg := recommendG_pos (e : ℝ)
  set s0 := loc.init r (Spline.recommendG (e : ℝ)) with hs0
  obtain ⟨a, ha, hst⟩ := make_stored (s := s0) (x := 0) (y := y0) (d := startD c n0) hg le_rfl
    (by have : (0 : ℝ) < 65535 * s0.g := by have : 0 < s0.g := hg
                                            linarith
        linarith) hin
  have ha0 : a.x = 0 := by
    have := hst.grid
    rw [zero_div, zero_add, show ⌊(1 / 2 : ℝ)⌋ = 0 by norm_num [Int.floor_eq_iff]] at this
    exact_mod_cast this
  have hadd : s0.addNode 0 y0 (startD c n0) .ensureWellBehaved = some { s0 with nodes := [a] } := by
    unfold Spline.addNode
    rw [ha]
    simp only [Option.bind_some, hs0, Spline.init, List.getLast?_nil, Spline.addVerbatim, List.length_nil, List.nil_append]
    rw [if_pos (by omega)]
  obtain ⟨l, h0, h1, h2, h3, h4⟩ := nodeLoop_spec c (rest c t n0) { s0 with nodes := [a] } y0 0 ys hg hu hys hap le_rfl
    (fun n hn => by
      have : (n.time : ℝ) ≤ e := by exact_mod_cast htime n hn
      exact this.trans (le_recommendG _))
    a (by simp) hst.grid (by simp [hs0, Spline.init]; omega)
  have hx : ∀ m ∈ a :: l, m.Ok := by
    intro m hm
    rcases List.mem_cons.mp hm with rfl | hm
    · exact hst.ok
    · obtain ⟨i, hi⟩ := List.mem_iff_getElem?.mp hm
      have hlt := (List.getElem?_eq_some_iff.mp hi).1
      exact (h4 i _ _ m (List.getElem?_eq_getElem (by omega)) (List.getElem?_eq_getElem (by omega)) hi).ok
  have hlt : ∀ {i j : ℕ} {p q : Node}, i < j → (a :: l)[i]? = some p → (a :: l)[j]? = some q → p.x < q.x := by
    intro i j p q hij hp hq
    obtain ⟨h5, rfl⟩ := List.getElem?_eq_some_iff.mp hp
    obtain ⟨h6, rfl⟩ := List.getElem?_eq_some_iff.mp hq
    exact List.pairwise_iff_getElem.mp h0 i j h5 h6 hij
  refine ⟨{ s0 with nodes := a :: l }, a, l, ?_, rfl, rfl, rfl, ha0, ?_, h0, ?_, h2, h3, ?_⟩
  · simp only [targetSpline, hn0, hy0, he, hr, Option.bind_some]
    rw [← hs0, hadd]
    simp only [Option.bind_some]
    rw [h1]; rfl
  · refine ⟨hg, ?_, ?_, ?_, ?_⟩
    · intro i p q hp hq
      exact (hlt (by omega) hp hq).le
    · intro i p q hp hq
      have := hlt (by omega) hp hq
      omega
    · simp only [List.length_cons, hs0, Spline.init]; omega
    · exact hx
  · exact ⟨hst.ok, hst.near, hst.grid, hst.below, hst.rung, hst.slope⟩
  · intro i n y m h5 h6 h7
    have := h4 i n y m h5 h6 h7
    exact ⟨this.ok, this.near, this.grid, this.below, this.rung, this.slope⟩

end
end Motive.Targets
