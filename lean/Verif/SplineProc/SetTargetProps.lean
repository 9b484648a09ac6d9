import Verif.SplineProc.SetTarget
import Verif.SplineProc.Forever
/-!
# C41: `SetTarget` starts where it should, and reaches the waypoints
-/

namespace Motive.Targets
open Motive.Math Motive.Curve Motive.Splines

noncomputable section

/-- Playing a spline whose node `k` is the last one at 0 starts with the value and the slope of that node. -/
theorem setSpline_start {hp : Heap} {s : Spline} (hs : s.WF) (hn : s.Indexable) {id : ℕ} (hh : hp id = some s) (c : Slot)
    {k : ℕ} {a b : Node} (ha : s.nodes[k]? = some a) (hb : s.nodes[k + 1]? = some b) (ha0 : a.x = 0) (hab : a.x < b.x) :
    ∃ c', c.setSpline hp id {} = some c' ∧ c'.y = a.Y s.yRange ∧ c'.derivative = a.D := by
  have hg := hs.g_pos
  have hlen : k + 2 ≤ s.nodes.length := (List.getElem?_eq_some_iff.mp hb).1
  have hq : quantizeX 0 s.g = some 0 := by
    rw [quantizeX_eq hg (by linarith) (by norm_num)]
    norm_num [Int.floor_eq_iff]
  obtain ⟨i, f, l, hi, hf, hl, -, -, hmid⟩ := Spline.C23_index_for_x hs hn hq ((kInvalid + 1) % 65536)
  have hbl : b.x ≤ l.x := hs.sorted.le (by omega) hb hl
  have hfa : f.x ≤ a.x := hs.sorted.le (by omega) hf ha
  obtain ⟨a', c', hi1, ha', hc', h1, -, h2, -⟩ := hmid (by omega) (by omega) (by omega)
  have h3 := h2 (by omega)
  have hi0 : i = k := by
    rcases lt_trichotomy i k with h | h | h
    · have := hs.sorted.le (show i + 1 ≤ k by omega) hc' ha
      omega
    · exact h
    · have := hs.sorted.le (show k + 1 ≤ i by omega) hb ha'
      omega
  subst hi0
  have hmax := hn.2
  have g1 : i ≠ kBefore := by simp only [kBefore]; omega
  have g2 : i ≠ kAfter := by simp only [kAfter]; omega
  have g3 : outside i = false := by unfold outside kAfter; exact decide_eq_false (by omega)
  have hX : a.X s.g = 0 := by simp [Node.X, ha0]
  have hH := (Spline.hermite_iff hg hab _).mpr rfl
  rw [ha] at ha'; cases ha'
  rw [hb] at hc'; cases hc'
  have hset : c.setSpline hp id {} = some (Slot.evaluate { c with
      rate := 1, yOffset := 0, yScale := 1, spline := some id, xIndex := i, rep := false, cubicX := 0 - a.X s.g
      cubicXEnd := ((b.X s.g - a.X s.g : ℝ) : WithTop ℝ)
      cubic := ((Cubic.init (s.cubicInit a b)).scaleUp 1).shiftUp 0 }) := by
    unfold Slot.setSpline
    rw [if_neg (by simp)]
    unfold Slot.jumpTo Slot.initCubic
    simp [hh, Spline.indexForXRepeat, hi, Spline.rangeX, g1, g2, ha, hb, Spline.cubicInitAt, g3]
  refine ⟨_, hset, ?_, ?_⟩
  · simp only [Slot.evaluate, hX, sub_zero, Cubic.eval, Cubic.scaleUp, Cubic.shiftUp]
    have := hH.1
    simp only [Cubic.eval] at this
    linarith
  · simp only [Slot.derivative, Slot.evaluate, hX, sub_zero, Cubic.deriv, Cubic.scaleUp, Cubic.shiftUp]
    have := hH.2.1
    simp only [Cubic.deriv] at this
    linarith

/-- Specification: after frames that sum to the time of a waypoint, exactly when that time is on the grid and to half a grain otherwise, the
record has the value and velocity that the waypoint asks for, up to quantisation: at most one rung (1/65535 of the y-range) below the value
and less than one unit (`kAngleScale`) away from the angle of the velocity. -/
def Within (r : Range ℝ) (y d : ℝ) (c : Slot) : Prop :=
  c.y ≤ y ∧ y - c.y ≤ r.length / 65535 ∧ |Real.arctan c.derivative - Real.arctan d| < angleScale

/-- `n` frames. -/
def frames (h : Heap) (c : Slot) (dxs : List ℝ) : Option Slot := dxs.foldlM (fun c dx => c.advance h dx) c

/-- Frames, as events of a motivator. -/
theorem replay_frames (h : Heap) (dxs : List ℝ) : ∀ c : Slot, Proc.Vector.replay (SplineProc.machine h) c (dxs.map .inr) = frames h c dxs := by
  induction dxs with
  | nil => intro c; rfl
  | cons d ds ih =>
    intro c
    have h1 : Proc.Vector.replay (SplineProc.machine h) c ((d :: ds).map .inr) =
      (c.advance h d).bind fun c => Proc.Vector.replay (SplineProc.machine h) c (ds.map .inr) := rfl
    have h2 : frames h c (d :: ds) = (c.advance h d).bind fun c => frames h c ds := rfl
    rw [h1, h2]
    exact congrArg _ (funext ih)

theorem clock_frames (dxs : List ℝ) : ∀ x r : ℝ, (dxs.map .inr).foldl SplineProc.clock (x, r) = (x + dxs.sum * r, r) := by
  induction dxs with
  | nil => intro x r; simp
  | cons d ds ih =>
    intro x r
    rw [List.map_cons, List.foldl_cons]
    show (ds.map .inr).foldl SplineProc.clock (x + d * r, r) = _
    rw [ih, List.sum_cons]
    congr 1
    ring

theorem strides_frames {M r : ℝ} : ∀ dxs : List ℝ, (∀ d ∈ dxs, d * r ≤ M) → SplineProc.Strides M r (dxs.map .inr) := by
  intro dxs
  induction dxs with
  | nil => intro _; trivial
  | cons d ds ih => intro h; exact ⟨h d (by simp), ih fun x hx => h x (by simp [hx])⟩

theorem setTarget_spec {h : Heap} {id : ℕ} {c : Slot} {loc : Spline} {t : Target ℝ} {n0 : MNode ℝ} {y0 : ℝ} {e : ℤ} {r : Range ℝ} {ys : List ℝ}
    (hloc : h id = some loc)
    (hn0 : t.nodes.head? = some n0) (hy0 : startY c n0 = some y0) (he : t.endTime = some e) (hr : yRange c t y0 = some r)
    (hin : r.start ≤ y0 ∧ y0 ≤ r.stop) (hu : unwrap c y0 (rest c t n0) = some ys) (hys : ∀ y ∈ ys, r.start ≤ y ∧ y ≤ r.stop)
    (hap : Apart (Spline.recommendG e) 0 (rest c t n0)) (htime : ∀ n ∈ rest c t n0, n.time ≤ e)
    (he0 : 0 ≤ e) (hcap : (rest c t n0).length + 1 ≤ loc.maxNodes) (hlen : (rest c t n0).length ≤ 65533) :
    ∃ h' c', setTarget h c id t = some (h', c') ∧
      c'.y ≤ y0 ∧ y0 - c'.y ≤ r.length / 65535 ∧
      (rest c t n0 ≠ [] → Within r y0 (startD c n0) c') ∧
      (∀ (i : ℕ) (n : MNode ℝ) (y : ℝ), (rest c t n0)[i]? = some n → ys[i]? = some y →
        ∃ T : ℝ, |T - n.time| ≤ Spline.recommendG e / 2 ∧ (n.time = e → T = e) ∧ 0 ≤ T ∧
          ∀ dxs : List ℝ, (∀ d ∈ dxs, 0 ≤ d) → dxs.sum = T → ∃ c'', frames h' c' dxs = some c'' ∧ Within r y n.velocity c'') ∧
      (∀ dxs : List ℝ, (∀ d ∈ dxs, 0 ≤ d ∧ d ≤ 2147000000 * Spline.recommendG e) → ∃ c'', frames h' c' dxs = some c'') ∧
      ∃ v, (∀ (y : ℝ), (y0 :: ys).getLast? = some y → v ≤ y ∧ y - v ≤ r.length / 65535) ∧
        ∀ dxs : List ℝ, (∀ d ∈ dxs, 0 ≤ d ∧ d ≤ 2147000000 * Spline.recommendG e) → (e : ℝ) + Spline.recommendG e / 2 < dxs.sum →
          ∃ c'', frames h' c' dxs = some c'' ∧ c''.y = v ∧ c''.derivative = 0 := by
  obtain ⟨s, a, l, hts, hsg, hsr, hnodes, ha0, hwf, hpw, hst0, hyl, hll, hst⟩ :=
    targetSpline_spec hn0 hy0 he hr hin hu hys hap htime hcap
  have hg : 0 < s.g := hwf.g_pos
  have hidx : s.Indexable := by
    refine ⟨?_, ?_⟩ <;> rw [hnodes] <;> simp only [List.length_cons] <;> omega
  set h' : Heap := fun j => if j = id then some s else h j with hh'
  have hh : h' id = some s := by simp [hh']
  have hlt : ∀ {i j : ℕ} {p q : Node}, i < j → s.nodes[i]? = some p → s.nodes[j]? = some q → p.x < q.x := by
    intro i j p q hij hp hq
    rw [hnodes] at hp hq
    obtain ⟨h5, rfl⟩ := List.getElem?_eq_some_iff.mp hp
    obtain ⟨h6, rfl⟩ := List.getElem?_eq_some_iff.mp hq
    exact List.pairwise_iff_getElem.mp hpw i j h5 h6 hij
  have hepos : rest c t n0 ≠ [] → 0 < e := by
    intro hne
    obtain ⟨n, ns, hns⟩ := List.exists_cons_of_ne_nil hne
    rw [hns] at hap
    have h1 : (0 : ℝ) + Spline.recommendG e ≤ n.time := hap.1
    have h2 : n.time ≤ e := htime n (by rw [hns]; simp)
    have h3 : (0 : ℝ) < n.time := by have := recommendG_pos (e : ℝ); linarith
    have : (0 : ℤ) < n.time := by exact_mod_cast h3
    omega
  have hge : 0 < e → s.g = (e : ℝ) / 65535 := by
    intro h0
    have : (0 : ℝ) < e := by exact_mod_cast h0
    rw [hsg]; unfold Spline.recommendG; rw [if_neg (by linarith)]
  obtain ⟨b, hb⟩ : ∃ b, s.nodes[s.nodes.length - 1]? = some b :=
    ⟨_, List.getElem?_eq_getElem (by rw [hnodes]; simp)⟩
  have hblast : s.nodes.getLast? = some b := by rw [List.getLast?_eq_getElem?]; exact hb
  have hend : s.endX = some (b.X s.g) := by unfold Spline.endX; rw [hblast]; rfl
  have hmemx : ∀ m ∈ s.nodes, m.X s.g ≤ e ∧ 0 ≤ m.X s.g ∧ m.X s.g ≤ 65535 * s.g := by
    intro m hm
    have h65 : (m.x : ℝ) ≤ 65535 := by exact_mod_cast (hwf.ok m hm).1
    refine ⟨?_, by simp only [Node.X]; positivity, ?_⟩
    · by_cases hne : rest c t n0 = []
      · have : l = [] := by rw [hne] at hll; simpa using hll
        rw [hnodes, this] at hm
        simp only [List.mem_singleton] at hm
        subst hm
        have : (0 : ℝ) ≤ e := by exact_mod_cast he0
        simpa [Node.X, ha0] using this
      · have h1 := hge (hepos hne)
        have : (0 : ℝ) < e := by exact_mod_cast hepos hne
        simp only [Node.X]
        have h2 : (m.x : ℝ) * s.g ≤ 65535 * s.g := mul_le_mul_of_nonneg_right h65 hg.le
        have h3 : 65535 * s.g = e := by rw [h1]; ring
        linarith
    · simp only [Node.X]
      exact mul_le_mul_of_nonneg_right h65 hg.le
  have hbm := hmemx b (List.mem_of_getElem? hb)
  have hplay : ∀ dxs : List ℝ, (∀ d ∈ dxs, 0 ≤ d ∧ d ≤ 2147000000 * s.g) →
      ∃ c'', c.play h' id {} dxs = some c'' ∧ SplineProc.Shows s {} c'' dxs.sum := by
    intro dxs hd
    obtain ⟨b', -, h0⟩ := SplineProc.C96_plays (M := 2147000000 * s.g) hwf hidx hh hend c {}
      (fun hb => absurd hb.2 (lt_irrefl _)) le_rfl (by norm_num) (by simp) (by positivity) (by
      have : (({} : Playback).startX + b.X s.g + max ({} : Playback).blendX 0 * ({} : Playback).rate + 2147000000 * s.g) / s.g ≤ 2147065535 := by
        rw [div_le_iff₀ hg]
        show (0 : ℝ) + b.X s.g + max 0 0 * 1 + 2147000000 * s.g ≤ _
        rw [max_self]
        linarith [hbm.2.2]
      linarith)
    obtain ⟨c'', X, h1, -, h2, -, -, h3⟩ := h0 (dxs.map .inr)
      (by intro v hv; obtain ⟨d, hd', rfl⟩ := List.mem_map.mp hv; exact (hd d hd').1)
      (strides_frames dxs fun d hd' => by show d * 1 ≤ _; rw [mul_one]; exact (hd d hd').2)
    rw [clock_frames] at h2 h3
    have h4 : X = dxs.sum := by rw [h2 rfl]; show (0 : ℝ) + dxs.sum * 1 = _; ring
    rw [h4] at h3
    have h5 : Proc.Vector.replay (SplineProc.machine h') c (.inl (.play id {}) :: dxs.map .inr) =
      (c.setSpline h' id {}).bind fun d => Proc.Vector.replay (SplineProc.machine h') d (dxs.map .inr) := rfl
    rw [h5] at h1
    refine ⟨c'', ?_, h3 fun hb => absurd hb.1.2 (lt_irrefl _)⟩
    rw [← h1]
    unfold Slot.play
    exact congrArg _ (funext fun d => (replay_frames h' dxs d).symm)
  obtain ⟨c', hc', hrep0⟩ := hplay [] (by simp)
  have hset : c.setSpline h' id {} = some c' := by
    unfold Slot.play at hc'
    cases hs' : c.setSpline h' id {} with
    | none => rw [hs'] at hc'; simp at hc'
    | some c1 => rw [hs'] at hc'; simpa using hc'
  have hframes : ∀ dxs, frames h' c' dxs = c.play h' id {} dxs := by
    intro dxs; unfold frames Slot.play; rw [hset]; rfl
  have hna : s.nodes[0]? = some a := by rw [hnodes]; rfl
  have hstart : c'.y = a.Y s.yRange := by
    have := ((hrep0.reports (by simp; norm_num)).2 0 a hna (by omega) (fun m hm => hlt (by omega) hna hm) (by simp [Node.X, ha0])).1
    rw [this]
    show (1 : ℝ) * _ + 0 = _
    ring
  have hyr := hsr
  refine ⟨h', c', ?_, ?_, ?_, ?_, ?_, ?_, ?_⟩
  · unfold setTarget
    rw [hloc]
    simp only [Option.bind_some, hts]
    rw [← hh', hset]; rfl
  · rw [hstart]; exact hst0.below
  · rw [hstart, ← hsr]; exact hst0.rung
  · intro hne
    obtain ⟨m, l', hl'⟩ := List.exists_cons_of_ne_nil (show l ≠ [] by
      intro h0; rw [h0] at hll; exact hne (List.eq_nil_of_length_eq_zero hll.symm))
    have hnb : s.nodes[0 + 1]? = some m := by rw [hnodes, hl']; rfl
    obtain ⟨c1, h1, h2, h3⟩ := setSpline_start hwf hidx hh c hna hnb ha0 (hlt (by omega) hna hnb)
    rw [hset] at h1; cases h1
    refine ⟨?_, ?_, ?_⟩
    · rw [hstart]; exact hst0.below
    · rw [hstart, ← hsr]; exact hst0.rung
    · rw [h3]; exact hst0.slope
  · intro i n y hi hy
    have hilt := (List.getElem?_eq_some_iff.mp hi).1
    obtain ⟨m, hm⟩ : ∃ m, l[i]? = some m := ⟨_, List.getElem?_eq_getElem (by omega)⟩
    have hsto := hst i n y m hi hy hm
    have hm1 : s.nodes[i + 1]? = some m := by rw [hnodes]; simpa using hm
    have hmx := hmemx m (List.mem_of_getElem? hm1)
    refine ⟨m.X s.g, ?_, ?_, hmx.2.1, ?_⟩
    · rw [← hsg]; exact hsto.near
    · intro hne
      have h0 : 0 < e := hepos (by intro h0; rw [h0] at hi; simp at hi)
      have h0' : (0 : ℝ) < e := by exact_mod_cast h0
      have h1 := hge h0
      have h2 := hsto.grid
      rw [hne, show (e : ℝ) / s.g + 1 / 2 = 65535 + 1 / 2 by rw [h1]; field_simp,
        show ⌊(65535 + 1 / 2 : ℝ)⌋ = 65535 by norm_num [Int.floor_eq_iff]] at h2
      have h3 : (m.x : ℝ) = 65535 := by exact_mod_cast h2
      simp only [Node.X]
      rw [h3, h1]; ring
    · intro dxs hd hsum
      obtain ⟨c'', h1, h2⟩ := hplay dxs (fun d hd' => ⟨hd d hd', by
        have := List.single_le_sum hd d hd'
        linarith [hmx.2.2]⟩)
      obtain ⟨h3, h4⟩ := (h2.reports (by
        rw [hsum]
        have : m.X s.g / s.g ≤ 65535 := by rw [div_le_iff₀ hg]; exact hmx.2.2
        linarith)).2 (i + 1) m hm1 (fun p _ hp => hlt (by omega) hp hm1) (fun p hp => hlt (by omega) hm1 hp) hsum
      refine ⟨c'', by rw [hframes]; exact h1, ?_⟩
      have h3' : c''.y = m.Y s.yRange := by rw [h3]; show (1 : ℝ) * _ + 0 = _; ring
      have h4' : c''.derivative = m.D := by rw [h4 (by omega)]; show (1 : ℝ) * (1 * _) = _; ring
      exact ⟨by rw [h3']; exact hsto.below, by rw [h3', ← hsr]; exact hsto.rung, by rw [h4']; exact hsto.slope⟩
  · intro dxs hd
    rw [← hsg] at hd
    obtain ⟨c'', h1, -⟩ := hplay dxs hd
    exact ⟨c'', by rw [hframes]; exact h1⟩
  · refine ⟨b.Y s.yRange, ?_, ?_⟩
    · intro y hy
      rcases Nat.eq_zero_or_pos l.length with hl0 | hl0
      · have h1 : l = [] := List.eq_nil_of_length_eq_zero hl0
        have h2 : ys = [] := List.eq_nil_of_length_eq_zero (by omega)
        rw [h2] at hy; simp at hy; subst hy
        rw [hnodes, h1] at hb; simp at hb; subst hb
        exact ⟨hst0.below, by rw [← hsr]; exact hst0.rung⟩
      · rw [List.getLast?_eq_getElem?] at hy
        have hy' : ys[l.length - 1]? = some y := by
          have : (y0 :: ys).length - 1 = (l.length - 1) + 1 := by simp only [List.length_cons]; omega
          rw [this] at hy; simpa using hy
        have hb' : l[l.length - 1]? = some b := by
          have : s.nodes.length - 1 = (l.length - 1) + 1 := by rw [hnodes]; simp only [List.length_cons]; omega
          rw [this, hnodes] at hb; simpa using hb
        have := hst (l.length - 1) _ y b (List.getElem?_eq_getElem (by omega)) hy' hb'
        exact ⟨this.below, by rw [← hsr]; exact this.rung⟩
    · intro dxs hd hsum
      rw [← hsg] at hsum hd
      obtain ⟨c'', h1, h2⟩ := hplay dxs hd
      obtain ⟨h3, h4⟩ := h2.rests _ (b.Y s.yRange) hend (by unfold Spline.endY; rw [hblast]; rfl) (by linarith [hbm.1])
      refine ⟨c'', by rw [hframes]; exact h1, ?_, h4⟩
      rw [h3]; show (1 : ℝ) * _ + 0 = _; ring

/-! ### Specification -/

/-- Waypoints are at least a grain apart: the grain is `EndTime / 65535`. -/
def Spaced (t : Target ℝ) : Prop :=
  ∀ e, t.endTime = some e → (∀ n ∈ t.nodes, n.time = 0 ∨ e ≤ 65535 * n.time) ∧ t.nodes.Pairwise fun a b => e ≤ 65535 * (b.time - a.time)

/-- The waypoint's value and velocity are reported at its time, which is met up to half a grain `g`, and exactly if it is the last one. -/
def Visits (h : Heap) (c : Slot) (g : ℝ) (e : ℤ) (r : Range ℝ) (y : ℝ) (n : MNode ℝ) : Prop :=
  ∃ T : ℝ, |T - n.time| ≤ g / 2 ∧ (n.time = e → T = e) ∧ 0 ≤ T ∧
    ∀ dxs : List ℝ, (∀ d ∈ dxs, 0 ≤ d) → dxs.sum = T → ∃ c', frames h c dxs = some c' ∧ Within r y n.velocity c'

/-- Frames pass, none of them longer than 2147000000 grains. -/
def Steady (g : ℝ) (dxs : List ℝ) : Prop := ∀ d ∈ dxs, 0 ≤ d ∧ d ≤ 2147000000 * g

/-- From half a grain after the end on, and for ever, the value is the last value `y`, up to a rung, and the velocity is 0. -/
def Rests (h : Heap) (c : Slot) (g : ℝ) (e : ℤ) (r : Range ℝ) (y : ℝ) : Prop :=
  ∃ v, v ≤ y ∧ y - v ≤ r.length / 65535 ∧ ∀ dxs : List ℝ, Steady g dxs → e + g / 2 < dxs.sum →
    ∃ c', frames h c dxs = some c' ∧ c'.y = v ∧ c'.derivative = 0

/-- The record follows the path that starts with value `y0` and velocity `d0` and goes through the waypoints `ns`, with values `ys`. -/
structure Follows (h : Heap) (c : Slot) (e : ℤ) (r : Range ℝ) (y0 d0 : ℝ) (ns : List (MNode ℝ)) (ys : List ℝ) : Prop where
  start : c.y ≤ y0 ∧ y0 - c.y ≤ r.length / 65535
  startVelocity : ns ≠ [] → |Real.arctan c.derivative - Real.arctan d0| < angleScale
  length : ys.length = ns.length
  visits : ∀ (i : ℕ) (n : MNode ℝ) (y : ℝ), ns[i]? = some n → ys[i]? = some y → Visits h c (Spline.recommendG e) e r y n
  runs : ∀ dxs : List ℝ, Steady (Spline.recommendG e) dxs → ∃ c', frames h c dxs = some c'
  rests : ∀ y, (y0 :: ys).getLast? = some y → Rests h c (Spline.recommendG e) e r y

/-- The first waypoint replaces the current value if its time is 0 or nothing was playing. -/
def Replaces (c : Slot) (n0 : MNode ℝ) : Prop := n0.time = 0 ∨ c.spline = none

/-- The waypoints that lie ahead. -/
def Ahead (c : Slot) (t : Target ℝ) (ns : List (MNode ℝ)) : Prop :=
  ∃ n0, t.nodes.head? = some n0 ∧ (Replaces c n0 → ns = t.nodes.tail) ∧ (¬ Replaces c n0 → ns = t.nodes)

/-- The value and velocity asked for at the start. -/
def Initial (c : Slot) (t : Target ℝ) (v d : ℝ) : Prop :=
  ∃ n0, t.nodes.head? = some n0 ∧ (Replaces c n0 → v = n0.value ∧ d = n0.velocity) ∧ (¬ Replaces c n0 → v = c.y ∧ d = c.derivative)

/-- What a direction asks for: `y` is the value `v` up to whole turns, and is the closest one to `prev`, the next one above or below, at
least half a turn away, or the one in the range. -/
def Step (r : Range ℝ) (prev v y : ℝ) : Direction → Prop
  | .closest => (∃ k : ℤ, y = v + k * (r.stop - r.start)) ∧ ∀ k : ℤ, |y - prev| ≤ |y + k * (r.stop - r.start) - prev|
  | .farthest => (∃ k : ℤ, y = v + k * (r.stop - r.start)) ∧ (r.stop - r.start) / 2 ≤ |y - prev| ∧ |y - prev| ≤ r.stop - r.start
  | .positive => (∃ k : ℤ, y = v + k * (r.stop - r.start)) ∧ prev ≤ y ∧ y < prev + (r.stop - r.start)
  | .negative => (∃ k : ℤ, y = v + k * (r.stop - r.start)) ∧ y < prev ∧ prev - (r.stop - r.start) ≤ y
  | .direct => (∃ k : ℤ, y = v + k * (r.stop - r.start)) ∧ r.start < y ∧ y ≤ r.stop

/-- Each value is a `Step` from the one before. -/
def Steps (r : Range ℝ) : ℝ → List (MNode ℝ) → List ℝ → Prop
  | _, [], [] => True
  | prev, n :: ns, y :: ys => Step r prev n.value y n.dir ∧ Steps r y ns ys
  | _, _, _ => False

/-! ### C41 -/

/-- Waypoints are spaced well enough if the target is no longer than 65535 ticks. -/
theorem C41_spaced {t : Target ℝ} (h : t.WF) (he : ∀ e, t.endTime = some e → e ≤ 65535) : Spaced t := by
  intro e h1
  have := he e h1
  refine ⟨fun n hn => ?_, ?_⟩
  · have := h.2.2.1 n hn
    omega
  · exact h.2.2.2.imp (fun {a b} hab => by omega)

theorem overrides_iff (c : Slot) (n0 : MNode ℝ) : overrides c n0 = true ↔ Replaces c n0 := by
  unfold overrides Replaces
  cases c.spline <;> simp

theorem apart_of_spaced {e : ℤ} : ∀ (ns : List (MNode ℝ)) (p : ℤ), 0 < e ∨ ns = [] →
    (∀ n ∈ ns, e ≤ 65535 * (n.time - p)) → (ns.Pairwise fun a b => e ≤ 65535 * (b.time - a.time)) →
    Apart (Spline.recommendG e) p ns := by
  intro ns
  induction ns with
  | nil => intros; trivial
  | cons n ns ih =>
    intro p he hp hpw
    have he' : 0 < e := by rcases he with h | h <;> [exact h; simp at h]
    have he'' : (0 : ℝ) < e := by exact_mod_cast he'
    refine ⟨?_, ih n.time (Or.inl he') (List.pairwise_cons.mp hpw).1 (List.pairwise_cons.mp hpw).2⟩
    have : (e : ℝ) ≤ 65535 * (n.time - p) := by exact_mod_cast hp n (by simp)
    unfold Spline.recommendG
    rw [if_neg (by linarith)]
    linarith

/-- The part of C41 that does not depend on how the values are unwrapped. -/
theorem follows {h : Heap} {id : ℕ} {c : Slot} {loc : Spline} {t : Target ℝ} {n0 : MNode ℝ} {y0 : ℝ} {e : ℤ} {r : Range ℝ} {ys : List ℝ}
    (hloc : h id = some loc) (hwf : t.WF) (hsp : Spaced t) (hcap : t.numNodes + 1 ≤ loc.maxNodes)
    (hn0 : t.nodes.head? = some n0) (hy0 : startY c n0 = some y0) (he : t.endTime = some e) (hr : yRange c t y0 = some r)
    (hin : r.start ≤ y0 ∧ y0 ≤ r.stop) (hu : unwrap c y0 (rest c t n0) = some ys) (hys : ∀ y ∈ ys, r.start ≤ y ∧ y ≤ r.stop) :
    ∃ h' c', setTarget h c id t = some (h', c') ∧ Follows h' c' e r y0 (startD c n0) (rest c t n0) ys := by
  obtain ⟨w1, w2, w3, w4⟩ := hwf
  obtain ⟨s1, s2⟩ := hsp e he
  have hlast : ∀ n ∈ t.nodes, n.time ≤ e := by
    intro n hn
    unfold Target.endTime at he
    cases hl : t.nodes.getLast? with
    | none => rw [hl] at he; simp at he
    | some b =>
      rw [hl] at he; simp at he; subst he
      obtain ⟨i, hi⟩ := List.mem_iff_getElem?.mp hn
      obtain ⟨hi1, rfl⟩ := List.getElem?_eq_some_iff.mp hi
      rw [List.getLast?_eq_getElem?] at hl
      obtain ⟨hl1, rfl⟩ := List.getElem?_eq_some_iff.mp hl
      rcases Nat.lt_or_ge i (t.nodes.length - 1) with h1 | h1
      · exact (List.pairwise_iff_getElem.mp w4 i _ hi1 hl1 h1).le
      · have : i = t.nodes.length - 1 := by omega
        subst this; exact le_rfl
  obtain ⟨tl, htl⟩ : ∃ tl, t.nodes = n0 :: tl := by
    cases hl : t.nodes with
    | nil => rw [hl] at hn0; simp at hn0
    | cons a tl => rw [hl] at hn0; simp at hn0; subst hn0; exact ⟨tl, rfl⟩
  have hrest : rest c t n0 = tl ∨ (rest c t n0 = t.nodes ∧ n0.time ≠ 0) := by
    unfold rest
    by_cases ho : overrides c n0 = true
    · left; rw [if_pos ho, htl]; rfl
    · right
      rw [if_neg ho]
      refine ⟨rfl, ?_⟩
      intro h0; apply ho; unfold overrides; simp [h0]
  have hn0t : 0 ≤ n0.time := w3 n0 (by rw [htl]; simp)
  have hsub : ∀ n ∈ rest c t n0, n ∈ t.nodes ∧ 0 < n.time := by
    intro n hn
    rcases hrest with h1 | ⟨h1, h2⟩
    · rw [h1] at hn
      rw [htl] at w4
      refine ⟨by rw [htl]; exact List.mem_cons_of_mem _ hn, ?_⟩
      have := (List.pairwise_cons.mp w4).1 n hn
      omega
    · rw [h1] at hn
      refine ⟨hn, ?_⟩
      rw [htl] at hn w4
      rcases List.mem_cons.mp hn with rfl | hn
      · omega
      · have := (List.pairwise_cons.mp w4).1 n hn
        omega
  have hrl : (rest c t n0).length ≤ t.nodes.length := by
    rcases hrest with h1 | ⟨h1, -⟩ <;> rw [h1]
    rw [htl]; simp
  have he0 : 0 ≤ e := hn0t.trans (hlast n0 (by rw [htl]; simp))
  have hcap' : (rest c t n0).length + 1 ≤ loc.maxNodes := by unfold Target.numNodes at hcap; omega
  have hap : Apart (Spline.recommendG e) 0 (rest c t n0) := by
    have := apart_of_spaced (e := e) (rest c t n0) 0 (by
        by_cases hne : rest c t n0 = []
        · exact Or.inr hne
        · left
          obtain ⟨n, hn⟩ := List.exists_mem_of_ne_nil _ hne
          exact (hsub n hn).2.trans_le (hlast n (hsub n hn).1))
      (by
        intro n hn
        obtain ⟨h1, h2⟩ := hsub n hn
        rcases s1 n h1 with h3 | h3 <;> omega)
      (by
        rcases hrest with h1 | ⟨h1, -⟩ <;> rw [h1]
        · rw [htl] at s2; exact (List.pairwise_cons.mp s2).2
        · exact s2)
    simpa using this
  obtain ⟨h', c', g1, g2, g3, g4, g5, g8, v, g6, g7⟩ := setTarget_spec hloc hn0 hy0 he hr hin hu hys hap
    (fun n hn => hlast n (hsub n hn).1) he0 hcap' (by omega)
  refine ⟨h', c', g1, ⟨g2, g3⟩, fun hne => (g4 hne).2.2, ?_, fun i n y h1 h2 => g5 i n y h1 h2, g8, ?_⟩
  · have : ∀ (ns : List (MNode ℝ)) (p : ℝ) (ys : List ℝ), unwrap c p ns = some ys → ys.length = ns.length := by
      intro ns
      induction ns with
      | nil => intro p ys h; simp [unwrap] at h; subst h; rfl
      | cons n ns ih =>
        intro p ys h
        simp only [unwrap, Option.bind_eq_some_iff, Option.map_eq_some_iff] at h
        obtain ⟨v, -, y, -, zs, h3, rfl⟩ := h
        simp [ih y zs h3]
    exact this _ _ _ hu
  · intro y hy
    exact ⟨v, (g6 y hy).1, (g6 y hy).2, g7⟩

theorem ahead_rest {c : Slot} {t : Target ℝ} {n0 : MNode ℝ} {ns : List (MNode ℝ)} (hn0 : t.nodes.head? = some n0) (h : Ahead c t ns) :
    rest c t n0 = ns := by
  obtain ⟨n1, h1, h2, h3⟩ := h
  rw [hn0] at h1; cases h1
  unfold rest
  by_cases ho : overrides c n0 = true
  · rw [if_pos ho, h2 ((overrides_iff c n0).mp ho), List.drop_one]
  · rw [if_neg ho, h3 (fun h => ho ((overrides_iff c n0).mpr h))]

/-- C41 for plain values: whatever the record was doing, setting a target with room for its waypoints succeeds; the motion starts at the
current value and velocity (those of the first waypoint if its time is 0 or nothing was playing), has each waypoint's value and velocity at
its time, and then stays at the last value.  "Has" is up to one rung, which is 2.2/65535 of the distance between the lowest and the highest
value involved. -/
theorem C41_plain {h : Heap} {id : ℕ} {c : Slot} {loc : Spline} {t : Target ℝ} {e : ℤ} {ns : List (MNode ℝ)} {v0 d0 : ℝ}
    (hloc : h id = some loc) (hcap : t.numNodes + 1 ≤ loc.maxNodes) (hm : ¬ c.modRange.valid) (hwf : t.WF) (hsp : Spaced t)
    (he : t.endTime = some e) (hns : Ahead c t ns) (hi : Initial c t v0 d0) :
    ∃ h' c' r, setTarget h c id t = some (h', c') ∧ Follows h' c' e r v0 d0 ns (ns.map (·.value)) ∧
      (∀ lo hi : ℝ, lo ≤ v0 → v0 ≤ hi → (∀ n ∈ t.nodes, lo ≤ n.value ∧ n.value ≤ hi) → r.length ≤ 22 / 10 * (hi - lo)) := by
  obtain ⟨n0, hn0, hi1, hi2⟩ := hi
  have hne : t.nodes ≠ [] := by intro h0; rw [h0] at hn0; simp at hn0
  have hy0 : startY c n0 = some v0 ∧ startD c n0 = d0 := by
    unfold startY startD wanted Slot.normalizeY
    by_cases ho : overrides c n0 = true
    · obtain ⟨h1, h2⟩ := hi1 ((overrides_iff c n0).mp ho)
      simp [ho, hm, h1, h2]
    · obtain ⟨h1, h2⟩ := hi2 (fun h => ho ((overrides_iff c n0).mpr h))
      simp [ho, hm, h1, h2]
  obtain ⟨r0, hr0, ⟨a1, a2⟩, a3, a4⟩ := Target.C54_value_range hne v0
  have hr : yRange c t v0 = some (r0.lengthen kYRangeBufferPercent) := by
    unfold yRange; rw [if_neg hm, hr0]; rfl
  have hu : ∀ (ns : List (MNode ℝ)) (p : ℝ), unwrap c p ns = some (ns.map (·.value)) := by
    intro ns
    induction ns with
    | nil => intro p; rfl
    | cons n ns ih => intro p; simp [unwrap, wanted, Slot.nextY, hm, ih]
  have hlen : 0 ≤ r0.length * kYRangeBufferPercent * (1 / 2) := by
    unfold kYRangeBufferPercent Range.length
    nlinarith
  have hsub : ∀ n ∈ ns, n ∈ t.nodes := by
    obtain ⟨n1, h1, h2, h3⟩ := hns
    intro n hn
    by_cases ho : Replaces c n1
    · rw [h2 ho] at hn; exact List.mem_of_mem_tail hn
    · rw [h3 ho] at hn; exact hn
  obtain ⟨h', c', g1, g2⟩ := follows (ys := ns.map (·.value)) hloc hwf hsp hcap hn0 hy0.1 he hr
    ⟨by simp only [Range.lengthen]; linarith, by simp only [Range.lengthen]; linarith⟩
    (by rw [ahead_rest hn0 hns]; exact hu _ _)
    (by
      intro y hy
      obtain ⟨n, hn, rfl⟩ := List.mem_map.mp hy
      obtain ⟨b1, b2⟩ := a3 n (hsub n hn)
      exact ⟨by simp only [Range.lengthen]; linarith, by simp only [Range.lengthen]; linarith⟩)
  rw [ahead_rest hn0 hns, hy0.2] at g2
  refine ⟨h', c', _, g1, g2, ?_⟩
  intro lo hi h1 h2 h3
  obtain ⟨b1, b2⟩ := a4 ⟨lo, hi⟩ h1 h2 h3
  simp only [Range.length, Range.lengthen, kYRangeBufferPercent] at *
  linarith

/-- One step of the unwrapping in a symmetric range. -/
theorem nextY_step {c : Slot} (h0 : 0 < c.modRange.stop) (hs : c.modRange.start = -c.modRange.stop) (n : MNode ℝ) {prev : ℝ}
    (hp1 : -(2 * c.modRange.stop) ≤ prev) (hp2 : prev ≤ 2 * c.modRange.stop) :
    ∃ v y, wanted c n.value = some v ∧ c.nextY prev v n.dir = some y ∧ Step c.modRange prev n.value y n.dir ∧
      (n.dir = .closest → prev - c.modRange.stop < y ∧ y ≤ prev + c.modRange.stop) ∧
      (n.dir = .direct → -c.modRange.stop < y ∧ y ≤ c.modRange.stop) ∧
      (n.dir ≠ .direct → prev - 2 * c.modRange.stop ≤ y ∧ y ≤ prev + 2 * c.modRange.stop) := by
  set r := c.modRange with hr
  have hlt : r.start < r.stop := by rw [hs]; linarith
  have hL : r.stop - r.start = 2 * r.stop := by rw [hs]; ring
  have hv : r.valid := hlt.le
  obtain ⟨v, hv1, -, -, ⟨v1, v2, kv, hkv⟩, -⟩ := Range.C16_normalise r hlt n.value
  obtain ⟨d, -, -, hd1, ⟨d1, d2, kd, hkd⟩, -⟩ := Range.C16_normalise r hlt (v - prev)
  have hd := hd1 (by linarith) (by linarith)
  have hw : wanted c n.value = some v := by unfold wanted; rw [← hr, if_pos hv, hv1]
  have hmin : ∀ k : ℤ, |d| ≤ |d + k * (2 * r.stop)| := by
    intro k
    have hd' : |d| ≤ r.stop := abs_le.mpr ⟨by linarith, d2⟩
    rcases lt_trichotomy k 0 with hk | hk | hk
    · have : (k : ℝ) ≤ -1 := by exact_mod_cast (show k ≤ -1 by omega)
      have : (k : ℝ) * (2 * r.stop) ≤ -1 * (2 * r.stop) := mul_le_mul_of_nonneg_right this (by linarith)
      rw [abs_of_nonpos (a := d + _) (by linarith)]
      linarith
    · subst hk; simp
    · have : (1 : ℝ) ≤ k := by exact_mod_cast (show 1 ≤ k by omega)
      have : 1 * (2 * r.stop) ≤ (k : ℝ) * (2 * r.stop) := mul_le_mul_of_nonneg_right this (by linarith)
      rw [abs_of_nonneg (a := d + _) (by linarith)]
      linarith
  have hcong : ∀ (j : ℤ) (y : ℝ), y = prev + (d + j * (r.stop - r.start)) → ∃ k : ℤ, y = n.value + k * (r.stop - r.start) := by
    intro j y hy
    exact ⟨kv + kd + j, by rw [hy, hkd, hkv]; push_cast; ring⟩
  have hnext : ∀ dir, c.nextY prev v dir = (r.modDiff prev v dir).map (prev + ·) := by
    intro dir; unfold Slot.nextY; rw [← hr, if_pos hv]
  have hlen : r.length = r.stop - r.start := rfl
  cases hdir : n.dir with
  | closest =>
    refine ⟨v, prev + d, hw, by rw [hnext]; simp [Range.modDiff, Range.modDiffClose, hd], ⟨hcong 0 _ (by simp), ?_⟩,
      fun _ => ⟨by linarith, by linarith⟩, by simp, fun _ => ⟨by linarith, by linarith⟩⟩
    intro k
    rw [show prev + d - prev = d by ring, show prev + d + k * (r.stop - r.start) - prev = d + k * (2 * r.stop) by rw [hL]; ring]
    exact hmin k
  | direct =>
    refine ⟨v, v, hw, by rw [hnext]; simp [Range.modDiff], ⟨⟨kv, hkv⟩, v1, v2⟩, by simp, fun _ => ⟨by linarith, v2⟩, by simp⟩
  | farthest =>
    by_cases h : 0 ≤ d
    · refine ⟨v, prev + (d - r.length), hw, by rw [hnext]; simp [Range.modDiff, Range.modDiffFar, Range.modDiffClose, hd, h],
        ⟨hcong (-1) _ (by rw [hlen]; push_cast; ring), ?_⟩, by simp, by simp, fun _ => ⟨by linarith, by linarith⟩⟩
      rw [show prev + (d - r.length) - prev = d - r.length by ring, hlen, hL, abs_of_nonpos (by linarith)]
      exact ⟨by linarith, by linarith⟩
    · push Not at h
      refine ⟨v, prev + (d + r.length), hw, by rw [hnext]; simp [Range.modDiff, Range.modDiffFar, Range.modDiffClose, hd, not_le.mpr h],
        ⟨hcong 1 _ (by rw [hlen]; push_cast; ring), ?_⟩, by simp, by simp, fun _ => ⟨by linarith, by linarith⟩⟩
      rw [show prev + (d + r.length) - prev = d + r.length by ring, hlen, hL, abs_of_nonneg (by linarith)]
      exact ⟨by linarith, by linarith⟩
  | positive =>
    by_cases h : 0 ≤ d
    · exact ⟨v, prev + d, hw, by rw [hnext]; simp [Range.modDiff, Range.modDiffPositive, Range.modDiffClose, hd, h],
        ⟨hcong 0 _ (by simp), by linarith, by linarith⟩, by simp, by simp, fun _ => ⟨by linarith, by linarith⟩⟩
    · push Not at h
      exact ⟨v, prev + (d + r.length), hw, by rw [hnext]; simp [Range.modDiff, Range.modDiffPositive, Range.modDiffClose, hd, not_le.mpr h],
        ⟨hcong 1 _ (by rw [hlen]; push_cast; ring), by linarith, by linarith⟩, by simp, by simp, fun _ => ⟨by linarith, by linarith⟩⟩
  | negative =>
    by_cases h : 0 ≤ d
    · exact ⟨v, prev + (d - r.length), hw, by rw [hnext]; simp [Range.modDiff, Range.modDiffNegative, Range.modDiffClose, hd, h],
        ⟨hcong (-1) _ (by rw [hlen]; push_cast; ring), by linarith, by linarith⟩, by simp, by simp, fun _ => ⟨by linarith, by linarith⟩⟩
    · push Not at h
      exact ⟨v, prev + d, hw, by rw [hnext]; simp [Range.modDiff, Range.modDiffNegative, Range.modDiffClose, hd, not_le.mpr h],
        ⟨hcong 0 _ (by simp), by linarith, by linarith⟩, by simp, by simp, fun _ => ⟨by linarith, by linarith⟩⟩

/-- C41 for modular values, in a symmetric range: if there are at most two waypoints ahead and they ask for the closest way or for the value
itself, or there is one ahead, of any direction, behind one that replaces the current value, then setting the target succeeds and the motion
follows the waypoints, each reached modulo the range in the direction it asks for, from the current value modulo the range. The rung is at
most 4/65535 of the range. -/
theorem C41_modular {h : Heap} {id : ℕ} {c : Slot} {loc : Spline} {t : Target ℝ} {e : ℤ} {ns : List (MNode ℝ)} {v0 d0 : ℝ}
    (hloc : h id = some loc) (hcap : t.numNodes + 1 ≤ loc.maxNodes) (h0 : 0 < c.modRange.stop) (hs : c.modRange.start = -c.modRange.stop)
    (hwf : t.WF) (hsp : Spaced t) (he : t.endTime = some e) (hns : Ahead c t ns) (hi : Initial c t v0 d0)
    (hd : ns.length ≤ 2 ∧ (∀ n ∈ ns, n.dir = .closest ∨ n.dir = .direct) ∨ ns.length = 1 ∧ t.numNodes = 2) :
    ∃ h' c' r y0 ys, setTarget h c id t = some (h', c') ∧ Follows h' c' e r y0 d0 ns ys ∧
      (c.modRange.start < y0 ∧ y0 ≤ c.modRange.stop ∧ ∃ k : ℤ, y0 = v0 + k * (c.modRange.stop - c.modRange.start)) ∧
      Steps c.modRange y0 ns ys ∧ r.length ≤ 4 * (c.modRange.stop - c.modRange.start) := by
  obtain ⟨n0, hn0, hi1, hi2⟩ := hi
  have hlt : c.modRange.start < c.modRange.stop := by rw [hs]; linarith
  have hv : c.modRange.valid := hlt.le
  obtain ⟨y0, k1, k2, -, k3, -⟩ := Range.C16_normalise c.modRange hlt v0
  have hy0 : startY c n0 = some y0 ∧ startD c n0 = d0 := by
    unfold startY startD wanted Slot.normalizeY
    by_cases ho : overrides c n0 = true
    · obtain ⟨h1, h2⟩ := hi1 ((overrides_iff c n0).mp ho)
      rw [h1] at k1
      simp [ho, hv, h2, k1]
    · obtain ⟨h1, h2⟩ := hi2 (fun h => ho ((overrides_iff c n0).mpr h))
      rw [h1] at k2
      simp [ho, hv, h2, k2]
  have hr : yRange c t y0 = some (c.modRange.lengthen (t.numNodes : ℝ)) := by unfold yRange; rw [if_pos hv]
  set L := c.modRange.stop with hL
  have hlo : (c.modRange.lengthen (t.numNodes : ℝ)).start = -(L + t.numNodes * L) := by
    simp only [Range.lengthen, Range.length, hs]; ring
  have hhi : (c.modRange.lengthen (t.numNodes : ℝ)).stop = L + t.numNodes * L := by
    simp only [Range.lengthen, Range.length, hs]; ring
  have hnn : 0 ≤ (t.numNodes : ℝ) * L := by positivity
  have hnum : (1 : ℝ) ≤ t.numNodes := by exact_mod_cast hwf.1
  have hle : ns.length ≤ t.numNodes := by
    obtain ⟨n1, h1, h2, h3⟩ := hns
    by_cases ho : Replaces c n1
    · rw [h2 ho, List.length_tail]; exact Nat.sub_le _ _
    · rw [h3 ho]; exact le_rfl
  have key : ∃ ys, unwrap c y0 ns = some ys ∧ Steps c.modRange y0 ns ys ∧ ∀ y ∈ ys, -(L + t.numNodes * L) ≤ y ∧ y ≤ L + t.numNodes * L := by
    have k31 : -L < y0 := by have := k3.1; linarith
    have k32 := k3.2.1
    rcases hd with ⟨hlen, hdir⟩ | ⟨hlen, hnum2⟩
    · match ns, hlen, hdir, hle with
      | [], _, _, _ => exact ⟨[], rfl, trivial, by simp⟩
      | [n], _, hdir, hle =>
        obtain ⟨v, y, h1, h2, h3, h4, h5, -⟩ := nextY_step h0 hs n (prev := y0) (by linarith) (by linarith)
        refine ⟨[y], by simp [unwrap, h1, h2], ⟨h3, trivial⟩, ?_⟩
        have : L ≤ t.numNodes * L := by nlinarith
        have hy : -(L + L) ≤ y ∧ y ≤ L + L := by
          rcases hdir n (by simp) with hd | hd
          · obtain ⟨a, b⟩ := h4 hd; exact ⟨by linarith, by linarith⟩
          · obtain ⟨a, b⟩ := h5 hd; exact ⟨by linarith, by linarith⟩
        simp only [List.mem_singleton, forall_eq]
        exact ⟨by linarith, by linarith⟩
      | [n, m], _, hdir, hle =>
        have hn2 : (2 : ℝ) ≤ t.numNodes := by exact_mod_cast hle
        have h2L : 2 * L ≤ t.numNodes * L := by nlinarith
        obtain ⟨v, y, h1, h2, h3, h4, h5, -⟩ := nextY_step h0 hs n (prev := y0) (by linarith) (by linarith)
        have hy : -(L + L) ≤ y ∧ y ≤ L + L := by
          rcases hdir n (by simp) with hd | hd
          · obtain ⟨a, b⟩ := h4 hd; exact ⟨by linarith, by linarith⟩
          · obtain ⟨a, b⟩ := h5 hd; exact ⟨by linarith, by linarith⟩
        obtain ⟨v', y', g1, g2, g3, g4, g5, -⟩ := nextY_step h0 hs m (prev := y) (by linarith [hy.1]) (by linarith [hy.2])
        have hy' : -(L + 2 * L) ≤ y' ∧ y' ≤ L + 2 * L := by
          rcases hdir m (by simp) with hd | hd
          · obtain ⟨a, b⟩ := g4 hd; exact ⟨by linarith [hy.1], by linarith [hy.2]⟩
          · obtain ⟨a, b⟩ := g5 hd; exact ⟨by linarith, by linarith⟩
        refine ⟨[y, y'], by simp [unwrap, h1, h2, g1, g2], ⟨h3, g3, trivial⟩, ?_⟩
        intro z hz
        simp only [List.mem_cons, List.not_mem_nil, or_false] at hz
        rcases hz with rfl | rfl
        · exact ⟨by linarith [hy.1], by linarith [hy.2]⟩
        · exact ⟨by linarith [hy'.1], by linarith [hy'.2]⟩
    · match ns, hlen with
      | [n], _ =>
        obtain ⟨v, y, h1, h2, h3, h4, h5, h6⟩ := nextY_step h0 hs n (prev := y0) (by linarith) (by linarith)
        refine ⟨[y], by simp [unwrap, h1, h2], ⟨h3, trivial⟩, ?_⟩
        rw [hnum2]
        simp only [List.mem_singleton, forall_eq]
        push_cast
        by_cases hd : n.dir = .direct
        · obtain ⟨a, b⟩ := h5 hd; exact ⟨by linarith, by linarith⟩
        · obtain ⟨a, b⟩ := h6 hd; exact ⟨by linarith, by linarith⟩
  obtain ⟨ys, u1, u2, u3⟩ := key
  obtain ⟨h', c', g1, g2⟩ := follows (ys := ys) hloc hwf hsp hcap hn0 hy0.1 he hr
    ⟨by rw [hlo]; linarith [k3.1], by rw [hhi]; linarith [k3.2.1]⟩ (by rw [ahead_rest hn0 hns]; exact u1)
    (by rw [hlo, hhi]; exact u3)
  rw [ahead_rest hn0 hns, hy0.2] at g2
  refine ⟨h', c', _, y0, ys, g1, g2, k3, u2, ?_⟩
  have hn3 : (t.numNodes : ℝ) ≤ 3 := by exact_mod_cast hwf.2.1
  have : (c.modRange.lengthen (t.numNodes : ℝ)).length = 2 * (L + t.numNodes * L) := by
    rw [Range.length, hhi, hlo]; ring
  rw [this, hs]
  nlinarith

/-! ### The hypotheses can be met -/

/-- A playing record over plain values, and an empty local spline of the default size. -/
example : ∃ (h : Heap) (c : Slot) (loc : Spline) (t : Target ℝ) (ns : List (MNode ℝ)),
    h 0 = some loc ∧ t.numNodes + 1 ≤ loc.maxNodes ∧ ¬ c.modRange.valid ∧ t.WF ∧ Spaced t ∧ t.endTime = some 900 ∧ Ahead c t ns ∧
      Initial c t 5 2 ∧ ns.length = 2 := by
  refine ⟨fun _ => some ⟨⟨0, 0⟩, 1, [], 7⟩,
    { spline := some 0, y := 5, cubic := ⟨0, 0, 2, 5⟩ }, _, ⟨[⟨3, 1, 400, .closest⟩, ⟨-4, 0, 900, .closest⟩]⟩,
    [⟨3, 1, 400, .closest⟩, ⟨-4, 0, 900, .closest⟩], rfl, by simp [Target.numNodes], by norm_num [Range.valid], ?_, ?_, rfl,
    ⟨_, rfl, by simp [Replaces], by simp⟩, ⟨_, rfl, by simp [Replaces], by simp [Replaces, Slot.derivative, Cubic.deriv]⟩, rfl⟩
  · simp [Target.WF]
  · apply C41_spaced
    · simp [Target.WF]
    · simp [Target.endTime]

/-- A record over angles in degrees, and a target that turns twice by the closest way. -/
example : ∃ (h : Heap) (c : Slot) (loc : Spline) (t : Target ℝ) (ns : List (MNode ℝ)),
    h 0 = some loc ∧ t.numNodes + 1 ≤ loc.maxNodes ∧ 0 < c.modRange.stop ∧ c.modRange.start = -c.modRange.stop ∧ t.WF ∧ Spaced t ∧
      t.endTime = some 900 ∧ Ahead c t ns ∧ Initial c t 170 0 ∧ ns.length = 2 ∧ ∀ n ∈ ns, n.dir = .closest ∨ n.dir = .direct := by
  refine ⟨fun _ => some ⟨⟨0, 0⟩, 1, [], 7⟩,
    { spline := some 0, y := 170, cubic := ⟨0, 0, 0, 170⟩, modRange := ⟨-180, 180⟩ }, _,
    ⟨[⟨-170, 1, 400, .closest⟩, ⟨-50, 0, 900, .direct⟩]⟩, [⟨-170, 1, 400, .closest⟩, ⟨-50, 0, 900, .direct⟩], rfl,
    by simp [Target.numNodes], by norm_num, by norm_num, ?_, ?_, rfl,
    ⟨_, rfl, by simp [Replaces], by simp⟩, ⟨_, rfl, by simp [Replaces], by simp [Replaces, Slot.derivative, Cubic.deriv]⟩, rfl, by simp⟩
  · simp [Target.WF]
  · apply C41_spaced
    · simp [Target.WF]
    · simp [Target.endTime]

end
end Motive.Targets
