import Verif.Matrix.SplineDriver

/-!
# C97: matrix and SQT motivators play clips

C95 blends to constants. Here lists of operations also have splines and targets, as animations do (src/motive/io/flatbuffers.cpp:112-160,
include/motive/matrix_init.h:66-104), any number of them follow each other, and each plays for any time, over or not, in frames of up to
32 seconds.
-/

namespace Motive.Matrix4
open Motive.Targets Motive.Splines Motive.Math Motive.Curve

noncomputable section

/-! ### Specification -/

/-- The playback that the evaluator is given: the same numbers. -/
def Playback.toSpline (pb : Playback) : Motive.Splines.Playback := ⟨pb.startX, pb.repeating, pb.rate, pb.blendX, pb.yOffset, pb.yScale⟩

/-- Frames are at most 32 seconds long. -/
def Paced (dts : List ℤ) : Prop := ∀ d ∈ dts, 0 < d ∧ d ≤ 32000

/-- The spline can be played: it is well-formed, has a length if it is repeated, and positions that are played, and one more frame, are
numbers of grains that fit in an `int`. -/
structure Fits (pb : Playback) (s : Spline) : Prop where
  wf : s.WF
  indexable : s.Indexable
  ends : ∃ e, s.endX = some e ∧ (pb.repeating = true → 0 < e) ∧
    (pb.startX + e + pb.blendX * pb.rate + 32000 * pb.rate) / s.g + 1 < 2147483648

/-- The targets that C41 covers; angles need at most two waypoints, by the closest or the direct way. -/
def Reach (ty : OpType) (t : Target ℝ) : Prop :=
  t.WF ∧ Spaced t ∧ (ty.isRotate = true → t.nodes.length ≤ 2 ∧ ∀ n ∈ t.nodes, n.dir = .closest ∨ n.dir = .direct)

/-- What an operation can be asked for. -/
def Asks (pb : Playback) (n : OpInit splineDriver) : Prop :=
  match n.union with
  | .empty => False
  | .initial _ => True
  | .target t => Reach n.type t
  | .spline s => Fits pb s

/-- A stage of a program: a list of operations, a playback, and then frames. `kind` is the type of the operations with an id, and `S` are the
types that the motivator supports. -/
structure Clip (S : OpType → Prop) (kind : ℕ → OpType) (new : List (OpInit splineDriver)) (pb : Playback) (dts : List ℤ) : Prop where
  blend : 0 ≤ pb.blendX
  start : 0 ≤ pb.startX
  rate : 0 < pb.rate
  made : ∀ n ∈ new, Made n
  ascending : Ascending (new.map (·.id))
  supported : ∀ n ∈ new, S n.type
  typed : ∀ n ∈ new, n.type = kind n.id
  asks : ∀ n ∈ new, Asks pb n
  range : ∀ n ∈ new, ∀ k, n.init = some k → k = rangeOfOp n.type
  frames : Paced dts

/-- The operations that a motivator can have: ids ascend, and their motivators are in working order. -/
structure Works (S : OpType → Prop) (kind : ℕ → OpType) (ops : List (Op splineDriver)) : Prop where
  ascending : Ascending (ops.map (·.id))
  supported : ∀ o ∈ ops, S o.type
  typed : ∀ o ∈ ops, o.type = kind o.id
  ready : ∀ o ∈ ops, Ready o

/-- The value that an operation had before the stage: the default, if it is new. -/
def Before (ops : List (Op splineDriver)) (o : Op splineDriver) (x : ℝ) : Prop :=
  (∃ a ∈ ops, a.id = o.id ∧ x = a.value) ∨ ((∀ a ∈ ops, a.id ≠ o.id) ∧ x = o.type.default)

/-- The operation is at rest at `v`, up to a rung of 65535: in a range of at most 4 turns for angles, which are also up to whole turns; in a range
2.2 times as wide as the values `zs` for the others. -/
def Held (zs : List ℝ) (o : Op splineDriver) (v : ℝ) : Prop :=
  o.velocity = 0 ∧ ∃ k : ℤ, (o.type.isRotate = false → k = 0) ∧ ∀ lo hi : ℝ, (∀ z ∈ zs, lo ≤ z ∧ z ≤ hi) →
    |o.value - (v + k * (2 * Real.pi))| ≤ if o.type.isRotate then 8 * Real.pi / 65535 else 22 / 10 * (hi - lo) / 65535

/-- The operation has played the spline for the time `T`: it is at the place where that leads, up to whole rounds if it repeats, and shows the
spline there. -/
def Plays (pb : Playback) (s : Spline) (T : ℝ) (o : Op splineDriver) : Prop :=
  ∃ p X, o.motivator = some (some p) ∧ o.value = p.slot.y ∧ o.velocity = p.slot.derivative ∧
    (pb.repeating = false → X = pb.startX + T * pb.rate) ∧ (∀ e, s.endX = some e → ∃ n : ℤ, X = pb.startX + T * pb.rate + n * e) ∧
    SplineProc.Shows s pb.toSpline p.slot X

/-- The time of a target, or of a blend, is over, with a margin for rounding. -/
def Past (e T : ℝ) : Prop := e * (1 + 1 / 131070) < T

/-- What an operation shows at time `T` of the stage, if its value was `x` before. -/
def Shown (new : List (OpInit splineDriver)) (pb : Playback) (T : ℝ) (x : ℝ) (o : Op splineDriver) : Prop :=
  (∀ n ∈ new, n.id = o.id → match n.union with
    | .empty => False
    | .initial v => pb.blendX = 0 ∨ Past pb.blendX T → Held [x, v] o v
    | .target t => ∀ (e : ℤ) (y : MNode ℝ), t.endTime = some e → t.nodes.getLast? = some y → Past e T → Held (x :: t.nodes.map (·.value)) o y.value
    | .spline s => pb.blendX = 0 ∨ pb.blendX < T → Plays pb s T o) ∧
  ((∀ n ∈ new, n.id ≠ o.id) → pb.blendX = 0 ∨ Past pb.blendX T → Held [x, o.type.default] o o.type.default)

/-! ### Frames -/

theorem cast_sum (dts : List ℤ) : (dts.map fun d : ℤ => (d : ℝ)).sum = ((dts.sum : ℤ) : ℝ) := by
  induction dts with
  | nil => simp
  | cons d ds ih => rw [List.map_cons, List.sum_cons, List.sum_cons, ih]; push_cast; rfl

theorem sum_pos {dts : List ℤ} (h : Paced dts) : dts = [] ∨ 1 ≤ dts.sum := by
  cases dts with
  | nil => exact Or.inl rfl
  | cons d ds =>
    right
    have h2 : 0 ≤ ds.sum := List.sum_nonneg fun x hx => (h x (by simp [hx])).1.le
    rw [List.sum_cons]
    have := (h d (by simp)).1
    omega

theorem paced_steady {dts : List ℤ} (h : Paced dts) (e : ℤ) :
    Steady (Spline.recommendG e) (dts.map fun d : ℤ => (d : ℝ)) := by
  intro d hd
  obtain ⟨z, hz, rfl⟩ := List.mem_map.mp hd
  obtain ⟨h1, h2⟩ := h z hz
  have h2' : (z : ℝ) ≤ 32000 := by exact_mod_cast h2
  refine ⟨by exact_mod_cast h1.le, ?_⟩
  unfold Spline.recommendG
  split_ifs with h0
  · linarith
  · have : (1 : ℝ) ≤ e := by
      have : 0 < e := by
        have := not_le.mp h0
        exact_mod_cast this
      exact_mod_cast this
    linarith

theorem past_end {dts : List ℤ} (h : Paced dts) {e : ℤ} (he : 0 ≤ e) (hp : Past e dts.sum) :
    e + Spline.recommendG e / 2 < (dts.map fun d : ℤ => (d : ℝ)).sum := by
  rw [cast_sum]
  unfold Past at hp
  unfold Spline.recommendG
  split_ifs with h0
  · have h1 : e = 0 := by
      have : e ≤ 0 := by exact_mod_cast h0
      omega
    subst h1
    have h3 : 1 ≤ dts.sum := by
      rcases sum_pos h with rfl | h3
      · simp at hp
      · exact h3
    have : (1 : ℝ) ≤ dts.sum := by exact_mod_cast h3
    rw [Int.cast_zero]
    linarith
  · have : (e : ℝ) * (1 + 1 / 131070) = e + e / 65535 / 2 := by ring
    linarith

/-- Frames keep a motivator in working order. -/
theorem frames_playing {p : Player} {R : Range ℝ} (h : Playing R (some p)) {dts : List ℤ} {c : Slot}
    (hf : frames p.heap p.slot (dts.map fun d : ℤ => (d : ℝ)) = some c) :
    dts.foldl splineDriver.advance (some p : Option Player) = some ⟨p.heap, c⟩ ∧ Playing R (some ⟨p.heap, c⟩) := by
  obtain ⟨q, hq, q1, q2, q3⟩ := h
  cases hq
  obtain ⟨k1, k2⟩ := frames_keeps _ _ _ hf
  exact ⟨by rw [foldl_advance, hf]; rfl, _, rfl, by rw [k2]; exact q1, by rw [k1]; exact q2, q3⟩

/-! ### Targets -/

theorem steps_last {r : Range ℝ} : ∀ (ns : List (MNode ℝ)) (prev : ℝ) (ys : List ℝ), Steps r prev ns ys → ∀ n, ns.getLast? = some n →
    ∃ y, ys.getLast? = some y ∧ ∃ k : ℤ, y = n.value + k * (r.stop - r.start) := by
  intro ns
  induction ns with
  | nil => intro _ _ _ n hn; simp at hn
  | cons m ns ih =>
    intro prev ys hs n hn
    match ys, hs with
    | y :: ys, hs =>
      obtain ⟨h1, h2⟩ := hs
      cases ns with
      | nil =>
        simp only [List.getLast?_singleton, Option.some.injEq] at hn
        subst hn
        match ys, h2 with
        | [], _ =>
          refine ⟨y, rfl, ?_⟩
          cases hd : m.dir <;> rw [hd] at h1 <;> exact h1.1
      | cons m' ns =>
        rw [List.getLast?_cons_cons] at hn
        obtain ⟨z, hz, hk⟩ := ih y ys h2 n hn
        refine ⟨z, ?_, hk⟩
        match ys, h2 with
        | y' :: ys, _ => rw [List.getLast?_cons_cons]; exact hz

/-- `SetTarget`, then frames for any time. -/
theorem target_steady {p : Player} {ty : OpType} (hr : p.slot.modRange = rangeOfOp ty) (hp : ∀ s, p.heap 0 = some s → 7 ≤ s.maxNodes)
    {t : Target ℝ} (ht : Reach ty t) {e : ℤ} (he : t.endTime = some e) {y : MNode ℝ} (hy : t.nodes.getLast? = some y) :
    ∃ p', p.setTarget t = some p' ∧ Playing (rangeOfOp ty) (some p') ∧ ∀ dts, Paced dts →
      ∃ p'', dts.foldl splineDriver.advance (some p' : Option Player) = some p'' ∧ Playing (rangeOfOp ty) (some p'') ∧
        (Past e dts.sum → p''.slot.derivative = 0 ∧ ∃ k : ℤ, (ty.isRotate = false → k = 0) ∧
          ∀ lo hi : ℝ, (∀ z ∈ p.slot.y :: t.nodes.map (·.value), lo ≤ z ∧ z ≤ hi) →
            |p''.slot.y - (y.value + k * (2 * Real.pi))| ≤ if ty.isRotate then 8 * Real.pi / 65535 else 22 / 10 * (hi - lo) / 65535) := by
  classical
  obtain ⟨loc, hl, hm⟩ := allocate_spec p hp
  obtain ⟨hwf, hsp, hang⟩ := ht
  have hy0 : y.time = e := by simpa [Target.endTime, hy] using he
  have he0 : 0 ≤ e := by rw [← hy0]; exact hwf.2.2.1 y (List.mem_of_getLast? hy)
  have hcap : t.numNodes + 1 ≤ loc.maxNodes := by
    have := hwf.2.1
    unfold Target.numNodes
    omega
  obtain ⟨n0, tl, hnodes⟩ : ∃ n0 tl, t.nodes = n0 :: tl := by
    cases h : t.nodes with
    | nil => rw [h] at hy; simp at hy
    | cons a l => exact ⟨a, l, rfl⟩
  -- the start and the waypoints ahead
  obtain ⟨ns, v0, d0, hns, hi, hlast, hv0, hsub⟩ : ∃ ns v0 d0, Ahead p.slot t ns ∧ Initial p.slot t v0 d0 ∧
      (ns = [] ∧ v0 = y.value ∨ ns.getLast? = some y) ∧ (v0 = p.slot.y ∨ v0 ∈ t.nodes.map (·.value)) ∧
      (∀ n ∈ ns, n ∈ t.nodes) ∧ ns.length ≤ t.nodes.length := by
    have hd : t.nodes.head? = some n0 := by rw [hnodes]; rfl
    by_cases h : Replaces p.slot n0
    · refine ⟨tl, n0.value, n0.velocity, ⟨n0, hd, fun _ => by rw [hnodes]; rfl, fun h' => absurd h h'⟩,
        ⟨n0, hd, fun _ => ⟨rfl, rfl⟩, fun h' => absurd h h'⟩, ?_, Or.inr (by rw [hnodes]; simp), ?_, by rw [hnodes]; simp⟩
      · cases tl with
        | nil =>
          rw [hnodes] at hy
          simp only [List.getLast?_singleton, Option.some.injEq] at hy
          exact Or.inl ⟨rfl, by rw [hy]⟩
        | cons a l => rw [hnodes, List.getLast?_cons_cons] at hy; exact Or.inr hy
      · intro n hn; rw [hnodes]; simp [hn]
    · exact ⟨t.nodes, p.slot.y, p.slot.derivative, ⟨n0, hd, fun h' => absurd h' h, fun _ => rfl⟩,
        ⟨n0, hd, fun h' => absurd h' h, fun _ => ⟨rfl, rfl⟩⟩, Or.inr hy, Or.inl rfl, fun _ h => h, le_rfl⟩
  cases hrot : ty.isRotate with
  | false =>
    have hmod : ¬ p.slot.modRange.valid := by rw [hr, rangeOfOp, hrot]; norm_num [Range.valid]
    obtain ⟨h', c', r, e1, e2, e3⟩ := C41_plain hl hcap hmod hwf hsp he hns hi
    obtain ⟨f1, f2⟩ := setTarget_playing (p' := ⟨h', c'⟩) hp e1 rfl
    rw [hr] at f2
    refine ⟨_, f1, f2, fun dts hd => ?_⟩
    obtain ⟨c'', g1⟩ := e2.runs _ (paced_steady hd e)
    obtain ⟨g2, g3⟩ := frames_playing f2 g1
    refine ⟨_, g2, g3, fun hpast => ?_⟩
    have hyl : (v0 :: ns.map (·.value)).getLast? = some y.value := by
      rcases hlast with ⟨rfl, rfl⟩ | h
      · rfl
      · rw [List.getLast?_cons, List.getLast?_map, h]; rfl
    obtain ⟨v, k1, k2, k3⟩ := e2.rests y.value hyl
    obtain ⟨c3, k4, k5, k6⟩ := k3 _ (paced_steady hd e) (past_end hd he0 hpast)
    rw [g1] at k4
    cases k4
    refine ⟨k6, 0, fun _ => rfl, fun lo hi hz => ?_⟩
    have hr := e3 lo hi
      (by rcases hv0 with h | h
          · rw [h]; exact (hz _ (by simp)).1
          · exact (hz _ (by simp [h])).1)
      (by rcases hv0 with h | h
          · rw [h]; exact (hz _ (by simp)).2
          · exact (hz _ (by simp [h])).2)
      (fun n hn => hz _ (List.mem_cons_of_mem _ (List.mem_map_of_mem hn)))
    simp only [Bool.false_eq_true, if_false]
    show |c''.y - _| ≤ _
    rw [k5, abs_le]
    push_cast
    constructor <;> linarith
  | true =>
    have hmod : p.slot.modRange = ⟨-Real.pi, Real.pi⟩ := by rw [hr, rangeOfOp, hrot]; rfl
    have h0 : 0 < p.slot.modRange.stop := by rw [hmod]; exact Real.pi_pos
    have hs : p.slot.modRange.start = -p.slot.modRange.stop := by rw [hmod]
    have hw : p.slot.modRange.stop - p.slot.modRange.start = 2 * Real.pi := by rw [hmod]; ring
    obtain ⟨a1, a2⟩ := hang hrot
    obtain ⟨h', c', r, y0, ys, e1, e2, ⟨-, -, k, hk⟩, e4, e5⟩ := C41_modular hl hcap h0 hs hwf hsp he hns hi
      (Or.inl ⟨hsub.2.trans a1, fun n hn => a2 n (hsub.1 n hn)⟩)
    obtain ⟨f1, f2⟩ := setTarget_playing (p' := ⟨h', c'⟩) hp e1 rfl
    rw [hr] at f2
    rw [hw] at hk e5
    refine ⟨_, f1, f2, fun dts hd => ?_⟩
    obtain ⟨c'', g1⟩ := e2.runs _ (paced_steady hd e)
    obtain ⟨g2, g3⟩ := frames_playing f2 g1
    refine ⟨_, g2, g3, fun hpast => ?_⟩
    obtain ⟨z, j, hz, hj⟩ : ∃ (z : ℝ) (j : ℤ), (y0 :: ys).getLast? = some z ∧ z = y.value + j * (2 * Real.pi) := by
      rcases hlast with ⟨rfl, rfl⟩ | h
      · match ys, e4 with
        | [], _ => exact ⟨y0, k, rfl, hk⟩
      · obtain ⟨z, h1, j, h2⟩ := steps_last _ _ _ e4 y h
        rw [hw] at h2
        refine ⟨z, j, ?_, h2⟩
        rw [List.getLast?_cons, h1]; rfl
    obtain ⟨v, k1, k2, k3⟩ := e2.rests z hz
    obtain ⟨c3, k4, k5, k6⟩ := k3 _ (paced_steady hd e) (past_end hd he0 hpast)
    rw [g1] at k4
    cases k4
    refine ⟨k6, j, fun h => by simp at h, fun lo hi _ => ?_⟩
    simp only [if_true]
    show |c''.y - _| ≤ _
    rw [k5, ← hj, abs_le]
    constructor <;> linarith [Real.pi_pos]

/-! ### Splines -/

theorem rangeOfOp_symmetric (ty : OpType) (h : (rangeOfOp ty).valid) :
    (rangeOfOp ty).start = -(rangeOfOp ty).stop ∧ 0 < (rangeOfOp ty).stop := by
  unfold rangeOfOp at h ⊢
  split_ifs at h ⊢
  · exact ⟨rfl, Real.pi_pos⟩
  · norm_num [Range.valid] at h

/-- `SetSpline`, then frames for any time. -/
theorem spline_steady {p : Player} {ty : OpType} (h1 : p.slot.spline.isSome) (hr : p.slot.modRange = rangeOfOp ty) {pb : Playback}
    (hb : 0 ≤ pb.blendX) (hx : 0 ≤ pb.startX) (hrate : 0 < pb.rate) {s : Spline} (hs : Fits pb s) :
    ∃ p' b, p.setSpline s pb = some p' ∧ Playing (rangeOfOp ty) (some p') ∧ (0 < pb.blendX → SplineProc.Leads s pb.toSpline p.slot b) ∧
      ∀ dts, Paced dts → ∃ p'' X, dts.foldl splineDriver.advance (some p' : Option Player) = some p'' ∧ Playing (rangeOfOp ty) (some p'') ∧
        (pb.repeating = false → X = pb.startX + dts.sum * pb.rate) ∧
        (∀ e, s.endX = some e → ∃ n : ℤ, X = pb.startX + dts.sum * pb.rate + n * e) ∧
        (0 < pb.blendX → (dts.sum : ℝ) ≤ pb.blendX → p''.slot.y = b.eval (dts.sum * pb.rate) ∧
          p''.slot.derivative = pb.rate * b.deriv (dts.sum * pb.rate)) ∧
        (pb.blendX = 0 ∨ pb.blendX < dts.sum → SplineProc.Shows s pb.toSpline p''.slot X) := by
  obtain ⟨e, he, hpos, hM⟩ := hs.ends
  set hp : Heap := fun j => if j = 1 then some s else none with hhp
  obtain ⟨b, k1, k2⟩ := SplineProc.C96_plays (hp := hp) (id := 1) hs.wf hs.indexable (by simp [hhp]) (M := 32000 * pb.rate) he p.slot
    pb.toSpline (fun _ => by rw [hr]; exact rangeOfOp_symmetric ty) hx hrate hpos (by positivity)
    (by show (pb.startX + e + max pb.blendX 0 * pb.rate + 32000 * pb.rate) / s.g + 1 < _; rw [max_eq_left hb]; exact hM)
  have hrep : ∀ dts : List ℤ, Proc.Vector.replay (SplineProc.machine hp) p.slot (.inl (.play 1 pb.toSpline) :: (dts.map fun d : ℤ => (d : ℝ)).map .inr) =
      (p.slot.setSpline hp 1 pb.toSpline).bind fun d => frames hp d (dts.map fun d : ℤ => (d : ℝ)) := by
    intro dts
    show (p.slot.setSpline hp 1 pb.toSpline).bind (fun d => Proc.Vector.replay (SplineProc.machine hp) d ((dts.map fun d : ℤ => (d : ℝ)).map .inr)) = _
    exact congrArg _ (funext fun d => replay_frames hp _ d)
  have hbl : SplineProc.Blends p.slot pb.toSpline ↔ 0 < pb.blendX :=
    ⟨fun h => h.2, fun h => ⟨by intro h0; rw [h0] at h1; simp at h1, h⟩⟩
  have key : ∀ dts, Paced dts → ∃ c X, ((p.slot.setSpline hp 1 pb.toSpline).bind fun d => frames hp d (dts.map fun d : ℤ => (d : ℝ))) = some c ∧
        (pb.repeating = false → X = pb.startX + dts.sum * pb.rate) ∧
        (∀ e, s.endX = some e → ∃ n : ℤ, X = pb.startX + dts.sum * pb.rate + n * e) ∧
        (0 < pb.blendX → (dts.sum : ℝ) ≤ pb.blendX → c.y = b.eval (dts.sum * pb.rate) ∧ c.derivative = pb.rate * b.deriv (dts.sum * pb.rate)) ∧
        (pb.blendX = 0 ∨ pb.blendX < dts.sum → SplineProc.Shows s pb.toSpline c X) := by
    intro dts hd
    obtain ⟨c, X, a1, -, a2, a3, a4, a5⟩ := k2 ((dts.map fun d : ℤ => (d : ℝ)).map .inr)
      (by
        intro v hv
        obtain ⟨d, hd', rfl⟩ := List.mem_map.mp hv
        obtain ⟨z, hz, rfl⟩ := List.mem_map.mp hd'
        show (0 : ℝ) ≤ z
        exact_mod_cast (hd z hz).1.le)
      (strides_frames _ fun d hd' => by
        obtain ⟨z, hz, rfl⟩ := List.mem_map.mp hd'
        have : (z : ℝ) ≤ 32000 := by exact_mod_cast (hd z hz).2
        exact mul_le_mul_of_nonneg_right this hrate.le)
    have hIn : SplineProc.InBlend pb.toSpline ((dts.map fun d : ℤ => (d : ℝ)).map .inr) ↔ (dts.sum : ℝ) ≤ pb.blendX := by
      unfold SplineProc.InBlend
      rw [clock_frames, cast_sum]
      show (_ ∧ pb.startX + dts.sum * pb.rate ≤ pb.startX + pb.blendX * pb.rate) ↔ _
      constructor
      · rintro ⟨-, h⟩
        have : (dts.sum : ℝ) * pb.rate ≤ pb.blendX * pb.rate := by linarith
        exact le_of_mul_le_mul_right this hrate
      · intro h
        refine ⟨by simp, ?_⟩
        have := mul_le_mul_of_nonneg_right h hrate.le
        linarith
    rw [hrep] at a1
    rw [clock_frames, cast_sum] at a2 a3 a4 a5
    refine ⟨c, X, a1, a2, ?_, ?_, ?_⟩
    · intro e' he'
      rw [he] at he'; cases he'
      exact a3
    · intro h2 h3
      obtain ⟨b1, b2⟩ := a4 ⟨hbl.mpr h2, hIn.mpr h3⟩
      have : pb.startX + (dts.sum : ℝ) * pb.rate - pb.startX = dts.sum * pb.rate := by ring
      exact ⟨by rw [b1]; show b.eval (pb.startX + _ * pb.rate - pb.startX) = _; rw [this],
        by rw [b2]; show pb.rate * b.deriv (pb.startX + _ * pb.rate - pb.startX) = _; rw [this]⟩
    · intro h2
      refine a5 ?_
      rintro ⟨h3, h4⟩
      have h3 := hbl.mp h3
      have h4 := hIn.mp h4
      rcases h2 with h2 | h2 <;> linarith
  obtain ⟨c0, X0, z1, -⟩ := key [] (by simp [Paced])
  obtain ⟨c1, z2, -⟩ := Option.bind_eq_some_iff.mp z1
  obtain ⟨m1, m2⟩ := setSpline_keeps z2
  have hpl : Playing (rangeOfOp ty) (some (⟨hp, c1⟩ : Player)) := ⟨_, rfl, by rw [m2]; rfl, by rw [m1]; exact hr, by simp [hhp]⟩
  refine ⟨⟨hp, c1⟩, b, ?_, hpl, fun h => k1 (hbl.mpr h), ?_⟩
  · show (p.slot.setSpline hp 1 pb.toSpline).map _ = _
    rw [z2]; rfl
  · intro dts hd
    obtain ⟨c, X, a1, a2, a3, a4, a5⟩ := key dts hd
    rw [z2, Option.bind_some] at a1
    obtain ⟨f1, f2⟩ := frames_playing hpl a1
    exact ⟨_, X, f1, f2, a2, a3, a4, a5⟩

/-! ### Operations -/

/-- A new motivator with a value. -/
theorem fresh_playing (ty : OpType) (v : ℝ) :
    ∃ p : Player, splineDriver.setTarget (splineDriver.create (rangeOfOp ty)) ⟨[⟨v, 0, 0, .closest⟩]⟩ = (some p : Option Player) ∧
      Playing (rangeOfOp ty) (some p) ∧ (ty.isRotate = false → p.slot.y = v) := by
  set p : Player := ⟨fun _ => none, { modRange := rangeOfOp ty }⟩ with hp
  cases hrot : ty.isRotate with
  | false =>
    have hmod : p.slot.modRange = ⟨1, 0⟩ := by rw [hp]; show rangeOfOp ty = _; rw [rangeOfOp, hrot]; rfl
    obtain ⟨p', e1, e2, e3, -⟩ := target_plain (p := p) (by rw [hmod]; norm_num [Range.valid]) (by simp [hp]) v 0 le_rfl
    exact ⟨p', e1, e2, fun _ => (e3 (Or.inl rfl)).1⟩
  | true =>
    have hmod : p.slot.modRange = ⟨-Real.pi, Real.pi⟩ := by rw [hp]; show rangeOfOp ty = _; rw [rangeOfOp, hrot]; rfl
    obtain ⟨p', e1, e2, e3, -⟩ := target_angle (p := p) hmod (by simp [hp]) v 0 le_rfl
    exact ⟨p', e1, e2, fun h => by cases h⟩

theorem newborn_ready {n : OpInit splineDriver} {o : Op splineDriver} (h : Newborn n o) (hk : ∀ k, n.init = some k → k = rangeOfOp n.type) :
    Ready o ∧ (o.type.isRotate = false → o.value = o.type.default) := by
  obtain ⟨-, h2, h3, h4⟩ := h
  cases hi : n.init with
  | none =>
    rw [hi, Option.map_none] at h4
    exact ⟨by simp [Ready, h4], fun _ => by simp only [Op.value, h4, h3, h2]⟩
  | some k =>
    rw [hi, Option.map_some, hk k hi] at h4
    obtain ⟨p, e1, e2, e3⟩ := fresh_playing n.type n.type.default
    rw [e1] at h4
    refine ⟨?_, fun hr => ?_⟩
    · intro m hm
      rw [h4] at hm
      cases hm
      rw [h2]; exact e2
    · rw [h2] at hr ⊢
      simp only [Op.value, h4, Option.map_some, Option.getD_some]
      exact e3 hr

/-- An operation with a motivator after frames. -/
theorem foldl_some {o : Op splineDriver} {p p'' : Player} (hm : o.motivator = some (some p)) {dts : List ℤ}
    (hf : dts.foldl splineDriver.advance (some p : Option Player) = some p'') :
    dts.foldl Op.advance o = { o with motivator := some (some p'') } := by
  rw [foldl_op, hm, Option.map_some, hf]

theorem ready_some {o : Op splineDriver} {p : Player} (h : Playing (rangeOfOp o.type) (some p)) : Ready { o with motivator := some (some p) } := by
  intro m hm
  simp only [Option.some.injEq] at hm
  subst hm
  exact h

/-- A constant is held at once, and for ever. -/
theorem held_const (o : Op splineDriver) (h : o.motivator = none) (zs : List ℝ) (hz : ∃ z, z ∈ zs) : Held zs o o.const := by
  obtain ⟨z, hz⟩ := hz
  refine ⟨by simp [Op.velocity, h], 0, fun _ => rfl, fun lo hi hb => ?_⟩
  have := hb z hz
  have h2 : 0 ≤ hi - lo := by linarith
  have h3 := Real.pi_pos
  simp only [Op.value, h, Int.cast_zero, zero_mul, add_zero, sub_self, abs_zero]
  split_ifs <;> positivity

/-- An operation whose motivator is given a target. -/
theorem target_held {o o' : Op splineDriver} {p : Player} (hp : Playing (rangeOfOp o.type) (some p)) {t : Target ℝ} (ht : Reach o.type t)
    (hty : o'.type = o.type) (hm : o'.motivator = some (splineDriver.setTarget (some p) t)) {dts : List ℤ} (hd : Paced dts) {e : ℤ}
    (he : t.endTime = some e) {y : MNode ℝ} (hy : t.nodes.getLast? = some y) :
    Ready (dts.foldl Op.advance o') ∧
      (Past e dts.sum → Held (p.slot.y :: t.nodes.map (·.value)) (dts.foldl Op.advance o') y.value) := by
  obtain ⟨q, hq, -, q2, q3⟩ := hp
  cases hq
  obtain ⟨p', e1, -, e3⟩ := target_steady q2 q3 ht he hy
  obtain ⟨p'', f1, f2, f3⟩ := e3 dts hd
  have hm' : o'.motivator = some (some p') := by rw [hm]; exact congrArg some e1
  rw [foldl_some hm' f1]
  refine ⟨ready_some (by rw [hty]; exact f2), fun hpast => ?_⟩
  obtain ⟨g1, k, g2, g3⟩ := f3 hpast
  exact ⟨g1, k, fun h => g2 (by rw [← hty]; exact h), fun lo hi hb => by
    have := g3 lo hi hb
    show |p''.slot.y - _| ≤ if o'.type.isRotate = true then _ else _
    rw [hty]; exact this⟩

theorem reach_one (ty : OpType) (v : ℝ) {τ : ℤ} (h : 0 ≤ τ) : Reach ty ⟨[⟨v, 0, τ, .closest⟩]⟩ := by
  obtain ⟨w1, w2, -⟩ := one_wf v 0 h
  exact ⟨w1, w2, fun _ => ⟨by simp, by simp⟩⟩

/-- An operation whose motivator is told to go to a value in the time of the blend. -/
theorem blend_held {o o' : Op splineDriver} {p : Player} (hp : Playing (rangeOfOp o.type) (some p)) {v : ℝ} {pb : Playback} (hpb : 0 ≤ pb.blendX)
    (hty : o'.type = o.type) (hm : o'.motivator = some (splineDriver.setTarget (some p) ⟨[⟨v, 0, ⌊pb.blendX⌋, .closest⟩]⟩)) {dts : List ℤ}
    (hd : Paced dts) :
    Ready (dts.foldl Op.advance o') ∧ (pb.blendX = 0 ∨ Past pb.blendX dts.sum → Held [p.slot.y, v] (dts.foldl Op.advance o') v) := by
  have hfl : (0 : ℤ) ≤ ⌊pb.blendX⌋ := Int.floor_nonneg.mpr hpb
  obtain ⟨h1, h2⟩ := target_held hp (reach_one o.type v hfl) hty hm hd (e := ⌊pb.blendX⌋) (y := ⟨v, 0, ⌊pb.blendX⌋, .closest⟩) rfl rfl
  refine ⟨h1, fun hc => ?_⟩
  by_cases hpast : Past (⌊pb.blendX⌋ : ℤ) dts.sum
  · exact h2 hpast
  · -- no frames, and no time
    have h0 : pb.blendX = 0 := by
      rcases hc with h | h
      · exact h
      · exfalso
        apply hpast
        unfold Past at h ⊢
        have : (⌊pb.blendX⌋ : ℝ) ≤ pb.blendX := Int.floor_le _
        nlinarith
    have hnil : dts = [] := by
      rcases sum_pos hd with h | h
      · exact h
      · exfalso
        apply hpast
        have : (1 : ℝ) ≤ dts.sum := by exact_mod_cast h
        unfold Past
        rw [h0, Int.floor_zero, Int.cast_zero, zero_mul]; linarith
    subst hnil
    rw [h0, Int.floor_zero] at hm
    obtain ⟨q, hq, -, q2, q3⟩ := hp
    cases hq
    have fin : ∀ p' : Player, splineDriver.setTarget (some p) ⟨[⟨v, 0, 0, .closest⟩]⟩ = (some p' : Option Player) → p'.slot.derivative = 0 →
        (∃ k : ℤ, (o.type.isRotate = false → k = 0) ∧ |p'.slot.y - (v + k * (2 * Real.pi))| ≤ if o.type.isRotate then 8 * Real.pi / 65535 else 0) →
        Held [p.slot.y, v] o' v := by
      rintro p' e1 e2 ⟨k, e3, e4⟩
      have hm' : o'.motivator = some (some p') := by rw [hm, e1]
      refine ⟨by simp only [Op.velocity, hm', Option.map_some, Option.getD_some]; exact e2, k, fun h => e3 (by rw [← hty]; exact h), fun lo hi hb => ?_⟩
      simp only [Op.value, hm', Option.map_some, Option.getD_some]
      refine e4.trans ?_
      rw [hty]
      have := hb v (by simp)
      split_ifs
      · exact le_rfl
      · have : 0 ≤ hi - lo := by linarith
        positivity
    cases hrot : o.type.isRotate with
    | false =>
      have hmod : p.slot.modRange = ⟨1, 0⟩ := by rw [q2, rangeOfOp, hrot]; rfl
      obtain ⟨p', e1, -, e3, -⟩ := target_plain (p := p) (by rw [hmod]; norm_num [Range.valid]) q3 v 0 le_rfl
      obtain ⟨f1, f2⟩ := e3 (Or.inl rfl)
      exact fin p' e1 f2 ⟨0, fun _ => rfl, by rw [f1]; simp [hrot]⟩
    | true =>
      have hmod : p.slot.modRange = ⟨-Real.pi, Real.pi⟩ := by rw [q2, rangeOfOp, hrot]; rfl
      obtain ⟨p', e1, -, e3, -⟩ := target_angle (p := p) hmod q3 v 0 le_rfl
      obtain ⟨⟨k, f1⟩, f2⟩ := e3 (Or.inl rfl)
      exact fin p' e1 f2 ⟨k, fun h => (by rw [hrot] at h; cases h), by rw [hrot]; exact f1⟩

/-- The source of a target or a spline is in working order, and has the value of the operation. -/
theorem source_playing {o : Op splineDriver} {n : OpInit splineDriver} (ho : Ready o) (hty : n.type = o.type)
    (hk : ∀ k, n.init = some k → k = rangeOfOp n.type) {m : Option Player} (h : Source o n m) :
    ∃ p, m = some p ∧ Playing (rangeOfOp o.type) (some p) ∧ (o.type.isRotate = false → p.slot.y = o.value) := by
  unfold Source at h
  cases hm : o.motivator with
  | some m' =>
    rw [hm] at h
    simp only at h
    subst h
    obtain ⟨p, rfl, p1⟩ := ho m hm
    exact ⟨p, rfl, ⟨p, rfl, p1⟩, fun _ => by simp [Op.value, hm]⟩
  | none =>
    rw [hm] at h
    obtain ⟨k, hi, rfl⟩ := h
    obtain ⟨p, e1, e2, e3⟩ := fresh_playing o.type o.const
    rw [hk k hi, hty]
    exact ⟨p, e1, e2, fun hr => by rw [e3 hr]; simp [Op.value, hm]⟩

/-- Only angles can differ from what the operation showed, and for them the values before do not matter. -/
theorem Held.change {x x' : ℝ} {zs : List ℝ} {o : Op splineDriver} {v : ℝ} (h : Held (x :: zs) o v) (hx : o.type.isRotate = false → x = x') :
    Held (x' :: zs) o v := by
  obtain ⟨h1, k, h2, h3⟩ := h
  cases hr : o.type.isRotate with
  | false => rw [← hx hr]; exact ⟨h1, k, h2, h3⟩
  | true =>
    refine ⟨h1, k, h2, fun lo hi hb => ?_⟩
    obtain ⟨a, b, hab⟩ : ∃ a b : ℝ, ∀ z ∈ x :: zs, a ≤ z ∧ z ≤ b := by
      clear h3 hb
      generalize x :: zs = l
      induction l with
      | nil => exact ⟨0, 0, by simp⟩
      | cons y l ih =>
        obtain ⟨a, b, hab⟩ := ih
        refine ⟨min a y, max b y, fun z hz => ?_⟩
        rcases List.mem_cons.mp hz with rfl | hz
        · exact ⟨min_le_right _ _, le_max_right _ _⟩
        · exact ⟨(min_le_left _ _).trans (hab z hz).1, (hab z hz).2.trans (le_max_left _ _)⟩
    have := h3 a b hab
    rw [hr] at this ⊢
    exact this

/-- An operation driven to what is asked of it, and then frames. -/
theorem driven_shows {pb : Playback} (hb : 0 ≤ pb.blendX) (hx : 0 ≤ pb.startX) (hrate : 0 < pb.rate) {o o' : Op splineDriver}
    {n : OpInit splineDriver} (ho : Ready o) (hty : n.type = o.type) (hk : ∀ k, n.init = some k → k = rangeOfOp n.type) (ha : Asks pb n)
    (h : Driven pb o n o') {dts : List ℤ} (hd : Paced dts) {x : ℝ} (hval : o.type.isRotate = false → o.value = x) :
    Ready (dts.foldl Op.advance o') ∧ match n.union with
    | .empty => False
    | .initial v => pb.blendX = 0 ∨ Past pb.blendX dts.sum → Held [x, v] (dts.foldl Op.advance o') v
    | .target t => ∀ (e : ℤ) (y : MNode ℝ), t.endTime = some e → t.nodes.getLast? = some y → Past e dts.sum →
        Held (x :: t.nodes.map (·.value)) (dts.foldl Op.advance o') y.value
    | .spline s => pb.blendX = 0 ∨ pb.blendX < dts.sum → Plays pb s dts.sum (dts.foldl Op.advance o') := by
  obtain ⟨-, h2, h3⟩ := h
  unfold Asks at ha
  have hft : (dts.foldl Op.advance o').type = o.type := by rw [foldl_type, h2]
  cases hu : n.union with
  | empty => rw [hu] at ha; exact absurd ha (by simp)
  | initial v =>
    rw [hu] at h3
    rcases h3 with ⟨h4, h5, -⟩ | ⟨m, h4, h5⟩
    · have : dts.foldl Op.advance o' = o' := by rw [foldl_op, h4]; cases o'; simp_all
      rw [this]
      refine ⟨by simp [Ready, h4], fun _ => ?_⟩
      rw [← h5]; exact held_const o' h4 _ ⟨x, by simp⟩
    · obtain ⟨p, rfl, p1⟩ := ho m h4
      obtain ⟨k1, k2⟩ := blend_held (o := o) ⟨p, rfl, p1⟩ hb h2 h5 hd
      refine ⟨k1, fun hc => (k2 hc).change fun hr => ?_⟩
      rw [hft] at hr
      rw [← hval hr]; simp [Op.value, h4]
  | target t =>
    rw [hu] at h3 ha
    obtain ⟨m, h4, h5⟩ := h3
    obtain ⟨p, rfl, p1, p2⟩ := source_playing ho hty hk h4
    have ha' : Reach o.type t := by rw [← hty]; exact ha
    obtain ⟨e, y, he, hy⟩ : ∃ (e : ℤ) (y : MNode ℝ), t.endTime = some e ∧ t.nodes.getLast? = some y := by
      have := ha'.1.1
      cases hl : t.nodes.getLast? with
      | none => rw [List.getLast?_eq_none_iff] at hl; rw [hl] at this; simp at this
      | some y => exact ⟨y.time, y, by simp [Target.endTime, hl], rfl⟩
    obtain ⟨k1, k2⟩ := target_held p1 ha' h2 h5 hd he hy
    refine ⟨k1, fun e' y' he' hy' hpast => ?_⟩
    rw [he] at he'; rw [hy] at hy'
    cases he'; cases hy'
    exact (k2 hpast).change fun hr => by rw [hft] at hr; rw [← hval hr]; exact p2 hr
  | spline s =>
    rw [hu] at h3 ha
    obtain ⟨m, h4, h5⟩ := h3
    obtain ⟨p, rfl, ⟨q, hq, q1, q2, q3⟩, p2⟩ := source_playing ho hty hk h4
    cases hq
    obtain ⟨p', b, e1, -, -, e4⟩ := spline_steady q1 q2 hb hx hrate ha
    obtain ⟨p'', X, f1, f2, f3, f4, -, f6⟩ := e4 dts hd
    have hm' : o'.motivator = some (some p') := by rw [h5]; exact congrArg some e1
    rw [foldl_some hm' f1]
    exact ⟨ready_some (by rw [h2]; exact f2), fun hc => ⟨p'', X, rfl, rfl, rfl, f3, f4, f6 hc⟩⟩

/-- An operation driven to its default, and then frames. -/
theorem relaxed_shows {pb : Playback} (hb : 0 ≤ pb.blendX) {o o' : Op splineDriver} (ho : Ready o) (h : Relaxed pb o o') {dts : List ℤ}
    (hd : Paced dts) : Ready (dts.foldl Op.advance o') ∧
      (pb.blendX = 0 ∨ Past pb.blendX dts.sum → Held [o.value, o.type.default] (dts.foldl Op.advance o') o.type.default) := by
  obtain ⟨-, h2, h3⟩ := h
  rcases h3 with ⟨-, h4, h5⟩ | ⟨m, h4, h5⟩
  · have : dts.foldl Op.advance o' = o' := by rw [foldl_op, h4]; cases o'; simp_all
    rw [this]
    refine ⟨by simp [Ready, h4], fun _ => ?_⟩
    rw [← h5]; exact held_const o' h4 _ ⟨o.value, by simp⟩
  · obtain ⟨p, rfl, p1⟩ := ho m h4
    obtain ⟨k1, k2⟩ := blend_held (o := o) ⟨p, rfl, p1⟩ hb h2 h5 hd
    refine ⟨k1, fun hc => (k2 hc).change fun _ => by simp [Op.value, h4]⟩

/-! ### C97 -/

/-- `BlendToOps` to a clip, and then frames. -/
theorem merge_shows {S : OpType → Prop} {kind : ℕ → OpType} {ops : List (Op splineDriver)} (ho : Works S kind ops)
    {new : List (OpInit splineDriver)} {pb : Playback} {dts : List ℤ} (h : Clip S kind new pb dts) (bad : OpType → Bool)
    (hbad : ∀ n ∈ new, bad n.type = false) :
    ∃ l, (blendToOps bad new pb ops).map (fun l => advanceAll l dts) = some l ∧ Works S kind l ∧
      (∀ i, i ∈ l.map (·.id) ↔ i ∈ ops.map (·.id) ∨ i ∈ new.map (·.id)) ∧
      ∀ o ∈ l, ∃ x, Before ops o x ∧ Shown new pb dts.sum x o := by
  obtain ⟨l, h1, h2, h3, h4⟩ := C43_merge bad ops new pb h.blend ho.ascending h.ascending h.made hbad
  have hids : (advanceAll l dts).map (·.id) = l.map (·.id) := by
    simp only [advanceAll, List.map_map]
    apply List.map_congr_left
    intro o _
    exact foldl_id dts o
  have hinj : ∀ n ∈ new, ∀ n' ∈ new, n.id = n'.id → n = n' := by
    intro n hn n' hn' e
    have hnd : (new.map (·.id)).Nodup := h.ascending.imp fun h => ne_of_lt h
    exact List.inj_on_of_nodup_map hnd hn hn' e
  have key : ∀ o ∈ l, S o.type ∧ o.type = kind o.id ∧ Ready (dts.foldl Op.advance o) ∧
      ∃ x, Before ops (dts.foldl Op.advance o) x ∧ Shown new pb dts.sum x (dts.foldl Op.advance o) := by
    intro o ho'
    rcases h4 o ho' with ⟨a, ha, b, hb, e, hd⟩ | ⟨a, ha, hb, hd⟩ | ⟨b, hb, ha, a, e, hd⟩
    · obtain ⟨k1, k2⟩ := driven_shows h.blend h.start h.rate (ho.ready a ha) (by rw [h.typed b hb, ho.typed a ha, e]) (h.range b hb) (h.asks b hb)
        hd h.frames (x := a.value) (fun _ => rfl)
      refine ⟨by rw [hd.2.1]; exact ho.supported a ha, by rw [hd.2.1, hd.1]; exact ho.typed a ha, k1, a.value,
        Or.inl ⟨a, ha, by rw [foldl_id, hd.1], rfl⟩, fun n hn he => ?_, fun hne => ?_⟩
      · rw [foldl_id, hd.1, e] at he
        have := hinj n hn b hb he
        subst this
        exact k2
      · exact absurd (by rw [foldl_id, hd.1, e]) (hne b hb)
    · obtain ⟨k1, k2⟩ := relaxed_shows h.blend (ho.ready a ha) hd h.frames
      refine ⟨by rw [hd.2.1]; exact ho.supported a ha, by rw [hd.2.1, hd.1]; exact ho.typed a ha, k1, a.value,
        Or.inl ⟨a, ha, by rw [foldl_id, hd.1], rfl⟩, fun n hn he => ?_, fun _ => ?_⟩
      · rw [foldl_id, hd.1] at he
        exact absurd he (hb n hn)
      · rw [foldl_type, hd.2.1]; exact k2
    · obtain ⟨r1, r2⟩ := newborn_ready e (h.range b hb)
      obtain ⟨k1, k2⟩ := driven_shows h.blend h.start h.rate r1 e.2.1.symm (h.range b hb) (h.asks b hb) hd h.frames
        (x := a.type.default) r2
      refine ⟨by rw [hd.2.1, e.2.1]; exact h.supported b hb, by rw [hd.2.1, hd.1, e.1, e.2.1]; exact h.typed b hb, k1, a.type.default,
        Or.inr ⟨fun c hc => by rw [foldl_id, hd.1, e.1]; exact ha c hc, by rw [foldl_type, hd.2.1]⟩, fun n hn he => ?_, fun hne => ?_⟩
      · rw [foldl_id, hd.1, e.1] at he
        have := hinj n hn b hb he
        subst this
        exact k2
      · exact absurd (by rw [foldl_id, hd.1, e.1]) (hne b hb)
  refine ⟨advanceAll l dts, by simp [h1], ⟨by rw [hids]; exact h2, ?_, ?_, ?_⟩, by rw [hids]; exact h3, ?_⟩
  all_goals
    intro o hm
    obtain ⟨o1, hm1, rfl⟩ := List.mem_map.mp hm
    obtain ⟨k1, k2, k3, k4⟩ := key o1 hm1
  · rw [foldl_type]; exact k1
  · rw [foldl_type, foldl_id]; exact k2
  · exact k3
  · exact k4

/-- The matrix is the product of the elementary transforms of the values. -/
theorem matrix_of {kind : ℕ → OpType} {l : List (Op splineDriver)} (h : Works Supported kind l) :
    calculate (readOps l) = some ((l.map fun o => elementary (o.type, o.value)).prod, (l.map fun o => scaling (o.type, o.value)).prod) := by
  rw [C42_result_is_product _ (by
    intro op hop
    obtain ⟨o, ho, rfl⟩ := List.mem_map.mp hop
    exact h.supported o ho)]
  simp [readOps, List.map_map, Function.comp_def]

/-- C97: a matrix motivator whose operations are driven by spline motivators is told to play clips, one after the other, each for any time, over
or not, and with any frames. Nothing fails. At time `T` of the last one, the matrix is the product of the elementary transforms of
the operations' values. An operation that plays a spline shows it at the place where the playback leads, as soon as the blend is over;
one with a constant or a target holds it when its time is over, and so does one that is not in the list its default. -/
theorem C97_program {kind : ℕ → OpType} {ops : List (Op splineDriver)} (ho : Works Supported kind ops)
    (before : List (List (OpInit splineDriver) × Playback × List ℤ)) (hbefore : ∀ g ∈ before, Clip Supported kind g.1 g.2.1 g.2.2)
    {new : List (OpInit splineDriver)} {pb : Playback} {dts : List ℤ} (hlast : Clip Supported kind new pb dts) :
    ∃ mid l, before.foldlM stage ops = some mid ∧ stage mid (new, pb, dts) = some l ∧ Works Supported kind l ∧
      (∀ i, i ∈ l.map (·.id) ↔ i ∈ mid.map (·.id) ∨ i ∈ new.map (·.id)) ∧
      calculate (readOps l) = some ((l.map fun o => elementary (o.type, o.value)).prod, (l.map fun o => scaling (o.type, o.value)).prod) ∧
      ∀ o ∈ l, ∃ x, Before mid o x ∧ Shown new pb dts.sum x o := by
  induction before generalizing ops with
  | nil =>
    obtain ⟨l, h1, h2, h3, h4⟩ := merge_shows ho hlast OpType.isQuat (supported_not_quat hlast.supported)
    exact ⟨ops, l, rfl, h1, h2, h3, matrix_of h2, h4⟩
  | cons g gs ih =>
    have hg := hbefore g (by simp)
    obtain ⟨l, h1, h2, -, -⟩ := merge_shows ho hg OpType.isQuat (supported_not_quat hg.supported)
    obtain ⟨mid, l', k1, k2⟩ := ih h2 fun x hx => hbefore x (by simp [hx])
    refine ⟨mid, l', ?_, k2⟩
    rw [List.foldlM_cons]
    show (stage ops (g.1, g.2.1, g.2.2)).bind _ = _
    rw [stage, h1]
    exact k1

/-- `Initialize` with a clip, and then frames: as if there was no operation before. -/
theorem C97_initialize {kind : ℕ → OpType} {new : List (OpInit splineDriver)} {dts : List ℤ} (h : Clip Supported kind new {} dts) :
    ∃ l, (initOps OpType.isQuat new).map (fun l => advanceAll l dts) = some l ∧ Works Supported kind l ∧ l.map (·.id) = new.map (·.id) ∧
      calculate (readOps l) = some ((l.map fun o => elementary (o.type, o.value)).prod, (l.map fun o => scaling (o.type, o.value)).prod) ∧
      ∀ o ∈ l, Shown new {} dts.sum o.type.default o := by
  have hbad := supported_not_quat h.supported
  have heq : initOps OpType.isQuat new = blendToOps OpType.isQuat new {} [] := by
    rw [blendToOps_eq, mergeRec]
    unfold initOps
    clear h
    induction new with
    | nil => rfl
    | cons n ns ih =>
      rw [List.mapM_cons, List.mapM_cons, ih fun n hn => hbad n (by simp [hn]), if_neg (by simp [hbad n (by simp)])]
  have ho : Works Supported kind [] := ⟨List.Pairwise.nil, by simp, by simp, by simp⟩
  obtain ⟨l, h1, h2, h3, h4⟩ := merge_shows ho h OpType.isQuat hbad
  rw [heq]
  refine ⟨l, h1, h2, ?_, matrix_of h2, fun o hm => ?_⟩
  · have e : ∀ i, i ∈ l.map (·.id) ↔ i ∈ new.map (·.id) := by simpa using h3
    exact (List.perm_of_nodup_nodup_toFinset_eq (h2.ascending.imp fun h => ne_of_lt h) (h.ascending.imp fun h => ne_of_lt h)
      (by ext i; simpa using e i)).eq_of_pairwise (fun _ _ _ _ h1 h2 => absurd h1 (by omega)) h2.ascending h.ascending
  · obtain ⟨x, hx, hs⟩ := h4 o hm
    rcases hx with ⟨a, ha, -⟩ | ⟨-, rfl⟩
    · simp at ha
    · exact hs

/-- The operation starts each blend to a spline where it was: at the same value, up to whole turns for angles. -/
theorem C97_no_jump {kind : ℕ → OpType} {ops : List (Op splineDriver)} (ho : Works Supported kind ops) {new : List (OpInit splineDriver)}
    {pb : Playback} (h : Clip Supported kind new pb []) (h1 : 0 < pb.blendX) {n : OpInit splineDriver} (hn : n ∈ new) {s : Spline}
    (hu : n.union = .spline s) {o : Op splineDriver} (hm : o ∈ ops) (hid : o.id = n.id) (hmot : o.motivator.isSome) :
    ∃ l, blendToOps OpType.isQuat new pb ops = some l ∧ ∃ o' ∈ l, o'.id = o.id ∧ o'.type = o.type ∧
      ∃ j : ℤ, (o.type.isRotate = false → j = 0) ∧ o'.value = o.value + j * (2 * Real.pi) ∧ o'.velocity = pb.rate * o.velocity := by
  obtain ⟨l, e1, -, e3, e4⟩ := C43_merge OpType.isQuat ops new pb h.blend ho.ascending h.ascending h.made (supported_not_quat h.supported)
  refine ⟨l, e1, ?_⟩
  obtain ⟨o', hm', hid'⟩ := List.mem_map.mp ((e3 o.id).mpr (Or.inl (List.mem_map_of_mem hm)))
  have hinj : ∀ a ∈ ops, a.id = o.id → a = o := by
    intro a ha hai
    have hnd : (ops.map (·.id)).Nodup := ho.ascending.imp fun h => ne_of_lt h
    exact List.inj_on_of_nodup_map hnd ha hm hai
  have hinj' : ∀ b ∈ new, b.id = n.id → b = n := by
    intro b hb hbi
    have hnd : (new.map (·.id)).Nodup := h.ascending.imp fun h => ne_of_lt h
    exact List.inj_on_of_nodup_map hnd hb hn hbi
  refine ⟨o', hm', hid', ?_⟩
  rcases e4 o' hm' with ⟨a, ha, b, hb, e, hd⟩ | ⟨a, ha, hb, hd⟩ | ⟨b, hb, ha, a, e, hd⟩
  · have := hinj a ha (by rw [← hd.1, hid']); subst this
    have := hinj' b hb (by rw [← e, hid]); subst this
    refine ⟨hd.2.1, ?_⟩
    have hfit := h.asks b hn
    have h3 := hd.2.2
    unfold Asks at hfit
    rw [hu] at h3 hfit
    obtain ⟨m, h4, h5⟩ := h3
    obtain ⟨m0, hm0⟩ := Option.isSome_iff_exists.mp hmot
    unfold Source at h4
    rw [hm0] at h4
    simp only at h4
    subst h4
    obtain ⟨p, rfl, p1, p2, p3⟩ := ho.ready a ha m hm0
    obtain ⟨p', c, k1, -, k3, k4⟩ := spline_steady p1 p2 h.blend h.start h.rate hfit
    obtain ⟨p'', X, f1, -, -, -, f5, -⟩ := k4 [] (by simp [Paced])
    simp only [List.foldl_nil, Option.some.injEq] at f1
    subst f1
    obtain ⟨g1, g2⟩ := f5 h1 (by simpa using h1.le)
    have hm1 : o'.motivator = some (some p') := by rw [h5]; exact congrArg some k1
    obtain ⟨X, v, d, j, k, l1, -, -, -, l5, l6, -⟩ := k3 h1
    simp only [List.sum_nil, Int.cast_zero, zero_mul] at g1 g2
    have hv : a.value = p.slot.y ∧ a.velocity = p.slot.derivative := by simp [Op.value, Op.velocity, hm0]
    have hv' : o'.value = p'.slot.y ∧ o'.velocity = p'.slot.derivative := by simp [Op.value, Op.velocity, hm1]
    rw [hv'.1, hv'.2, hv.1, hv.2, g1, g2, l5, l6, p2]
    cases hrot : a.type.isRotate with
    | false =>
      have hnv : ¬ p.slot.modRange.valid := by rw [p2, rangeOfOp, hrot]; norm_num [Range.valid]
      exact ⟨0, fun _ => rfl, by rw [(l1 hnv).1]; simp, rfl⟩
    | true => exact ⟨j, fun h => (by cases h), by rw [rangeOfOp, hrot]; rfl, rfl⟩
  · have := hinj a ha (by rw [← hd.1, hid']); subst this
    exact absurd hid.symm (hb n hn)
  · exact absurd (by rw [← hid', hd.1, e.1]) (ha o hm)

theorem negate_ready {o : Op splineDriver} (ho : Ready o) : Ready o.negate := by
  by_cases hq : o.type.isQuat
  · exact (negate_spline (B := |o.value|) ⟨ho, fun _ => by linarith [abs_nonneg o.value]⟩ hq).1.1
  · rw [Op.negate, if_neg hq]; exact ho

/-- C97 for SQT motivators. The components of the rotation are negated first if the old and the new rotation are in opposite hemispheres (C95). -/
theorem C97_sqt {kind : ℕ → OpType} {ops : List (Op splineDriver)} (ho : Works SqtSupported kind ops) {new : List (OpInit splineDriver)}
    {pb : Playback} {dts : List ℤ} (h : Clip SqtSupported kind new pb dts) (rotation : Quat) {starts : List (OpType × ℝ)} {q : Quat}
    (hs : StartsAt new starts) (hq : Describes starts q) (h0 : q ≠ ⟨0, 0, 0, 0⟩) :
    ∃ mid l, mid = (if rotation.dot q < 0 then ops.map Op.negate else ops) ∧
      (blendToOpsSqt rotation new pb ops).map (fun l => advanceAll l dts) = some l ∧ Works SqtSupported kind l ∧
      (∀ i, i ∈ l.map (·.id) ↔ i ∈ ops.map (·.id) ∨ i ∈ new.map (·.id)) ∧
      ∀ o ∈ l, ∃ x, Before mid o x ∧ Shown new pb dts.sum x o := by
  have hbad : ∀ n ∈ new, OpType.isRotate n.type = false := by
    intro n hn
    have := h.supported n hn
    revert this
    cases n.type <;> simp [SqtSupported, OpType.isQuat, OpType.isRotate, OpType.isTranslate, OpType.isScale]
  have hal := align_spline (ops := ops) (rotation := rotation) hs hq h0
  have hw : Works SqtSupported kind (if rotation.dot q < 0 then ops.map Op.negate else ops) := by
    split_ifs
    · refine ⟨?_, ?_, ?_, ?_⟩
      · have : (ops.map Op.negate).map (·.id) = ops.map (·.id) := by
          rw [List.map_map]; exact List.map_congr_left fun o _ => negate_id o
        rw [this]; exact ho.ascending
      all_goals
        intro o hm
        obtain ⟨o1, h1, rfl⟩ := List.mem_map.mp hm
      · rw [negate_type]; exact ho.supported o1 h1
      · rw [negate_type, negate_id]; exact ho.typed o1 h1
      · exact negate_ready (ho.ready o1 h1)
    · exact ho
  obtain ⟨l, h1, h2, h3, h4⟩ := merge_shows hw h OpType.isRotate hbad
  refine ⟨_, l, rfl, ?_, h2, ?_, h4⟩
  · rw [blendToOpsSqt, hal, Option.bind_some]; exact h1
  · intro i
    rw [h3]
    have : (if rotation.dot q < 0 then ops.map Op.negate else ops).map (·.id) = ops.map (·.id) := by
      split_ifs
      · rw [List.map_map]; exact List.map_congr_left fun o _ => negate_id o
      · rfl
    rw [this]

/-! ### Cases -/

/-- An animation of a rotation that repeats, with the sample spline, a constant scale and a target, blended to from a translation
in frames of different lengths: the hypotheses of `C97_program` hold. -/
example : ∃ (kind : ℕ → OpType) (ops : List (Op splineDriver)), Works Supported kind ops ∧ (∃ o ∈ ops, o.motivator.isSome ∧ o.velocity = 3) ∧
    Clip Supported kind [⟨some ⟨-Real.pi, Real.pi⟩, 5, .rotateZ, .spline Spline.sample⟩, ⟨none, 8, .scaleX, .initial 2⟩,
      ⟨some ⟨1, 0⟩, 9, .translateY, .target ⟨[⟨1, 0, 10, .closest⟩, ⟨7, 0, 40, .closest⟩]⟩⟩]
      { startX := 1, repeating := true, rate := 2, blendX := 100 } [16, 17, 1000, 32000] := by
  refine ⟨fun i => if i = 1 then .translateX else if i = 5 then .rotateZ else if i = 8 then .scaleX else .translateY,
    [⟨1, .translateX, some (some ⟨fun _ => none, { spline := some 1, y := 7, cubic := ⟨0, 0, 3, 7⟩ }⟩), 0⟩, ⟨8, .scaleX, none, 4⟩],
    ⟨?_, ?_, ?_, ?_⟩, ⟨_, List.mem_cons_self .., rfl, ?_⟩, ⟨?_, ?_, ?_, ?_, ?_, ?_, ?_, ?_, ?_, ?_⟩⟩
  · simp [Ascending]
  · simp [Supported, OpType.isTranslate, OpType.isScale]
  · simp
  · intro o ho
    simp only [List.mem_cons, List.not_mem_nil, or_false] at ho
    rcases ho with rfl | rfl
    · intro m hm
      simp only [Option.some.injEq] at hm
      subst hm
      exact ⟨_, rfl, rfl, rfl, by simp⟩
    · simp [Ready]
  · simp [Op.velocity, Slot.derivative, Cubic.deriv]
  · norm_num
  · norm_num
  · norm_num
  · intro n hn
    simp only [List.mem_cons, List.not_mem_nil, or_false] at hn
    rcases hn with rfl | rfl | rfl
    · exact .spline _ _ _ _ (by norm_num)
    · exact .const _ _ _ (by norm_num)
    · exact .target _ _ _ _ (by norm_num)
  · simp [Ascending]
  · simp [Supported, OpType.isRotate, OpType.isScale, OpType.isTranslate]
  · simp
  · intro n hn
    simp only [List.mem_cons, List.not_mem_nil, or_false] at hn
    rcases hn with rfl | rfl | rfl
    · exact ⟨Spline.sample_wf.1, Spline.sample_wf.2, 9, SplineProc.endX_sample, by norm_num, by norm_num [Spline.sample]⟩
    · trivial
    · refine ⟨by simp [Target.WF], ?_, by simp [OpType.isRotate]⟩
      intro e he
      simp only [Target.endTime, List.getLast?_cons_cons, List.getLast?_singleton, Option.map_some, Option.some.injEq] at he
      subst he
      simp
  · simp [rangeOfOp, OpType.isRotate]
  · intro d hd
    simp only [List.mem_cons, List.not_mem_nil, or_false] at hd
    omega

end
end Motive.Matrix4
