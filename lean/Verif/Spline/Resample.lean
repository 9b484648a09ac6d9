import Verif.Spline.BulkRange
import Verif.Spline.BulkProps

/-!
# C110: sampling splines, and splines made of the samples of others

`BulkEvaluate` with its two kinds of output, `BulkYs`, `Ys`, `InitFromSpline` and `CreateFromSpline`
(src/motive/math/compact_spline.cpp:41-97, 111-120, 223-259, include/motive/math/compact_spline.h:366-398).
-/

namespace Motive.Splines
open Motive.Math Motive.Curve

noncomputable section

/-! ### Model -/

/-- What a loop has done after some number of iterations: it has ended with a result, it has failed an assertion or has undefined behaviour, or it
still runs. -/
inductive Outcome (σ : Type) where
  | done (s : σ)
  | failed
  | running

/-- The loop of `BulkEvaluate` (compact_spline.cpp:248-251). `add` is `AddPoint` of the output. The counter has 16 bits; `fuel` is the number of times
that its condition is tested. -/
def bulkLoop {σ : Type} (add : ℕ → Evaluator → σ → Option σ) (h : Heap) (dx : ℝ) (num : ℕ) : ℕ → ℕ → Evaluator → σ → Outcome σ
  | 0, _, _, _ => .running
  | fuel + 1, i, e, o =>
    if i < num then
      match add i e o with
      | none => .failed
      | some o' =>
        match e.advanceFrame h dx with
        | none => .failed
        | some e' => bulkLoop add h dx num fuel ((i + 1) % 65536) e' o'
    else .done o

/-- `BulkEvaluate` (compact_spline.cpp:231-252). The splines of the array are those of the list `ids`. -/
def bulkEvaluate {σ : Type} (add : ℕ → Evaluator → σ → Option σ) (h : Heap) (ids : List ℕ) (x dx : ℝ) (num fuel : ℕ) (o : σ) : Outcome σ :=
  match Evaluator.setSplines h (Evaluator.setNumIndices [] ids.length) 0 ids { startX := x } with
  | none => .failed
  | some e => bulkLoop add h dx num fuel 0 e o

/-- The arrays of `YsBulkOutput` (compact_spline.cpp:66-69), as what is in memory from their first elements on. -/
structure YsOut where
  ys : ℕ → ℝ
  derivatives : Option (ℕ → ℝ)

/-- What `YsBulkOutput::AddPoint` writes to an array (compact_spline.cpp:52-63): the values of `f` at the `n` indices from `i * n` on. -/
def writeRow (n i : ℕ) (f : ℕ → Option ℝ) (m : ℕ → ℝ) : ℕ → ℝ :=
  fun k => if i * n ≤ k ∧ k < i * n + n then (f (k - i * n)).getD (m k) else m k

/-- `YsBulkOutput::AddPoint` (compact_spline.cpp:49-64) with its assertion. `Ys(0)` of an evaluator without splines is undefined. The index of the
spline is converted to 16 bits when its derivative is read. -/
def ysAdd (n i : ℕ) (e : Evaluator) (o : YsOut) : Option YsOut :=
  if n = e.length ∧ 0 < n then
    some { ys := writeRow n i (fun j => e[j]?.map (·.y)) o.ys
           derivatives := o.derivatives.map (writeRow n i fun j => e[j % 65536]?.map (·.derivative)) }
  else none

/-- `BulkYs` (compact_spline.cpp:254-259); `Ys` (223-229) is the case of one spline. -/
def bulkYs (h : Heap) (ids : List ℕ) (x dx : ℝ) (num fuel : ℕ) (o : YsOut) : Outcome YsOut := bulkEvaluate (ysAdd ids.length) h ids x dx num fuel o

/-- `AppendToSplineBulkOutput::AddPoint` (compact_spline.cpp:82-92) for one spline. -/
def appendAdd (h : Heap) (_i : ℕ) (e : Evaluator) (s : Spline) : Option Spline :=
  match e with
  | [c] => (c.X h).bind fun x => s.addNode x c.y c.derivative .withoutModification
  | _ => none

/-- `InitFromSpline` (compact_spline.cpp:111-120) with its assertion, and those of `StartX` and `EndX`. -/
def initFromSpline (dst src : Spline) (fuel : ℕ) : Outcome Spline :=
  if 1 < dst.maxNodes then
    match src.startX, src.endX with
    | some a, some b =>
      bulkEvaluate (appendAdd fun _ => some src) (fun _ => some src) [0] a ((b - a) / ((dst.maxNodes : ℝ) - 1)) dst.maxNodes fuel
        (dst.init (src.yRange.lengthen (21 / 20)) src.g)
    | _, _ => .failed
  else .failed

/-- `CreateFromSpline` (compact_spline.h:373-379) with its assertion; `CreateFromSplineInPlace` (389-396) does the same. -/
def createFromSpline (src : Spline) (n fuel : ℕ) : Outcome Spline :=
  if n ≤ 65532 then initFromSpline (Spline.create n) src fuel else .failed

/-! ### Specification -/

/-- `v` and `d` are the value and the derivative of a spline at `x`: those of direct evaluation, if `x` is more than half a grain away from the nodes, and
those of the node if `x` is on a node that is alone at its x (the derivative only if it is not the first node, before which the spline is flat). -/
def Shows (s : Spline) (x v d : ℝ) : Prop :=
  ((∀ n ∈ s.nodes, s.g / 2 < |x - n.X s.g|) → s.calculate x .value = some v ∧ s.calculate x .derivative = some d) ∧
  ∀ k n, s.nodes[k]? = some n → (∀ m, 0 < k → s.nodes[k - 1]? = some m → m.x < n.x) → (∀ m, s.nodes[k + 1]? = some m → n.x < m.x) → x = n.X s.g →
    v = n.Y s.yRange ∧ (0 < k → d = n.D)

/-- The node `m` of `dst` is where `src` is at `x`, up to rounding: half a grain, a rung, and a step of the angle. -/
def Samples (src dst : Spline) (x : ℝ) (m : Node) : Prop :=
  ∃ v d, Shows src x v d ∧ |m.X dst.g - x| ≤ dst.g / 2 ∧ m.Y dst.yRange ≤ v ∧ v - m.Y dst.yRange ≤ dst.yRange.length / 65535 ∧
    |Real.arctan m.D - Real.arctan d| < angleScale

/-- The curve of each segment stays in a range, from half a grain before the segment to half a grain after it. -/
def StaysIn (s : Spline) (r : Range ℝ) : Prop :=
  ∀ i a b, s.nodes[i]? = some a → s.nodes[i + 1]? = some b → ∀ x, a.X s.g - s.g / 2 ≤ x → x ≤ b.X s.g + s.g / 2 →
    r.start ≤ (Cubic.init (s.cubicInit a b)).eval (x - a.X s.g) ∧ (Cubic.init (s.cubicInit a b)).eval (x - a.X s.g) ≤ r.stop

/-! ### The loop -/

/-- With at most 65535 points the loop calls `AddPoint` once for each frame of the evaluator, in order. -/
theorem loop_eq {σ : Type} (add : ℕ → Evaluator → σ → Option σ) {h : Heap} {dx : ℝ} {num : ℕ} (hnum : num ≤ 65535) {E : ℕ → Evaluator}
    (hE : ∀ i < num, (E i).advanceFrame h dx = some (E (i + 1))) : ∀ (k i : ℕ), i + k = num → ∀ (fuel : ℕ), k < fuel → ∀ (o : σ),
    bulkLoop add h dx num fuel i (E i) o =
      match (List.range' i k).foldlM (fun o i => add i (E i) o) o with
      | none => .failed
      | some o' => .done o' := by
  intro k
  induction k with
  | zero =>
    intro i hi fuel hf o
    obtain ⟨fuel, rfl⟩ : ∃ n, fuel = n + 1 := ⟨fuel - 1, by omega⟩
    unfold bulkLoop
    rw [if_neg (by omega)]
    rfl
  | succ k ih =>
    intro i hi fuel hf o
    obtain ⟨fuel, rfl⟩ : ∃ n, fuel = n + 1 := ⟨fuel - 1, by omega⟩
    unfold bulkLoop
    rw [if_pos (by omega), List.range'_succ, List.foldlM_cons]
    cases ha : add i (E i) o with
    | none => rfl
    | some o' =>
      simp only [hE i (by omega), Option.bind_eq_bind, Option.bind_some]
      rw [Nat.mod_eq_of_lt (by omega)]
      exact ih (i + 1) (by omega) fuel (by omega) o'

/-- With more points it does not end. -/
theorem loop_runs {σ : Type} (add : ℕ → Evaluator → σ → Option σ) (h : Heap) (dx : ℝ) {num : ℕ} (hnum : 65536 ≤ num) :
    ∀ (fuel i : ℕ), i < 65536 → ∀ (e : Evaluator) (o s : σ), bulkLoop add h dx num fuel i e o ≠ .done s := by
  intro fuel
  induction fuel with
  | zero => intro i _ e o s hh; cases hh
  | succ fuel ih =>
    intro i hi e o s hh
    unfold bulkLoop at hh
    rw [if_pos (by omega)] at hh
    split at hh
    · cases hh
    · split at hh
      · cases hh
      · exact ih _ (Nat.mod_lt _ (by norm_num)) _ _ _ hh

theorem mapM_map_some {α β : Type} {f : β → Option β} {g g' : α → β} : ∀ {l : List α}, (∀ x ∈ l, f (g x) = some (g' x)) →
    (l.map g).mapM f = some (l.map g') := by
  intro l
  induction l with
  | nil => intro _; rfl
  | cons a l ih =>
    intro hl
    rw [List.map_cons, List.mapM_cons, hl a (by simp), ih (fun x hx => hl x (by simp [hx]))]
    rfl

theorem play_succ {hp : Heap} {c : Slot} {id : ℕ} {p : Playback} {dx : ℝ} {i : ℕ} :
    c.play hp id p (List.replicate (i + 1) dx) = (c.play hp id p (List.replicate i dx)).bind (Slot.advance hp dx) := by
  unfold Slot.play
  cases c.setSpline hp id p with
  | none => rfl
  | some c1 =>
    simp only [Option.bind_some]
    rw [List.replicate_succ', List.foldlM_append]
    cases List.foldlM (fun c dx => c.advance hp dx) c1 (List.replicate i dx) with
    | none => rfl
    | some c2 =>
      simp only [List.foldlM_cons, List.foldlM_nil, Option.bind_eq_bind, Option.bind_some, Option.pure_def]
      cases c2.advance hp dx <;> rfl

/-- The evaluator of `BulkEvaluate` after `i` frames: each index plays its spline. -/
def frames (hp : Heap) (ids : List ℕ) (x dx : ℝ) (i : ℕ) : Evaluator :=
  ids.map fun id => (Slot.play hp {} id { startX := x } (List.replicate i dx)).getD {}

theorem frames_spec {hp : Heap} {ids : List ℕ} {x dx : ℝ} {num : ℕ}
    (hplay : ∀ id ∈ ids, ∀ i ≤ num, (Slot.play hp {} id { startX := x } (List.replicate i dx)).isSome) :
    Evaluator.setSplines hp (Evaluator.setNumIndices [] ids.length) 0 ids { startX := x } = some (frames hp ids x dx 0) ∧
      ∀ i < num, (frames hp ids x dx i).advanceFrame hp dx = some (frames hp ids x dx (i + 1)) := by
  have hset : ∀ id ∈ ids, Slot.setSpline hp {} id { startX := x } = some ((Slot.play hp {} id { startX := x } (List.replicate 0 dx)).getD {}) := by
    intro id hid
    have := hplay id hid 0 (by omega)
    unfold Slot.play at this ⊢
    cases hc : Slot.setSpline hp {} id { startX := x } with
    | none => rw [hc] at this; cases this
    | some c => rfl
  constructor
  · have hcell : ∀ k id, ids[k]? = some id → (Evaluator.setNumIndices [] ids.length)[0 + k]? = some ({} : Slot) := by
      intro k id hk
      have := (List.getElem?_eq_some_iff.mp hk).1
      unfold Evaluator.setNumIndices
      rw [List.take_nil, List.nil_append, List.getElem?_replicate, if_pos (by simpa using this)]
    obtain ⟨s1, s2⟩ := Evaluator.C63_set_splines (h := hp) (e := Evaluator.setNumIndices [] ids.length) (index := 0) (ids := ids) (p := { startX := x })
    obtain ⟨e', he⟩ := s2 (fun k id hk => ⟨{}, _, hcell k id hk, hset id (List.mem_of_getElem? hk)⟩)
    rw [he]
    obtain ⟨l1, -, l3⟩ := s1 e' he
    congr 1
    refine List.ext_getElem? fun k => ?_
    cases hk : ids[k]? with
    | none =>
      have : ids.length ≤ k := List.getElem?_eq_none_iff.mp hk
      rw [List.getElem?_eq_none (by rw [l1]; simpa [Evaluator.setNumIndices] using this), List.getElem?_eq_none (by simpa [frames] using this)]
    | some id =>
      obtain ⟨c, c', a1, a2, a3⟩ := l3 k id hk
      rw [hcell k id hk] at a1
      cases a1
      rw [hset id (List.mem_of_getElem? hk)] at a2
      cases a2
      rw [Nat.zero_add] at a3
      rw [a3]
      unfold frames
      rw [List.getElem?_map, hk]
      rfl
  · intro i hi
    unfold Evaluator.advanceFrame frames
    refine mapM_map_some fun id hid => ?_
    rw [play_succ]
    obtain ⟨c, hc⟩ := Option.isSome_iff_exists.mp (hplay id hid i (by omega))
    obtain ⟨c', hc'⟩ := Option.isSome_iff_exists.mp (hplay id hid (i + 1) (by omega))
    rw [play_succ, hc, Option.bind_some] at hc'
    rw [hc, Option.bind_some, hc']
    exact hc'

theorem bulk_eq {σ : Type} (add : ℕ → Evaluator → σ → Option σ) {hp : Heap} {ids : List ℕ} {x dx : ℝ} {num : ℕ} (hnum : num ≤ 65535)
    (hplay : ∀ id ∈ ids, ∀ i ≤ num, (Slot.play hp {} id { startX := x } (List.replicate i dx)).isSome) {fuel : ℕ} (hf : num < fuel) (o : σ) :
    bulkEvaluate add hp ids x dx num fuel o =
      match (List.range num).foldlM (fun o i => add i (frames hp ids x dx i) o) o with
      | none => .failed
      | some o' => .done o' := by
  obtain ⟨h1, h2⟩ := frames_spec hplay
  unfold bulkEvaluate
  rw [h1]
  simp only
  rw [loop_eq add hnum (E := frames hp ids x dx) h2 num 0 (by omega) fuel hf o, List.range_eq_range']

theorem Reports.shows {s : Spline} {x : ℝ} {c : Slot} {X : ℝ} (h : Slot.Reports s { startX := x } c X) : Shows s X c.y c.derivative := by
  constructor
  · intro ha
    obtain ⟨v, d, h1, h2, h3, h4⟩ := h.1 ha
    simp only [one_mul, add_zero] at h3 h4
    rw [h3, h4]
    exact ⟨h1, h2⟩
  · intro k n h1 h2 h3 h4
    obtain ⟨e1, e2⟩ := h.2 k n h1 h2 h3 h4
    simp only [one_mul, add_zero] at e1 e2
    exact ⟨e1, e2⟩

/-! ### Sampling -/

theorem row_inside {n i j : ℕ} (hj : j < n) (f : ℕ → Option ℝ) (m : ℕ → ℝ) {v : ℝ} (hf : f j = some v) : writeRow n i f m (i * n + j) = v := by
  unfold writeRow
  rw [if_pos (by omega), Nat.add_sub_cancel_left, hf]
  rfl

theorem row_outside {n i k : ℕ} (hk : k < i * n ∨ i * n + n ≤ k) (f : ℕ → Option ℝ) (m : ℕ → ℝ) : writeRow n i f m k = m k := by
  unfold writeRow
  rw [if_neg (by omega)]

theorem rows {n : ℕ} (hn : 0 < n) {E : ℕ → Evaluator} (hE : ∀ i, (E i).length = n) (o : YsOut) : ∀ (num : ℕ),
    ∃ o', (List.range num).foldlM (fun o i => ysAdd n i (E i) o) o = some o' ∧
      (∀ i < num, ∀ j c, (E i)[j]? = some c → o'.ys (i * n + j) = c.y) ∧ (∀ k, num * n ≤ k → o'.ys k = o.ys k) ∧
      (o.derivatives = none → o'.derivatives = none) ∧
      ∀ m, o.derivatives = some m → ∃ m', o'.derivatives = some m' ∧
        (∀ i < num, ∀ j < n, ∀ c, (E i)[j % 65536]? = some c → m' (i * n + j) = c.derivative) ∧ ∀ k, num * n ≤ k → m' k = m k := by
  intro num
  induction num with
  | zero => exact ⟨o, rfl, by omega, fun _ _ => rfl, fun h => h, fun m h => ⟨m, h, by omega, fun _ _ => rfl⟩⟩
  | succ num ih =>
    obtain ⟨o1, h1, h2, h3, h4, h5⟩ := ih
    have hrow : ∀ {i j : ℕ}, i < num → j < n → i * n + j < num * n := by
      intro i j hi hj
      have : (i + 1) * n ≤ num * n := Nat.mul_le_mul_right n hi
      rw [Nat.add_mul, Nat.one_mul] at this
      omega
    have hlt : ∀ {i j : ℕ} {c : Slot}, (E i)[j]? = some c → j < n := by
      intro i j c h
      rw [← hE i]
      exact (List.getElem?_eq_some_iff.mp h).1
    have hsucc : (num + 1) * n = num * n + n := by rw [Nat.add_mul, Nat.one_mul]
    refine ⟨{ ys := writeRow n num (fun j => (E num)[j]?.map (·.y)) o1.ys
              derivatives := o1.derivatives.map (writeRow n num fun j => (E num)[j % 65536]?.map (·.derivative)) }, ?_, ?_, ?_, ?_, ?_⟩
    · rw [List.range_succ, List.foldlM_append, h1]
      simp only [Option.bind_eq_bind, Option.bind_some, List.foldlM_cons, List.foldlM_nil, Option.pure_def]
      unfold ysAdd
      rw [if_pos ⟨(hE num).symm, hn⟩]
      rfl
    · intro i hi j c hc
      show writeRow n num (fun j => (E num)[j]?.map (·.y)) o1.ys (i * n + j) = c.y
      rcases Nat.lt_succ_iff_lt_or_eq.mp hi with hi | he
      · rw [← h2 i hi j c hc]
        exact row_outside (Or.inl (hrow hi (hlt hc))) _ _
      · rw [he] at hc ⊢
        exact row_inside (hlt hc) _ _ (by rw [hc]; rfl)
    · intro k hk
      rw [hsucc] at hk
      show writeRow n num (fun j => (E num)[j]?.map (·.y)) o1.ys k = _
      rw [← h3 k (by omega)]
      exact row_outside (Or.inr (by omega)) _ _
    · intro h
      show o1.derivatives.map _ = none
      rw [h4 h]
      rfl
    · intro m hm
      obtain ⟨m1, k1, k2, k3⟩ := h5 m hm
      refine ⟨_, by show o1.derivatives.map _ = _; rw [k1]; rfl, ?_, ?_⟩
      · intro i hi j hj c hc
        rcases Nat.lt_succ_iff_lt_or_eq.mp hi with hi | he
        · rw [← k2 i hi j hj c hc]
          exact row_outside (Or.inl (hrow hi hj)) _ _
        · rw [he] at hc ⊢
          exact row_inside hj _ _ (by rw [hc]; rfl)
      · intro k hk
        rw [hsucc] at hk
        rw [← k3 k (by omega)]
        exact row_outside (Or.inr (by omega)) _ _

/-- A spline that `BulkEvaluate` can sample: its nodes are in order, and the points do not leave the integers. -/
def Samplable (hp : Heap) (x dx : ℝ) (num : ℕ) (id : ℕ) : Prop :=
  ∃ s b, hp id = some s ∧ s.WF ∧ s.Indexable ∧ s.endX = some b ∧ (x + b + num * dx) / s.g + 1 / 2 < 2147483648

theorem samplable_play {hp : Heap} {x dx : ℝ} (hx : 0 ≤ x) (hdx : 0 ≤ dx) {num id : ℕ} (h : Samplable hp x dx num id) {i : ℕ} (hi : i ≤ num) :
    ∃ s c, hp id = some s ∧ Slot.play hp {} id { startX := x } (List.replicate i dx) = some c ∧ c.X hp = some (x + i * dx) ∧
      Shows s (x + i * dx) c.y c.derivative := by
  obtain ⟨s, b, h1, h2, h3, h4, h5⟩ := h
  have hsum : (List.replicate i dx).sum * (1 : ℝ) = i * dx := by simp
  have hle : (i : ℝ) * dx ≤ num * dx := mul_le_mul_of_nonneg_right (by exact_mod_cast hi) hdx
  obtain ⟨c, e1, e2, e3⟩ := Slot.C26_bulk_agrees h2 h3 h1 {} { startX := x } rfl (Or.inl rfl) (by norm_num) hx h4 (List.replicate i dx)
    (by intro d hd; rw [List.eq_of_mem_replicate hd]; exact hdx) (by
      have : (x + b + (List.replicate i dx).sum * 1) / s.g ≤ (x + b + num * dx) / s.g := by
        rw [div_le_div_iff_of_pos_right h2.g_pos, hsum]
        linarith
      simp only
      linarith)
  simp only [hsum] at e2 e3
  exact ⟨s, c, h1, e1, e2, Reports.shows e3⟩

/-- **C110.** `BulkYs` samples all splines of an array at the points `x`, `x + dx`, ...: the element of spline `j` in row `i` of the array is the value of
the spline there, and that of the other array, if there is one, its derivative. Nothing is written after the rows. -/
theorem C110_ys {hp : Heap} {ids : List ℕ} (hne : ids ≠ []) (hlen : ids.length ≤ 65536) {x dx : ℝ} (hx : 0 ≤ x) (hdx : 0 ≤ dx) {num : ℕ}
    (hnum : num ≤ 65535) (hs : ∀ id ∈ ids, Samplable hp x dx num id) (ys ds : ℕ → ℝ) :
    ∃ ys' ds' : ℕ → ℝ, (∀ fuel > num, bulkYs hp ids x dx num fuel ⟨ys, some ds⟩ = .done ⟨ys', some ds'⟩ ∧
        bulkYs hp ids x dx num fuel ⟨ys, none⟩ = .done ⟨ys', none⟩) ∧
      (∀ i < num, ∀ j id s, ids[j]? = some id → hp id = some s →
        Shows s (x + i * dx) (ys' (i * ids.length + j)) (ds' (i * ids.length + j))) ∧
      ∀ k, num * ids.length ≤ k → ys' k = ys k ∧ ds' k = ds k := by
  have hn : 0 < ids.length := List.length_pos_of_ne_nil hne
  have hplay : ∀ id ∈ ids, ∀ i ≤ num, (Slot.play hp {} id { startX := x } (List.replicate i dx)).isSome := by
    intro id hid i hi
    obtain ⟨s, c, -, h, -⟩ := samplable_play hx hdx (hs id hid) hi
    rw [h]; rfl
  have hE : ∀ i, (frames hp ids x dx i).length = ids.length := fun i => by simp [frames]
  obtain ⟨⟨ys', d1⟩, a1, a2, a3, -, a5⟩ := rows hn hE ⟨ys, some ds⟩ num
  obtain ⟨⟨ys'', d2⟩, b1, b2, b3, b4, -⟩ := rows hn hE ⟨ys, none⟩ num
  obtain ⟨ds', c1, c2, c3⟩ := a5 ds rfl
  have hd2 : d2 = none := b4 rfl
  simp only at a2 a3 b2 b3 c1
  subst hd2 c1
  have hcell : ∀ i j, j < ids.length → ∃ c, (frames hp ids x dx i)[j]? = some c := by
    intro i j hj
    exact ⟨_, List.getElem?_eq_getElem (by rw [hE]; exact hj)⟩
  have hsame : ys'' = ys' := by
    funext k
    rcases Nat.lt_or_ge k (num * ids.length) with hk | hk
    · have hi : k / ids.length < num := (Nat.div_lt_iff_lt_mul hn).mpr hk
      obtain ⟨c, hc⟩ := hcell (k / ids.length) (k % ids.length) (Nat.mod_lt _ hn)
      have e : k / ids.length * ids.length + k % ids.length = k := by rw [Nat.mul_comm]; exact Nat.div_add_mod _ _
      have h1 := a2 _ hi _ c hc
      have h2 := b2 _ hi _ c hc
      rw [e] at h1 h2
      rw [h1, h2]
    · rw [a3 k hk, b3 k hk]
  subst hsame
  refine ⟨ys'', ds', ?_, ?_, fun k hk => ⟨a3 k hk, c3 k hk⟩⟩
  · intro fuel hf
    unfold bulkYs
    rw [bulk_eq _ hnum hplay hf, bulk_eq _ hnum hplay hf, a1, b1]
    exact ⟨rfl, rfl⟩
  · intro i hi j id s hj hid
    have hjl := (List.getElem?_eq_some_iff.mp hj).1
    obtain ⟨s', c, h1, h2, -, h4⟩ := samplable_play hx hdx (hs id (List.mem_of_getElem? hj)) (le_of_lt hi)
    rw [hid] at h1
    cases h1
    have hc : (frames hp ids x dx i)[j]? = some c := by
      unfold frames
      rw [List.getElem?_map, hj, Option.map_some, h2]
      rfl
    rw [a2 i hi j c hc, c2 i hi j hjl c (by rw [Nat.mod_eq_of_lt (by omega)]; exact hc)]
    exact h4

/-- With more than 65535 points `BulkYs` does not return: the 16 bits of its counter are always less than the number of points. -/
theorem C110_many_points (hp : Heap) (ids : List ℕ) (x dx : ℝ) {num : ℕ} (hnum : 65536 ≤ num) (fuel : ℕ) (o o' : YsOut) :
    bulkYs hp ids x dx num fuel o ≠ .done o' := by
  unfold bulkYs bulkEvaluate
  split
  · intro h; cases h
  · exact loop_runs _ _ _ hnum _ _ (by norm_num) _ _ _

/-! ### Splines made of samples -/

/-- What a plain `AddNode` does to the nodes. -/
theorem add_plain {s s' : Spline} {x y d : ℝ} (h : s.addNode x y d .withoutModification = some s') :
    ∃ n, Node.make x y d s.g s.yRange = some n ∧ s'.g = s.g ∧ s'.yRange = s.yRange ∧
      (s'.nodes = s.nodes ++ [n] ∨ s'.nodes = s.nodes ∨ 2 ≤ s.nodes.length ∧ s'.nodes = s.nodes.dropLast ++ [n]) ∧
      ((∀ last, s.nodes.getLast? = some last → last.x < n.x) → s'.nodes = s.nodes ++ [n]) := by
  unfold Spline.addNode at h
  obtain ⟨n, h1, h2⟩ := Option.bind_eq_some_iff.mp h
  refine ⟨n, h1, ?_⟩
  have hv : ∀ {t t' : Spline}, t.addVerbatim n = some t' → t' = { t with nodes := t.nodes ++ [n] } := by
    intro t t' ht
    unfold Spline.addVerbatim at ht
    split at ht
    · exact (Option.some.inj ht).symm
    · cases ht
  cases hl : s.nodes.getLast? with
  | none =>
    rw [hl] at h2
    rw [hv h2]
    exact ⟨rfl, rfl, Or.inl rfl, fun _ => rfl⟩
  | some last =>
    rw [hl] at h2
    simp only at h2
    split at h2
    · cases h2
    · split at h2
      · rename_i he
        cases h2
        exact ⟨rfl, rfl, Or.inr (Or.inl rfl), fun hlt => absurd (hlt last rfl) (by rw [he]; omega)⟩
      · split at h2
        · rename_i hx
          have hd : (s.dropMiddle n).nodes = s.nodes ∨ 2 ≤ s.nodes.length ∧ (s.dropMiddle n).nodes = s.nodes.dropLast := by
            unfold Spline.dropMiddle
            split
            · rename_i b a t ht
              have : 2 ≤ s.nodes.length := by
                have := congrArg List.length ht
                simp at this
                omega
              split
              · exact Or.inr ⟨this, rfl⟩
              · exact Or.inl rfl
            · exact Or.inl rfl
          have hf : (s.dropMiddle n).g = s.g ∧ (s.dropMiddle n).yRange = s.yRange := by
            unfold Spline.dropMiddle
            split
            · split <;> exact ⟨rfl, rfl⟩
            · exact ⟨rfl, rfl⟩
          rw [hv h2]
          refine ⟨hf.1, hf.2, ?_, fun hlt => absurd (hlt last rfl) (by omega)⟩
          rcases hd with hd | ⟨h3, hd⟩
          · exact Or.inl (by simp only [hd])
          · exact Or.inr (Or.inr ⟨h3, by simp only [hd]⟩)
        · rw [if_neg (by simp)] at h2
          rw [hv h2]
          exact ⟨rfl, rfl, Or.inl rfl, fun _ => rfl⟩

/-- The node that a call makes. -/
def Spline.AddCall.node (c : Spline.AddCall) (s : Spline) : Option Node := Node.make c.x c.y c.d s.g s.yRange

theorem addAll_nodes : ∀ {cs : List Spline.AddCall} {s s' : Spline}, s.WF → (∀ c ∈ cs, c.m = .withoutModification) → s.addAll cs = some s' →
    (∀ n ∈ s'.nodes, n ∈ s.nodes ∨ ∃ c ∈ cs, c.node s = some n) ∧ (∀ f, s.nodes.head? = some f → s'.nodes.head? = some f) ∧
      (∀ c, cs.getLast? = some c → ∃ n, c.node s = some n ∧ s'.nodes.getLast? = some n) := by
  intro cs
  induction cs with
  | nil => intro s s' _ _ h; cases h; exact ⟨fun n hn => Or.inl hn, fun f hf => hf, by simp⟩
  | cons c cs ih =>
    intro s s' hs hm h
    obtain ⟨s1, h1, h2⟩ := Option.bind_eq_some_iff.mp h
    rw [hm c (by simp)] at h1
    obtain ⟨w, f, -, -, ⟨n0, hn0, hlast⟩, -⟩ := Spline.addNode_spec hs h1
    obtain ⟨n, a1, a2, a3, a4, -⟩ := add_plain h1
    obtain ⟨b1, b2, b3⟩ := ih w (fun c hc => hm c (by simp [hc])) h2
    have hnode : ∀ c : Spline.AddCall, c.node s1 = c.node s := by
      intro c
      unfold Spline.AddCall.node
      rw [a2, a3]
    refine ⟨?_, ?_, ?_⟩
    · intro m hmem
      rcases b1 m hmem with h | ⟨c', hc', he⟩
      · have : m ∈ s.nodes ∨ m = n := by
          rcases a4 with e | e | ⟨-, e⟩
          · rw [e] at h; simpa using h
          · rw [e] at h; exact Or.inl h
          · rw [e] at h
            rcases List.mem_append.mp h with h | h
            · exact Or.inl (List.dropLast_subset _ h)
            · exact Or.inr (by simpa using h)
        rcases this with h | rfl
        · exact Or.inl h
        · exact Or.inr ⟨c, by simp, a1⟩
      · exact Or.inr ⟨c', by simp [hc'], by rw [← hnode]; exact he⟩
    · intro f hf
      refine b2 f ?_
      cases hsn : s.nodes with
      | nil => rw [hsn] at hf; cases hf
      | cons g t =>
        rw [hsn] at hf a4
        cases hf
        rcases a4 with e | e | ⟨e2, e⟩
        · rw [e]; rfl
        · rw [e]; rfl
        · rw [e]
          cases t with
          | nil => simp at e2
          | cons _ _ => rfl
    · intro c' hc'
      cases cs with
      | nil =>
        simp at hc'
        subst hc'
        cases h2
        exact ⟨n0, hn0, hlast⟩
      | cons c2 cs =>
        rw [List.getLast?_cons_cons] at hc'
        obtain ⟨m, m1, m2⟩ := b3 c' hc'
        exact ⟨m, by rw [← hnode]; exact m1, m2⟩

/-- Calls at x of different grains each add their node. -/
theorem addAll_apart : ∀ {cs : List Spline.AddCall} {s s' : Spline}, s.WF → (∀ c ∈ cs, c.m = .withoutModification) → s.addAll cs = some s' →
    (cs.Pairwise fun c c' => ∀ q q', compactX c.x s.g = some q → compactX c'.x s.g = some q' → q < q') →
    (∀ last, s.nodes.getLast? = some last → ∀ c ∈ cs, ∀ q, compactX c.x s.g = some q → last.x < q) →
    s'.nodes.length = s.nodes.length + cs.length ∧ ∀ k c, cs[k]? = some c → ∃ n, c.node s = some n ∧ s'.nodes[s.nodes.length + k]? = some n := by
  intro cs
  have main : ∀ (cs : List Spline.AddCall) {s s' : Spline}, s.WF → (∀ c ∈ cs, c.m = .withoutModification) → s.addAll cs = some s' →
      (cs.Pairwise fun c c' => ∀ q q', compactX c.x s.g = some q → compactX c'.x s.g = some q' → q < q') →
      (∀ last, s.nodes.getLast? = some last → ∀ c ∈ cs, ∀ q, compactX c.x s.g = some q → last.x < q) →
      ∃ ns, s'.nodes = s.nodes ++ ns ∧ cs.mapM (·.node s) = some ns := by
    intro cs
    induction cs with
    | nil => intro s s' _ _ h _ _; cases h; exact ⟨[], by simp, rfl⟩
    | cons c cs ih =>
      intro s s' hs hm h hp hl
      obtain ⟨s1, h1, h2⟩ := Option.bind_eq_some_iff.mp h
      rw [hm c (by simp)] at h1
      obtain ⟨w, -⟩ := Spline.addNode_spec hs h1
      obtain ⟨n, a1, a2, a3, -, a5⟩ := add_plain h1
      obtain ⟨n1, n2, n3⟩ := make_some a1
      have hn := a5 fun last hlast => hl last hlast c (by simp) _ n1
      obtain ⟨p1, p2⟩ := List.pairwise_cons.mp hp
      obtain ⟨ns, k1, k2⟩ := ih w (fun c hc => hm c (by simp [hc])) h2 (by rw [a2]; exact p2) (by
        intro last hlast c' hc' q hq
        rw [hn] at hlast
        simp at hlast
        subst hlast
        rw [a2] at hq
        exact p1 c' hc' _ _ n1 hq)
      refine ⟨n :: ns, by rw [k1, hn]; simp, ?_⟩
      have : (fun c : Spline.AddCall => c.node s1) = fun c => c.node s := by
        funext c
        unfold Spline.AddCall.node
        rw [a2, a3]
      rw [this] at k2
      rw [List.mapM_cons, show c.node s = some n from a1, k2]
      rfl
  intro s s' hs hm h hp hl
  obtain ⟨ns, k1, k2⟩ := main cs hs hm h hp hl
  have hlen : ∀ {l : List Spline.AddCall} {ns : List Node}, l.mapM (·.node s) = some ns →
      ns.length = l.length ∧ ∀ (k : ℕ) (c : Spline.AddCall), l[k]? = some c → ∃ n, c.node s = some n ∧ ns[k]? = some n := by
    intro l
    induction l with
    | nil => intro ns h; cases h; simp
    | cons a l ih =>
      intro ns h
      rw [List.mapM_cons] at h
      obtain ⟨n, e1, e2⟩ := Option.bind_eq_some_iff.mp h
      obtain ⟨ns', e3, e4⟩ := Option.bind_eq_some_iff.mp e2
      cases e4
      obtain ⟨i1, i2⟩ := ih e3
      refine ⟨by simp [i1], ?_⟩
      intro k c hk
      cases k with
      | zero => simp at hk; subst hk; exact ⟨n, e1, rfl⟩
      | succ k => simpa using i2 k c (by simpa using hk)
  obtain ⟨l1, l2⟩ := hlen k2
  refine ⟨by rw [k1]; simp [l1], ?_⟩
  intro k c hk
  obtain ⟨n, m1, m2⟩ := l2 k c hk
  exact ⟨n, m1, by rw [k1, List.getElem?_append_right (by omega), Nat.add_sub_cancel_left]; exact m2⟩

/-- The evaluator of `InitFromSpline` at a sample. -/
def sampleSlot (src : Spline) (a dx : ℝ) (i : ℕ) : Slot := (Slot.play (fun _ => some src) {} 0 { startX := a } (List.replicate i dx)).getD {}

/-- The call of `AddNode` that `InitFromSpline` makes for a sample. -/
def sampleCall (src : Spline) (a dx : ℝ) (i : ℕ) : Spline.AddCall :=
  ⟨a + i * dx, (sampleSlot src a dx i).y, (sampleSlot src a dx i).derivative, .withoutModification⟩

/-- All calls of `AddNode` that `InitFromSpline` makes. -/
def sampleCalls (src : Spline) (a dx : ℝ) (num : ℕ) : List Spline.AddCall := (List.range num).map (sampleCall src a dx)

theorem fold_addAll {f : Spline → ℕ → Option Spline} {c : ℕ → Spline.AddCall} : ∀ {l : List ℕ},
    (∀ i ∈ l, ∀ s, f s i = s.addNode (c i).x (c i).y (c i).d (c i).m) → ∀ s, l.foldlM f s = s.addAll (l.map c) := by
  intro l
  induction l with
  | nil => intro _ s; rfl
  | cons i l ih =>
    intro h s
    rw [List.foldlM_cons, List.map_cons, h i (by simp)]
    unfold Spline.addAll
    cases s.addNode (c i).x (c i).y (c i).d (c i).m with
    | none => rfl
    | some s' => exact ih (fun j hj => h j (by simp [hj])) s'

theorem ends {s : Spline} (hs : s.WF) {a b : ℝ} (ha : s.startX = some a) (hb : s.endX = some b) : 0 ≤ a ∧ a ≤ b ∧ b ≤ 65535 * s.g := by
  have hg := hs.g_pos
  obtain ⟨f, f1, rfl⟩ := Option.map_eq_some_iff.mp ha
  obtain ⟨l, l1, rfl⟩ := Option.map_eq_some_iff.mp hb
  rw [List.head?_eq_getElem?] at f1
  have l2 := (getLast?_eq_getElem l1).1
  have h1 : f.x ≤ l.x := hs.sorted.le (Nat.zero_le _) f1 l2
  have h2 : l.x ≤ 65535 := (hs.ok l (List.mem_of_getElem? l2)).1
  have h1' : (f.x : ℝ) ≤ l.x := by exact_mod_cast h1
  have h2' : (l.x : ℝ) ≤ 65535 := by exact_mod_cast h2
  simp only [Node.X]
  exact ⟨by positivity, mul_le_mul_of_nonneg_right h1' hg.le, mul_le_mul_of_nonneg_right h2' hg.le⟩

/-- The step of the samples. -/
def stepX (a b : ℝ) (n : ℕ) : ℝ := (b - a) / ((n : ℝ) - 1)

theorem step_facts {s : Spline} (hs : s.WF) {a b : ℝ} (ha : s.startX = some a) (hb : s.endX = some b) {n : ℕ} (hn : 1 < n) :
    0 ≤ stepX a b n ∧ ((n : ℝ) - 1) * stepX a b n = b - a ∧ (∀ i : ℕ, i < n → a + i * stepX a b n ≤ b) ∧
      (a + b + n * stepX a b n) / s.g + 1 / 2 < 2147483648 := by
  obtain ⟨h1, h2, h3⟩ := ends hs ha hb
  have hg := hs.g_pos
  have hpos : (0 : ℝ) < (n : ℝ) - 1 := by
    have : (1 : ℝ) < n := by exact_mod_cast hn
    linarith
  have e1 : 0 ≤ stepX a b n := div_nonneg (by linarith) hpos.le
  have e2 : ((n : ℝ) - 1) * stepX a b n = b - a := by unfold stepX; field_simp
  refine ⟨e1, e2, ?_, ?_⟩
  · intro i hi
    have : (i : ℝ) ≤ (n : ℝ) - 1 := by
      have : (i : ℝ) + 1 ≤ n := by exact_mod_cast hi
      linarith
    have := mul_le_mul_of_nonneg_right this e1
    linarith
  · have h4 : stepX a b n ≤ b - a := by
      have : (1 : ℝ) ≤ (n : ℝ) - 1 := by
        have : (2 : ℝ) ≤ n := by exact_mod_cast hn
        linarith
      have := mul_le_mul_of_nonneg_right this e1
      linarith
    have h5 : a + b + n * stepX a b n ≤ 4 * (65535 * s.g) := by nlinarith
    have : (a + b + n * stepX a b n) / s.g ≤ 4 * 65535 := by
      rw [div_le_iff₀ hg]
      linarith
    linarith

theorem create_eq {src : Spline} (hs : src.WF) (hn : src.Indexable) {a b : ℝ} (ha : src.startX = some a) (hb : src.endX = some b) {n : ℕ} (h1 : 1 < n)
    (h2 : n ≤ 65532) {fuel : ℕ} (hf : n < fuel) :
    createFromSpline src n fuel =
      match ((Spline.create n).init (src.yRange.lengthen (21 / 20)) src.g).addAll (sampleCalls src a (stepX a b n) n) with
      | none => .failed
      | some s => .done s := by
  obtain ⟨e1, -, -, e4⟩ := step_facts hs ha hb h1
  have hsam : Samplable (fun _ => some src) a (stepX a b n) n 0 := ⟨src, b, rfl, hs, hn, hb, e4⟩
  have ha0 := (ends hs ha hb).1
  unfold createFromSpline initFromSpline
  rw [if_pos h2]
  change (if 1 < n then _ else _) = _
  rw [if_pos h1, ha, hb]
  change bulkEvaluate _ _ _ a (stepX a b n) n fuel _ = _
  rw [bulk_eq _ (by omega) (by
    intro id hid i hi
    simp at hid
    subst hid
    obtain ⟨s, c, -, h, -⟩ := samplable_play ha0 e1 hsam hi
    rw [h]; rfl) hf]
  unfold sampleCalls
  rw [fold_addAll (c := sampleCall src a (stepX a b n))]
  · generalize Spline.addAll _ _ = t
    cases t <;> rfl
  intro i hi s
  obtain ⟨s', c, -, h4, h5, -⟩ := samplable_play ha0 e1 hsam (le_of_lt (List.mem_range.mp hi))
  simp only [frames, List.map_cons, List.map_nil, appendAdd, h4, Option.getD_some, h5, Option.bind_some, sampleCall, sampleSlot]

/-- `CreateFromSpline` always returns or fails an assertion. -/
theorem C110_resample_ends (src : Spline) (hs : src.WF) (hn : src.Indexable) (n : ℕ) {fuel : ℕ} (hf : n < fuel) :
    createFromSpline src n fuel ≠ .running := by
  obtain ⟨f, hf0⟩ : ∃ f, src.nodes.head? = some f := ⟨_, List.head?_eq_some_head (by intro h; have := hn.1; rw [h] at this; simp at this)⟩
  obtain ⟨l, hl⟩ : ∃ l, src.nodes.getLast? = some l := ⟨_, List.getLast?_eq_some_getLast (by intro h; have := hn.1; rw [h] at this; simp at this)⟩
  by_cases h2 : n ≤ 65532
  · by_cases h1 : 1 < n
    · rw [create_eq hs hn (a := f.X src.g) (b := l.X src.g) (by unfold Spline.startX; rw [hf0]; rfl) (by unfold Spline.endX; rw [hl]; rfl) h1 h2 hf]
      split <;> simp
    · unfold createFromSpline initFromSpline
      rw [if_pos h2]
      change (if 1 < n then _ else _) ≠ _
      rw [if_neg h1]
      simp
  · unfold createFromSpline
    rw [if_neg h2]
    simp

theorem create_done {src dst : Spline} {n fuel : ℕ} (h : createFromSpline src n fuel = .done dst) : 1 < n ∧ n ≤ 65532 := by
  unfold createFromSpline initFromSpline at h
  split at h
  · rename_i h2
    split at h
    · rename_i h1
      exact ⟨h1, h2⟩
    · cases h
  · cases h

theorem loop_more {σ : Type} {add : ℕ → Evaluator → σ → Option σ} {h : Heap} {dx : ℝ} {num : ℕ} : ∀ {fuel i : ℕ} {e : Evaluator} {o s : σ},
    bulkLoop add h dx num fuel i e o = .done s → bulkLoop add h dx num (fuel + 1) i e o = .done s := by
  intro fuel
  induction fuel with
  | zero => intro i e o s hh; cases hh
  | succ fuel ih =>
    intro i e o s hh
    unfold bulkLoop at hh ⊢
    split at hh
    · rename_i hi
      rw [if_pos hi]
      cases ha : add i e o with
      | none => rw [ha] at hh; cases hh
      | some o' =>
        rw [ha] at hh
        cases he : e.advanceFrame h dx with
        | none => rw [he] at hh; cases hh
        | some e' =>
          rw [he] at hh
          exact ih hh
    · rename_i hi
      rw [if_neg hi]
      exact hh

theorem create_more {src dst : Spline} {n fuel : ℕ} (h : createFromSpline src n fuel = .done dst) : ∀ k, createFromSpline src n (fuel + k) = .done dst := by
  intro k
  induction k with
  | zero => exact h
  | succ k ih =>
    rw [← Nat.add_assoc]
    generalize fuel + k = m at ih
    unfold createFromSpline initFromSpline bulkEvaluate at ih ⊢
    split at ih
    · rename_i h1
      rw [if_pos h1]
      split at ih
      · rename_i h2
        rw [if_pos h2]
        split at ih
        · split at ih
          · cases ih
          · exact loop_more ih
        · cases ih
      · cases ih
    · cases ih

/-- **C110.** `CreateFromSpline` makes a spline with at most the number of nodes that is asked for, that starts and ends where the other one does. Each of
its nodes is at one of the uniformly spaced samples, up to rounding; and if the samples are at least a grain apart, it has exactly that number of nodes, one
for each sample. -/
theorem C110_resample {src dst : Spline} (hs : src.WF) (hn : src.Indexable) {a b : ℝ} (ha : src.startX = some a) (hb : src.endX = some b) {n fuel : ℕ}
    (h : createFromSpline src n fuel = .done dst) :
    dst.WF ∧ dst.g = src.g ∧ dst.nodes.length ≤ n ∧ dst.startX = some a ∧ dst.endX = some b ∧
      (∀ m ∈ dst.nodes, ∃ i < n, Samples src dst (a + i * ((b - a) / ((n : ℝ) - 1))) m) ∧
      (src.g ≤ (b - a) / ((n : ℝ) - 1) → dst.nodes.length = n ∧
        ∀ i < n, ∃ m, dst.nodes[i]? = some m ∧ Samples src dst (a + i * ((b - a) / ((n : ℝ) - 1))) m) := by
  obtain ⟨h1, h2⟩ := create_done h
  have h := create_more h (n + 1)
  rw [create_eq hs hn ha hb h1 h2 (by omega)] at h
  split at h
  · cases h
  rename_i s hadd
  cases h
  obtain ⟨e1, e2, e3, e4⟩ := step_facts hs ha hb h1
  obtain ⟨i1, i2, i3⟩ := ends hs ha hb
  have hsam : Samplable (fun _ => some src) a (stepX a b n) n 0 := ⟨src, b, rfl, hs, hn, hb, e4⟩
  have hg := hs.g_pos
  set r := src.yRange.lengthen (21 / 20) with hr
  set s0 := (Spline.create n).init r src.g with hs0
  have w0 : s0.WF := Spline.wf_init _ _ hg
  have hm : ∀ c ∈ sampleCalls src a (stepX a b n) n, c.m = .withoutModification := by
    intro c hc
    obtain ⟨i, -, rfl⟩ := List.mem_map.mp hc
    rfl
  obtain ⟨w, ⟨f1, f2, f3⟩, -⟩ := Spline.addAll_wf w0 hadd
  have f1 : dst.g = src.g := f1
  have f2 : dst.yRange = r := f2
  have f3 : dst.maxNodes = n := f3
  obtain ⟨k1, k2, k3⟩ := addAll_nodes w0 hm hadd
  have hnode : ∀ i < n, ∀ m, (sampleCall src a (stepX a b n) i).node s0 = some m → Samples src dst (a + i * stepX a b n) m := by
    intro i hi m hmm
    obtain ⟨s', c, j1, j2, -, j4⟩ := samplable_play i1 e1 hsam (le_of_lt hi)
    cases j1
    have hx0 : 0 ≤ a + i * stepX a b n := add_nonneg i1 (mul_nonneg (by positivity) e1)
    have hc : sampleSlot src a (stepX a b n) i = c := by unfold sampleSlot; rw [j2]; rfl
    have hmk : Node.make (a + i * stepX a b n) c.y c.derivative src.g r = some m := by
      have : Node.make (a + i * stepX a b n) (sampleSlot src a (stepX a b n) i).y (sampleSlot src a (stepX a b n) i).derivative src.g r = some m := hmm
      rw [hc] at this
      exact this
    obtain ⟨m', q1, -, q2, q3, q4, q5⟩ := C21_make (d := c.derivative) hg hx0 (le_trans (e3 i hi) i3) (compactY_le (make_some hmk).2.1).2
    rw [hmk] at q1
    cases q1
    exact ⟨c.y, c.derivative, j4, by rw [f1]; exact q2, by rw [f2]; exact q3, by rw [f2]; exact q4, q5⟩
  have hgrid : ∀ {p m : Node} {x y d : ℝ}, x = p.X src.g → Node.make x y d src.g r = some m → m.X dst.g = x := by
    intro p m x y d hx hmk
    have hq := compactX_floor hg (make_some hmk).1 (by rw [hx]; simp only [Node.X]; positivity)
    rw [hx] at hq
    simp only [Node.X] at hq hx
    rw [mul_div_cancel_right₀ _ hg.ne', show ((p.x : ℝ) + 1 / 2) = ((p.x : ℤ) : ℝ) + 1 / 2 by push_cast; rfl, Int.floor_intCast_add,
      show ⌊(1 / 2 : ℝ)⌋ = 0 by norm_num [Int.floor_eq_iff], add_zero] at hq
    have hq' : m.x = p.x := by exact_mod_cast hq
    rw [hx]
    simp only [Node.X, hq', f1]
  refine ⟨w, f1, by rw [← f3]; exact w.capacity, ?_, ?_, ?_, ?_⟩
  · obtain ⟨p, p1, p2⟩ := Option.map_eq_some_iff.mp ha
    obtain ⟨k, rfl⟩ : ∃ k, n = k + 1 := ⟨n - 1, by omega⟩
    have hadd' := hadd
    unfold sampleCalls at hadd'
    rw [List.range_succ_eq_map, List.map_cons] at hadd'
    obtain ⟨s1, g1, g2⟩ := Option.bind_eq_some_iff.mp hadd'
    obtain ⟨m, m1, -, -, -, m5⟩ := add_plain g1
    have hnod : s1.nodes = [m] := m5 (by intro last hl; cases hl)
    obtain ⟨w1, -⟩ := Spline.addNode_spec w0 g1
    obtain ⟨-, t2, -⟩ := addAll_nodes w1 (by
      intro c hc
      obtain ⟨i, -, rfl⟩ := List.mem_map.mp hc
      rfl) g2
    have := t2 m (by rw [hnod]; rfl)
    unfold Spline.startX
    rw [this]
    have hx : a + ((0 : ℕ) : ℝ) * stepX a b (k + 1) = p.X src.g := by rw [p2]; simp
    have := hgrid hx m1
    rw [Option.map_some, this]
    simp
  · obtain ⟨p, p1, p2⟩ := Option.map_eq_some_iff.mp hb
    obtain ⟨k, rfl⟩ : ∃ k, n = k + 1 := ⟨n - 1, by omega⟩
    obtain ⟨m, m1, m2⟩ := k3 (sampleCall src a (stepX a b (k + 1)) k) (by
      unfold sampleCalls
      rw [List.range_succ]
      simp)
    unfold Spline.endX
    have hx : a + (k : ℝ) * stepX a b (k + 1) = b := by push_cast at e2; linarith
    have := hgrid (x := a + (k : ℝ) * stepX a b (k + 1)) (hx.trans p2.symm) m1
    rw [m2, Option.map_some, this, hx]
  · intro m hmem
    rcases k1 m hmem with h | ⟨c, hc, he⟩
    · cases h
    · obtain ⟨i, hi, rfl⟩ := List.mem_map.mp hc
      exact ⟨i, List.mem_range.mp hi, hnode i (List.mem_range.mp hi) m he⟩
  · intro hstep
    obtain ⟨t1, t2⟩ := addAll_apart w0 hm hadd (by
      unfold sampleCalls
      rw [List.pairwise_map]
      refine List.pairwise_lt_range.imp ?_
      intro i j hij q q' hq hq'
      have z1 : 0 ≤ a + i * stepX a b n := add_nonneg i1 (mul_nonneg (by positivity) e1)
      have z2 : 0 ≤ a + j * stepX a b n := add_nonneg i1 (mul_nonneg (by positivity) e1)
      have q1 : (q : ℤ) = ⌊(a + i * stepX a b n) / src.g + 1 / 2⌋ := compactX_floor hg hq z1
      have q2 : (q' : ℤ) = ⌊(a + j * stepX a b n) / src.g + 1 / 2⌋ := compactX_floor hg hq' z2
      have z3 : (a + i * stepX a b n) / src.g + 1 / 2 + 1 ≤ (a + j * stepX a b n) / src.g + 1 / 2 := by
        have z4 : (i : ℝ) + 1 ≤ j := by exact_mod_cast hij
        have z5 : (a + i * stepX a b n) + src.g ≤ a + j * stepX a b n := by
          have := mul_le_mul_of_nonneg_right z4 e1
          have z6 : src.g ≤ stepX a b n := hstep
          linarith
        have := div_le_div_of_nonneg_right z5 hg.le
        rw [add_div, div_self hg.ne'] at this
        linarith
      have := Int.floor_le_floor z3
      rw [Int.floor_add_one] at this
      omega) (by intro last hl; cases hl)
    have hz : s0.nodes.length = 0 := rfl
    refine ⟨by rw [t1, hz]; simp [sampleCalls], ?_⟩
    intro i hi
    obtain ⟨m, m1, m2⟩ := t2 i (sampleCall src a (stepX a b n) i) (by unfold sampleCalls; simp [hi])
    rw [hz, Nat.zero_add] at m2
    exact ⟨m, m2, hnode i hi m m1⟩

theorem sample_at {src : Spline} (hs : src.WF) (hn : src.Indexable) {a b : ℝ} (ha : src.startX = some a) (hb : src.endX = some b) {n : ℕ} (h1 : 1 < n)
    {i : ℕ} (hi : i < n) : ∃ c, sampleSlot src a (stepX a b n) i = c.evaluate ∧ Slot.At src 0 { startX := a } c (a + i * stepX a b n) := by
  obtain ⟨e1, -, -, e4⟩ := step_facts hs ha hb h1
  obtain ⟨i1, i2, i3⟩ := ends hs ha hb
  have hg := hs.g_pos
  have hle : (i : ℝ) * stepX a b n ≤ n * stepX a b n := mul_le_mul_of_nonneg_right (by exact_mod_cast hi.le) e1
  have hsum : (List.replicate i (stepX a b n)).sum * (1 : ℝ) = i * stepX a b n := by simp
  have hbound : ∀ y, y ≤ a + b + n * stepX a b n → y / src.g + 1 / 2 < 2147483648 := by
    intro y hy
    have := div_le_div_of_nonneg_right hy hg.le
    linarith
  have hn0 : 0 ≤ (n : ℝ) * stepX a b n := mul_nonneg (by positivity) e1
  obtain ⟨c1, X1, a1, a2, a3, -, a5⟩ := Slot.initCubic_at hs hn (hp := fun _ => some src) (id := 0) rfl (p := { startX := a })
    (c := { ({} : Slot) with rate := 1, yOffset := 0, yScale := 1, spline := some 0, xIndex := kInvalid, rep := false }) rfl rfl rfl rfl rfl i1
    (hbound a (by linarith)) hb (by simp)
  obtain ⟨c2, X2, b1, b2, b3, -⟩ := Slot.foldlM_at hs hn (hp := fun _ => some src) (id := 0) rfl (p := { startX := a }) (by norm_num) hb (by simp)
    (List.replicate i (stepX a b n)) (by intro d hd; rw [List.eq_of_mem_replicate hd]; exact e1) c1 X1 (a + b) a2
    (le_trans a5 (max_le (by linarith) (by linarith))) (by linarith) (by rw [hsum]; exact hbound _ (by linarith))
  refine ⟨c2, ?_, ?_⟩
  · unfold sampleSlot Slot.play Slot.setSpline
    rw [if_neg (by simp)]
    unfold Slot.jumpTo
    rw [a1, Option.map_some, Option.bind_some, b1]
    rfl
  · have := b3 rfl
    rw [a3 rfl, hsum] at this
    rw [this] at b2
    exact b2

theorem lengthen_mem {r : Range ℝ} {m : Node} (hm : m.Ok) (hr : r.start ≤ r.stop) :
    (r.lengthen (21 / 20)).start ≤ m.Y r ∧ m.Y r ≤ (r.lengthen (21 / 20)).stop := by
  have h1 : (m.y : ℝ) ≤ 65535 := by exact_mod_cast hm.2.1
  have h0 : (0 : ℝ) ≤ m.y := by positivity
  have h2 : (m.y : ℝ) * (1 / 65535) ≤ 1 := by linarith
  have h3 : 0 ≤ (m.y : ℝ) * (1 / 65535) := by linarith
  have hl : 0 ≤ r.length := by unfold Range.length; linarith
  unfold Node.Y Range.lerp Range.lengthen
  generalize (m.y : ℝ) * (1 / 65535) = t at *
  simp only [Range.length] at *
  constructor <;> nlinarith

/-- **C110.** `CreateFromSpline` succeeds, if the curve stays in the range of the new spline: that of the other one, and as much again around it. -/
theorem C110_resample_succeeds {src : Spline} (hs : src.WF) (hn : src.Indexable) (hr : src.yRange.start ≤ src.yRange.stop) {n : ℕ} (h1 : 1 < n)
    (h2 : n ≤ 65532) (hy : StaysIn src (src.yRange.lengthen (21 / 20))) : ∃ dst, ∀ fuel > n, createFromSpline src n fuel = .done dst := by
  obtain ⟨f, hf0⟩ : ∃ f, src.nodes.head? = some f := ⟨_, List.head?_eq_some_head (by intro h; have := hn.1; rw [h] at this; simp at this)⟩
  obtain ⟨l, hl⟩ : ∃ l, src.nodes.getLast? = some l := ⟨_, List.getLast?_eq_some_getLast (by intro h; have := hn.1; rw [h] at this; simp at this)⟩
  obtain ⟨a, ha⟩ : ∃ a, src.startX = some a := ⟨_, by unfold Spline.startX; rw [hf0]; rfl⟩
  obtain ⟨b, hb⟩ : ∃ b, src.endX = some b := ⟨_, by unfold Spline.endX; rw [hl]; rfl⟩
  obtain ⟨e1, e2, e3, e4⟩ := step_facts hs ha hb h1
  obtain ⟨i1, i2, i3⟩ := ends hs ha hb
  have hg := hs.g_pos
  obtain ⟨dst, hd⟩ := Spline.C22_plain_additions_succeed (cs := sampleCalls src a (stepX a b n) n)
    (s := (Spline.create n).init (src.yRange.lengthen (21 / 20)) src.g) (Spline.wf_init _ _ hg) (by
      intro c hc
      obtain ⟨i, hi, rfl⟩ := List.mem_map.mp hc
      have hi := List.mem_range.mp hi
      refine ⟨rfl, add_nonneg i1 (mul_nonneg (by positivity) e1), le_trans (e3 i hi) i3, ?_⟩
      obtain ⟨c, c1, c2⟩ := sample_at hs hn ha hb h1 hi
      obtain ⟨x0, L, ci, d1, -, d3, d4, -, d6⟩ := c2.data
      have hyv : (sampleCall src a (stepX a b n) i).y = (Cubic.init ci).eval (a + i * stepX a b n - x0) := by
        show (sampleSlot src a (stepX a b n) i).y = _
        rw [c1]
        simp only [Slot.evaluate, d6, d4, Cubic.eval, Cubic.scaleUp, Cubic.shiftUp]
        ring
      rw [hyv]
      show (src.yRange.lengthen (21 / 20)).start ≤ _ ∧ _ ≤ (src.yRange.lengthen (21 / 20)).stop
      have hconst : ∀ {m : Node} {x : ℝ}, (Cubic.init ⟨m.Y src.yRange, 0, m.Y src.yRange, 0, 1⟩ : Cubic ℝ).eval x = m.Y src.yRange := by
        intro m x
        simp [Cubic.init, Cubic.eval]
      rcases c2.near with ⟨hj, -⟩ | ⟨hj, -⟩ | ⟨p, q, hp, hq, n1, n2⟩
      · rw [hj] at d3
        unfold Spline.cubicInitAt at d3
        rw [if_pos (by decide), if_pos rfl, hf0] at d3
        cases d3
        rw [hconst]
        exact lengthen_mem (hs.ok f (List.mem_of_mem_head? hf0)) hr
      · rw [hj] at d3
        unfold Spline.cubicInitAt at d3
        rw [if_pos (by decide), if_neg (by decide), hl] at d3
        cases d3
        rw [hconst]
        exact lengthen_mem (hs.ok l (List.mem_of_mem_getLast? hl)) hr
      · have hlt := (List.getElem?_eq_some_iff.mp hq).1
        have hlen := hn.2
        unfold Spline.cubicInitAt at d3
        rw [if_neg (by unfold outside kAfter; simp; omega), hp, hq] at d3
        cases d3
        unfold Spline.nodeX at d1
        rw [if_neg (by unfold kAfter; omega), if_neg (by unfold kBefore; omega), hp] at d1
        cases d1
        exact hy _ p q hp hq _ n1 n2) (by
      unfold sampleCalls
      rw [List.pairwise_map]
      refine List.pairwise_lt_range.imp ?_
      intro i j hij
      have z4 : (i : ℝ) ≤ j := by exact_mod_cast hij.le
      have := mul_le_mul_of_nonneg_right z4 e1
      show a + i * stepX a b n ≤ a + j * stepX a b n
      linarith) (by intro b hb; cases hb) (by simp [sampleCalls, Spline.init, Spline.create])
  refine ⟨dst, fun fuel hf => ?_⟩
  rw [create_eq hs hn ha hb h1 h2 hf, hd]

/-! ### Cases -/

/-- A curve that leaves its y range: it goes up with slope 1 and down with slope -1. -/
def arch : Spline := ⟨⟨0, 1⟩, 1, [⟨0, 0, 8192⟩, ⟨100, 0, -8192⟩], 2⟩

theorem two_wf {r : Range ℝ} {p q : Node} (hp : p.Ok) (hq : q.Ok) (h : p.x < q.x) : (⟨r, 1, [p, q], 2⟩ : Spline).WF ∧ (⟨r, 1, [p, q], 2⟩ : Spline).Indexable := by
  refine ⟨⟨by norm_num, ?_, ?_, by simp, ?_⟩, by simp [Spline.Indexable]⟩
  · intro i a b ha hb
    have hi := (List.getElem?_eq_some_iff.mp hb).1
    simp at hi
    subst hi
    simp at ha hb
    subst ha hb
    exact h.le
  · intro i a b ha hb
    have hi := (List.getElem?_eq_some_iff.mp hb).1
    simp at hi
  · intro n hn
    simp at hn
    rcases hn with rfl | rfl
    · exact hp
    · exact hq

/-- That `CreateFromSpline` succeeds for all splines is false: the curve of a spline can leave its y range by more than the margin, and then the new spline
fails an assertion. -/
theorem C110_overshoot_fails : arch.WF ∧ arch.Indexable ∧ ∀ fuel dst, createFromSpline arch 3 fuel ≠ .done dst := by
  obtain ⟨hw, hi⟩ : arch.WF ∧ arch.Indexable := two_wf ⟨by norm_num, by norm_num, by norm_num, by norm_num⟩
    ⟨by norm_num, by norm_num, by norm_num, by norm_num⟩ (by norm_num)
  refine ⟨hw, hi, ?_⟩
  intro fuel dst h
  obtain ⟨w, g1, -, -, -, -, h7⟩ := C110_resample hw hi (a := 0) (b := 100) (by norm_num [Spline.startX, arch, Node.X])
    (by norm_num [Spline.endX, arch, Node.X]) h
  obtain ⟨-, h8⟩ := h7 (by norm_num [arch])
  obtain ⟨m, m1, v, d, ⟨sh, -⟩, -, m3, m4, -⟩ := h8 1 (by norm_num)
  have hx : ((0 : ℝ) + ((1 : ℕ) : ℝ) * ((100 - 0) / (((3 : ℕ) : ℝ) - 1))) = 50 := by norm_num
  rw [hx] at sh
  obtain ⟨hv, -⟩ := sh (by
    intro n hn
    simp only [arch, List.mem_cons, List.not_mem_nil, or_false] at hn
    rcases hn with rfl | rfl <;> norm_num [Node.X, arch, abs_lt, lt_abs])
  obtain ⟨c, ⟨c1, c2, c3, c4⟩, hc⟩ := Spline.C25_inside_segment hw hi (i := 0) (a := ⟨0, 0, 8192⟩) (b := ⟨100, 0, -8192⟩) rfl rfl (x := 50)
    (by norm_num [Node.X, arch]) (by norm_num [Node.X, arch])
  rw [hc .value] at hv
  have htan : Real.tan ((8192 : ℝ) * angleScale) = 1 := by
    unfold angleScale
    rw [show (8192 : ℝ) * (Real.pi / 32768) = Real.pi / 4 by ring, Real.tan_pi_div_four]
  have hD1 : (⟨0, 0, 8192⟩ : Node).D = 1 := by simpa [Node.D] using htan
  have hD2 : (⟨100, 0, -8192⟩ : Node).D = -1 := by
    simp only [Node.D]
    push_cast
    rw [neg_mul, Real.tan_neg, htan]
  rw [hD1] at c2
  rw [hD2] at c4
  simp [Cubic.eval, Cubic.deriv, Node.X, Node.Y, arch, Range.lerp, Spline.curveValue] at c1 c2 c3 c4 hv
  have hv25 : v = 25 := by linarith
  have hyr : dst.yRange = (arch.yRange.lengthen (21 / 20)) := by
    obtain ⟨n1, n2⟩ := create_done h
    have h := create_more h 4
    rw [create_eq hw hi (a := 0) (b := 100) (by norm_num [Spline.startX, arch, Node.X]) (by norm_num [Spline.endX, arch, Node.X]) n1 n2 (by omega)] at h
    split at h
    · cases h
    · rename_i s hadd
      cases h
      exact (Spline.addAll_wf (Spline.wf_init _ _ hw.g_pos) hadd).2.1.2.1
  have hok := w.ok m (List.mem_of_getElem? m1)
  have h1 : (m.y : ℝ) ≤ 65535 := by exact_mod_cast hok.2.1
  rw [hyr] at m4
  simp only [Node.Y, arch, Range.lengthen, Range.lerp, Range.length] at m4
  rw [hv25] at m4
  norm_num at m4
  linarith

/-- A step from 0 to 1 in four units. -/
def ramp : Spline := ⟨⟨0, 1⟩, 1, [⟨0, 0, 0⟩, ⟨4, 65535, 0⟩], 2⟩

/-- The hypotheses of the theorems are met. -/
example : ramp.WF ∧ ramp.Indexable ∧ ramp.startX = some 0 ∧ ramp.endX = some 4 ∧ ramp.yRange.start ≤ ramp.yRange.stop ∧
    StaysIn ramp (ramp.yRange.lengthen (21 / 20)) ∧ ramp.g ≤ (4 - 0) / (((5 : ℕ) : ℝ) - 1) ∧
    (∀ id ∈ [0, 1, 0], Samplable (fun _ => some ramp) 1 (1 / 2) 7 id) ∧ ∃ dst, createFromSpline ramp 5 6 = .done dst ∧ dst.nodes.length = 5 := by
  obtain ⟨hw, hi⟩ : ramp.WF ∧ ramp.Indexable := two_wf ⟨by norm_num, by norm_num, by norm_num, by norm_num⟩
    ⟨by norm_num, by norm_num, by norm_num, by norm_num⟩ (by norm_num)
  have ha : ramp.startX = some 0 := by norm_num [Spline.startX, ramp, Node.X]
  have hb : ramp.endX = some 4 := by norm_num [Spline.endX, ramp, Node.X]
  have hs : StaysIn ramp (ramp.yRange.lengthen (21 / 20)) := by
    intro i a b h1 h2 x h3 h4
    have hi := (List.getElem?_eq_some_iff.mp h2).1
    simp [ramp] at hi
    subst hi
    simp [ramp] at h1 h2
    subst h1 h2
    simp [ramp, Node.X] at h3 h4
    simp only [ramp, Spline.cubicInit, Spline.widthX, Cubic.init, Cubic.eval, Node.Y, Node.D, Node.X, Range.lerp, Range.lengthen, Range.length]
    norm_num
    constructor <;> nlinarith [sq_nonneg x, sq_nonneg (x - 4), mul_nonneg (sq_nonneg x) (show (0 : ℝ) ≤ 9 / 2 - x by linarith),
      mul_nonneg (sq_nonneg (x - 4)) (show (0 : ℝ) ≤ x + 1 / 2 by linarith)]
  have hg : ramp.g ≤ (4 - 0) / (((5 : ℕ) : ℝ) - 1) := by norm_num [ramp]
  have hr : ramp.yRange.start ≤ ramp.yRange.stop := by norm_num [ramp]
  refine ⟨hw, hi, ha, hb, hr, hs, hg, ?_, ?_⟩
  · intro id _
    exact ⟨ramp, 4, rfl, hw, hi, hb, by norm_num [ramp]⟩
  · obtain ⟨dst, hd⟩ := C110_resample_succeeds hw hi hr (n := 5) (by norm_num) (by norm_num) hs
    have hd := hd 6 (by norm_num)
    exact ⟨dst, hd, ((C110_resample hw hi ha hb hd).2.2.2.2.2.2 hg).1⟩

end
end Motive.Splines
