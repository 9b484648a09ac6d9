import Verif.Proc.Lineage
import Verif.Spline.BulkProps

/-!
# Spline motivators playing splines in any program (C91)

The spline processor (src/motive/processor/spline_processor.cpp) keeps the values of its motivators in a `BulkSplineEvaluator`, index for
index (`MoveIndices`, `SetNumIndices`, spline_processor.cpp:243-257). So a slot of the processor is a record of the evaluator.

Splines given to `SetSplines` belong to the caller and are not changed: the heap is a parameter. `CloneFrom` copies the splines
(spline_processor.cpp:216-228); a copy has the same contents and is represented by the same number (C27 and C40 are about copies).
The slots of a removed motivator are cleared, not reset (spline_processor.cpp:230-241), so that a motivator starts with whatever the
last one left there, except for its spline: this is left open, `Blank`.
-/

namespace Motive.SplineProc

open Motive.Proc Motive.Proc.Vector Motive.Splines Motive.Splines.Slot Motive.Math Motive.Curve

/-- Setters of spline motivators. -/
inductive Cmd where
  /-- `SetSpline(s)` with a `SplinePlayback` (spline_processor.cpp:89-101) -/
  | play (id : ℕ) (p : Playback)
  /-- `SetSplineTime` (spline_processor.cpp:127-130) -/
  | time (x : ℝ)
  /-- `SetSplinePlaybackRate` (spline_processor.cpp:133-137) -/
  | rate (r : ℝ)
  /-- `SetSplineRepeating` (spline_processor.cpp:139-142) -/
  | repeating (b : Bool)

/-- What a setter does to one index (bulk_spline_evaluator.cpp:178-191, 211-231). -/
noncomputable def cmd (h : Heap) : Cmd → Slot → Option Slot
  | .play id p, c => c.setSpline h id p
  | .time x, c => c.setX h x
  | .rate r, c => some { c with rate := r }
  | .repeating b, c => some { c with rep := b }

/-- The spline processor: setters and `AdvanceFrame` (spline_processor.cpp:35-38). Times are real numbers. -/
noncomputable def machine (h : Heap) : Machine Slot Cmd ℝ := ⟨cmd h, fun dt c => c.advance h dt⟩

/-- A slot without a spline: fresh, or cleared when the last motivator left it. -/
def Blank (c : Slot) : Prop := c.spline = none

/-! ### Specification: the clock of a spline -/

/-- Position and rate of the spline: frames move it at the rate, setters set the one or the other. -/
def clock : ℝ × ℝ → Cmd ⊕ ℝ → ℝ × ℝ
  | (x, r), .inr dt => (x + dt * r, r)
  | (_, r), .inl (.time x) => (x, r)
  | (x, _), .inl (.rate r) => (x, r)
  | s, .inl _ => s

/-- Time passes, and the position and the rate may be set, forwards only. -/
def Control : Cmd ⊕ ℝ → Prop
  | .inr dt => 0 ≤ dt
  | .inl (.time x) => 0 ≤ x
  | .inl (.rate r) => 0 ≤ r
  | .inl _ => False

/-- The invariant of `Verif.Spline.BulkProps`, of the record before its last evaluation. -/
theorem control_at {hp : Heap} {s : Spline} (hs : s.WF) (hn : s.Indexable) {id : ℕ} (hh : hp id = some s) {e : ℝ}
    (he : s.endX = some e) (he0 : 0 ≤ e) : ∀ (evs : List (Cmd ⊕ ℝ)), (∀ v ∈ evs, Control v) → ∀ (p : Playback) (c : Slot) (X x : ℝ),
      (p.rep = true → 0 < e) → 0 ≤ p.rate → 0 ≤ x → At s id p c X → (p.rep = false → X = x) → (∃ k : ℤ, X = x + k * e) → X ≤ x + e →
      (∀ pre, pre <+: evs → ((pre.foldl clock (x, p.rate)).1 + e) / s.g + 1 / 2 < 2147483648) →
      ∃ c' X', replay (machine hp) c.evaluate evs = some c'.evaluate ∧
        At s id { p with rate := (evs.foldl clock (x, p.rate)).2 } c' X' ∧
        (p.rep = false → X' = (evs.foldl clock (x, p.rate)).1) ∧ (∃ k : ℤ, X' = (evs.foldl clock (x, p.rate)).1 + k * e) ∧
        X' ≤ (evs.foldl clock (x, p.rate)).1 + e := by
  intro evs
  induction evs with
  | nil => intro _ p c X x _ _ _ hat h1 h2 h3 _; exact ⟨c, X, rfl, hat, h1, h2, h3⟩
  | cons v evs ih =>
    intro hev p c X x hpos hrate hx0 hat h1 h2 h3 hb
    have hg := hs.g_pos
    have hrest : ∀ w ∈ evs, Control w := fun w hw => hev w (by simp [hw])
    have hpre : ∀ pre, pre <+: evs → ((pre.foldl clock (clock (x, p.rate) v)).1 + e) / s.g + 1 / 2 < 2147483648 := by
      intro pre hp
      have := hb (v :: pre) (by simpa using hp)
      simpa using this
    have hv := hev v (by simp)
    match v with
    | .inr dt =>
      have hd : 0 ≤ dt * p.rate := mul_nonneg hv hrate
      have hbd := hpre [] (by simp)
      simp only [List.foldl_nil, clock] at hbd
      have hr1 : (X + dt * p.rate) / s.g + 1 / 2 < 2147483648 := by
        have : (X + dt * p.rate) / s.g ≤ (x + dt * p.rate + e) / s.g := by
          rw [div_le_div_iff_of_pos_right hg]; linarith
        linarith
      obtain ⟨c1, X1, a1, a2, a3, ⟨k1, a4⟩, a5⟩ := advance_at hs hn hh hat.evaluate hd (fun _ => hr1) he hpos
      obtain ⟨k, hk⟩ := h2
      obtain ⟨c', X', b1, b2, b3, b4, b5⟩ := ih hrest p c1 X1 (x + dt * p.rate) hpos hrate (by linarith) a2
        (fun h => by rw [a3 h, h1 h]) ⟨k + k1, by rw [a4, hk]; push_cast; ring⟩
        (le_trans a5 (max_le (by linarith) (by linarith))) hpre
      refine ⟨c', X', ?_, b2, b3, b4, b5⟩
      have : replay (machine hp) c.evaluate (.inr dt :: evs) = (c.evaluate.advance hp dt).bind fun d => replay (machine hp) d evs := rfl
      rw [this, a1]
      exact b1
    | .inl (.time t) =>
      have hbd := hpre [] (by simp)
      simp only [List.foldl_nil, clock] at hbd
      have ht : (0 : ℝ) ≤ t := hv
      have hr1 : t / s.g + 1 / 2 < 2147483648 := by
        have : t / s.g ≤ (t + e) / s.g := by rw [div_le_div_iff_of_pos_right hg]; linarith
        linarith
      obtain ⟨c1, X1, a1, a2, a3, a4, a5⟩ := initCubic_at hs hn hh (c := c.evaluate) (p := p) hat.spline hat.rep hat.rate hat.off
        hat.scale ht hr1 he hpos
      obtain ⟨c', X', b1, b2, b3, b4, b5⟩ := ih hrest p c1 X1 t hpos hrate ht a2 a3 a4
        (le_trans a5 (max_le (by linarith) (by linarith))) hpre
      refine ⟨c', X', ?_, b2, b3, b4, b5⟩
      have : replay (machine hp) c.evaluate (.inl (.time t) :: evs) =
        (c.evaluate.setX hp t).bind fun d => replay (machine hp) d evs := rfl
      rw [this, Slot.setX, a1]
      exact b1
    | .inl (.rate r) =>
      have hat' : At s id { p with rate := r } { c with rate := r } X :=
        ⟨hat.1, hat.2, rfl, hat.4, hat.5, hat.6, hat.7, hat.8, hat.9⟩
      obtain ⟨c', X', b1, b2, b3, b4, b5⟩ := ih hrest { p with rate := r } { c with rate := r } X x hpos hv hx0 hat' h1 h2 h3 hpre
      exact ⟨c', X', b1, b2, b3, b4, b5⟩
    | .inl (.play ..) => exact absurd hv (by simp [Control])
    | .inl (.repeating _) => exact absurd hv (by simp [Control])

/-- The end of a spline is the last node. -/
theorem endX_last {s : Spline} {e : ℝ} (he : s.endX = some e) :
    ∃ b, s.nodes[s.nodes.length - 1]? = some b ∧ e = b.X s.g := by
  unfold Spline.endX at he
  rw [List.getLast?_eq_getElem?, Option.map_eq_some_iff] at he
  obtain ⟨b, h1, h2⟩ := he
  exact ⟨b, h1, h2.symm⟩

/-- Unless it is past the last node, a position is at most half a grain beyond it. -/
theorem near_le {s : Spline} (hs : s.WF) {e X : ℝ} (he : s.endX = some e) {j : ℕ} (h : s.Near X j) (hj : j ≠ kAfter) : X ≤ e + s.g / 2 := by
  obtain ⟨l, hl, rfl⟩ := endX_last he
  have hg := hs.g_pos
  rcases h with ⟨-, f, hf, hx⟩ | ⟨hj', -⟩ | ⟨a, b, ha, hb, -, hx⟩
  · have hflt := (List.getElem?_eq_some_iff.mp hf).1
    have : (f.x : ℝ) ≤ l.x := by exact_mod_cast hs.sorted.le (Nat.zero_le _) hf hl
    simp only [Node.X] at hx ⊢; nlinarith
  · exact absurd hj' hj
  · have hflt := (List.getElem?_eq_some_iff.mp hb).1
    have : (b.x : ℝ) ≤ l.x := by exact_mod_cast hs.sorted.le (by omega) hb hl
    simp only [Node.X] at hx ⊢; nlinarith

/-- A spline motivator in any program plays its spline. Dimension `k` of the motivator was told to play spline `id`, without blending or
without having had a spline before, and since then time has passed and its position and rate have been set, in any order. Then the clock of
the spline shows where it is (up to whole turns, if it repeats) and the value and velocity are those of the spline there, scaled and shifted.
Other motivators, and where the values have been moved to in memory, make no difference. -/
theorem C91_motivators_play {hp : Heap} {cs : List (Call Slot Cmd ℝ)} {w : World Slot} (h : run (machine hp) cs = some w)
    {m : MotId} {L : Life Slot Cmd ℝ} (hL : life cs.reverse m = some L) {es evs : List (List Cmd ⊕ ℝ)} {args : List Cmd}
    (hev : L.events = es ++ .inl args :: evs) {k : Nat} (hk : k < L.start.length) {id : ℕ} {p : Playback}
    (ha : args[k]? = some (.play id p)) {s : Spline} (hh : hp id = some s) (hs : s.WF) (hn : s.Indexable)
    (hfirst : p.blendX ≤ 0 ∨ es = [] ∧ ∀ c ∈ L.start, Blank c)
    (hrate : 0 ≤ p.rate) (hx : 0 ≤ p.startX) {e : ℝ} (he : s.endX = some e) (hpos : p.rep = true → 0 < e)
    (hctl : ∀ v ∈ eventsOf k evs, Control v)
    (hbd : ∀ pre, pre <+: eventsOf k evs → ((pre.foldl clock (p.startX, p.rate)).1 + e) / s.g + 1 / 2 < 2147483648) :
    ∃ (c : Slot) (X : ℝ), (∀ {β : Type} (g : Slot → β), ∃ l, gather g w m = some l ∧ l[k]? = some (g c)) ∧
      c.X hp = some X ∧
      (p.rep = false → X = ((eventsOf k evs).foldl clock (p.startX, p.rate)).1) ∧
      (∃ n : ℤ, X = ((eventsOf k evs).foldl clock (p.startX, p.rate)).1 + n * e) ∧
      0 ≤ X ∧ (p.rep = true → 2 ≤ s.nodes.length → X ≤ e + s.g / 2) ∧
      Reports s { p with rate := ((eventsOf k evs).foldl clock (p.startX, p.rate)).2 } c X := by
  have hg := hs.g_pos
  have he0 : 0 ≤ e := by
    unfold Spline.endX at he
    cases hb : s.nodes.getLast? with
    | none => rw [hb] at he; simp at he
    | some b =>
      rw [hb] at he
      simp only [Option.map_some, Option.some.injEq] at he
      rw [← he]; simp only [Node.X]; positivity
  have hlife : ∀ {β : Type} (g : Slot → β), ∃ l, gather g w m = some l ∧ l.length = L.start.length ∧
      ∀ k d, L.start[k]? = some d → ∃ d', replay (machine hp) d (eventsOf k L.events) = some d' ∧ l[k]? = some (g d') :=
    fun {β} g => ((C90_life (β := β) (machine hp) h m).2 L hL).2.2 g
  obtain ⟨_, _, _, hr⟩ := hlife (fun _ => ())
  obtain ⟨c, hc, -⟩ := hr k _ (List.getElem?_eq_getElem hk)
  have hread : ∀ {β : Type} (g : Slot → β), ∃ l, gather g w m = some l ∧ l[k]? = some (g c) := by
    intro β g
    obtain ⟨l, e1, -, e3⟩ := hlife g
    obtain ⟨d', f1, f2⟩ := e3 k _ (List.getElem?_eq_getElem hk)
    rw [hc] at f1
    cases f1
    exact ⟨l, e1, f2⟩
  have hsplit : eventsOf k (es ++ .inl args :: evs) = eventsOf k es ++ .inl (.play id p) :: eventsOf k evs := by
    simp [eventsOf, List.filterMap_append, ha]
  rw [hev, hsplit, replay_append] at hc
  cases hc0 : replay (machine hp) L.start[k] (eventsOf k es) with
  | none => rw [hc0] at hc; cases hc
  | some c0 =>
    rw [hc0, Option.bind_some] at hc
    have hblend : c0.spline = none ∨ p.blendX ≤ 0 := by
      rcases hfirst with h | ⟨rfl, h⟩
      · exact .inr h
      · cases hc0
        exact .inl (h _ (List.getElem_mem hk))
    have hr1 : p.startX / s.g + 1 / 2 < 2147483648 := by
      have := hbd [] (by simp)
      simp only [List.foldl_nil] at this
      have : p.startX / s.g ≤ (p.startX + e) / s.g := by rw [div_le_div_iff_of_pos_right hg]; linarith
      linarith
    obtain ⟨c1, X1, a1, a2, a3, a4, a5⟩ := initCubic_at hs hn hh (p := p)
      (c := { c0 with rate := p.rate, yOffset := p.yOffset, yScale := p.yScale, spline := some id,
                      xIndex := kInvalid, rep := p.rep }) rfl rfl rfl rfl rfl hx hr1 he hpos
    have hset : c0.setSpline hp id p = some c1.evaluate := by
      unfold Slot.setSpline
      rw [if_neg (by
        rintro ⟨h1, h2⟩
        rcases hblend with h | h
        · rw [h] at h1; simp at h1
        · linarith)]
      unfold Slot.jumpTo
      rw [a1]; rfl
    obtain ⟨c2, X2, b1, b2, b3, b4, b5⟩ := control_at hs hn hh he he0 (eventsOf k evs) hctl p c1 X1 p.startX hpos hrate hx a2 a3 a4
      (le_trans a5 (max_le (by linarith) (by linarith))) hbd
    have hcc : c = c2.evaluate := by
      have : replay (machine hp) c0 (.inl (.play id p) :: eventsOf k evs) =
        (c0.setSpline hp id p).bind fun d => replay (machine hp) d (eventsOf k evs) := rfl
      rw [this, hset, Option.bind_some, b1] at hc
      exact (Option.some.inj hc).symm
    have hr2 : X2 / s.g + 1 / 2 < 2147483648 := by
      have := hbd (eventsOf k evs) (List.prefix_refl _)
      have : X2 / s.g ≤ (((eventsOf k evs).foldl clock (p.startX, p.rate)).1 + e) / s.g := by
        rw [div_le_div_iff_of_pos_right hg]; linarith
      linarith
    refine ⟨c, X2, hread, ?_, b3, b4, b2.nonneg, fun h1 h2 => near_le hs he b2.near (b2.inside h1 h2), ?_⟩
    · rw [hcc]; exact b2.evaluate.x hh
    · rw [hcc]; exact b2.reports hs hn hr2

/-- The clock from 0 at double speed: 2 ticks, then a jump to 1 at normal speed, and half a tick. -/
example : (([.inr 2, .inl (.time 1), .inl (.rate 1), .inr (1 / 2)] : List (Cmd ⊕ ℝ)).foldl clock (0, 2)) = (3 / 2, 1) := by
  norm_num [clock]

/-- The program of a single motivator of one dimension. -/
def alone {δ κ τ : Type} (d : δ) (evs : List (κ ⊕ τ)) : List (Call δ κ τ) :=
  .create 0 d true :: .initialize 5 0 [d] :: evs.map fun
    | .inl a => .set 5 [a]
    | .inr t => .frame 0 t

theorem alone_runs {δ κ τ : Type} (M : Machine δ κ τ) {d d' : δ} {evs : List (κ ⊕ τ)} (h : replay M d evs = some d') :
    ∃ w, Vector.run M (alone d evs) = some w := by
  have key : ∀ (evs : List (κ ⊕ τ)) (d : δ) (s : Abs δ), replay M d evs = some d' → (s.procs 0).isSome = true →
      (∀ m, s.vals m = if m = 5 then some (0, [d]) else none) →
      ∃ s', absRunFrom M s (evs.map fun | .inl a => Call.set 5 [a] | .inr t => .frame 0 t) = some s' := by
    intro evs
    induction evs with
    | nil => intro d s _ _ _; exact ⟨s, rfl⟩
    | cons v evs ih =>
      intro d s hr hp hs
      have hr' : (event M d v).bind (fun d1 => replay M d1 evs) = some d' := hr
      obtain ⟨d1, e1, e2⟩ := Option.bind_eq_some_iff.mp hr'
      match v with
      | .inl a =>
        have e1' : M.cmd a d = some d1 := e1
        obtain ⟨s', hs'⟩ := ih d1 (s.set 5 (some (0, [d1]))) e2 hp (by
          intro m
          by_cases hm : m = 5 <;> simp [Abs.set, hm, hs m])
        exact ⟨s', absRunFrom_cons (t := s.set 5 (some (0, [d1]))) (by simp [absCall, hs 5, cmds, e1']) hs'⟩
      | .inr t =>
        have e1' : M.frame t d = some d1 := e1
        obtain ⟨s', hs'⟩ := ih d1 (absStep (.advance 0 fun x => (M.frame t x).getD x) s) e2 (by simpa only [absStep, if_pos hp] using hp) (by
          intro m
          by_cases hm : m = 5 <;> simp [absStep, if_pos hp, hs, hm, e1'])
        refine ⟨s', absRunFrom_cons (if_pos ⟨hp, ?_⟩) hs'⟩
        intro m l hm x hx
        rw [hs m] at hm
        split at hm
        · simp only [Option.some.injEq, Prod.mk.injEq, true_and] at hm
          subst hm
          simp only [List.mem_singleton] at hx
          subst hx
          rw [e1']; rfl
        · cases hm
  obtain ⟨s', hs'⟩ := key evs d ((absStep (.create 0 d true) Abs.empty).set 5 (some (0, [d]))) h rfl (by
    intro m; by_cases hm : m = 5 <;> simp [Abs.set, absStep, Abs.empty, hm])
  obtain ⟨w, hw, -⟩ := (run_iff M (alone d evs)).2 s' (absRunFrom_cons rfl (absRunFrom_cons (absInitialize rfl (by simp)) hs'))
  exact ⟨w, hw⟩

/-- The sample spline played at double speed from 1 for one tick, and then at normal speed for 3 ticks. -/
noncomputable def sampleEvents : List (Cmd ⊕ ℝ) := [.inl (.play 0 { startX := 1, rate := 2 }), .inr 1, .inl (.rate 1), .inr 3]

theorem endX_sample : Spline.sample.endX = some 9 := by
  norm_num [Spline.sample, Spline.endX, Node.X]

theorem sample_runs : ∃ c, replay (machine fun _ => some Spline.sample) {} sampleEvents = some c := by
  have hs := Spline.sample_wf
  obtain ⟨c1, X1, a1, a2, a3, a4, a5⟩ := initCubic_at hs.1 hs.2 (hp := fun _ => some Spline.sample) (id := 0) rfl
    (p := { startX := 1, rate := 2 })
    (c := { ({} : Slot) with rate := 2, yOffset := 0, yScale := 1, spline := some 0, xIndex := kInvalid, rep := false })
    rfl rfl rfl rfl rfl (X := 1) (by norm_num) (by norm_num [Spline.sample]) endX_sample (by simp)
  have hset : ({} : Slot).setSpline (fun _ => some Spline.sample) 0 { startX := 1, rate := 2 } = some c1.evaluate := by
    unfold Slot.setSpline
    rw [if_neg (by simp)]
    unfold Slot.jumpTo
    rw [a1]; rfl
  obtain ⟨c2, X2, b1, -⟩ := control_at hs.1 hs.2 (hp := fun _ => some Spline.sample) (id := 0) rfl endX_sample (by norm_num)
    [.inr 1, .inl (.rate 1), .inr 3] (by simp [Control]) { startX := 1, rate := 2 } c1 X1 1 (by simp) (by norm_num) (by norm_num)
    a2 a3 a4 (le_trans a5 (by norm_num)) (by
      intro pre hpre
      have hm : pre ∈ List.inits [.inr 1, .inl (Cmd.rate 1), .inr (3 : ℝ)] := (List.mem_inits _ _).mpr hpre
      simp only [List.inits, List.map_cons, List.map_nil, List.mem_cons, List.not_mem_nil, or_false] at hm
      rcases hm with rfl | rfl | rfl | rfl <;> norm_num [clock, Spline.sample])
  refine ⟨c2.evaluate, ?_⟩
  have : replay (machine fun _ => some Spline.sample) {} sampleEvents = (({} : Slot).setSpline (fun _ => some Spline.sample) 0
    { startX := 1, rate := 2 }).bind fun c => replay (machine fun _ => some Spline.sample) c [.inr 1, .inl (.rate 1), .inr 3] := rfl
  rw [this, hset]
  exact b1

/-- The theorem applies to this program, which ends at 1 + 2 + 3. -/
example : ∃ w c, Vector.run (machine fun _ => some Spline.sample) (alone {} sampleEvents) = some w ∧
    gather (fun c => c.y) w 5 = some [c.y] ∧ c.X (fun _ => some Spline.sample) = some 6 ∧
    Reports Spline.sample { startX := 1, rate := 1 } c 6 := by
  obtain ⟨c0, h0⟩ := sample_runs
  obtain ⟨w, hw⟩ := alone_runs _ h0
  have hs := Spline.sample_wf
  have hL : life (alone ({} : Slot) sampleEvents).reverse 5 =
      some ⟨0, [{}], [] ++ .inl [.play 0 { startX := 1, rate := 2 }] :: [.inr 1, .inl [.rate 1], .inr 3]⟩ := by
    simp [alone, sampleEvents, life, Life.add]
  have hE : eventsOf 0 [.inr 1, .inl [Cmd.rate 1], .inr (3 : ℝ)] = [.inr 1, .inl (.rate 1), .inr 3] := by
    simp [eventsOf]
  obtain ⟨c, X, h1, h2, h3, -, -, -, h5⟩ := C91_motivators_play hw hL rfl (k := 0) (by simp) rfl (s := Spline.sample) rfl hs.1 hs.2
    (.inr ⟨rfl, by simp [Blank]⟩) (by norm_num) (by norm_num) endX_sample (by simp) (by rw [hE]; simp [Control]) (by
      intro pre hpre
      rw [hE] at hpre
      have hm : pre ∈ List.inits [.inr 1, .inl (Cmd.rate 1), .inr (3 : ℝ)] := (List.mem_inits _ _).mpr hpre
      simp only [List.inits, List.map_cons, List.map_nil, List.mem_cons, List.not_mem_nil, or_false] at hm
      rcases hm with rfl | rfl | rfl | rfl <;> norm_num [clock, Spline.sample])
  have hX : X = 6 := by rw [h3 rfl, hE]; norm_num [clock]
  subst hX
  obtain ⟨l, e1, e2⟩ := h1 fun c => c.y
  refine ⟨w, c, hw, ?_, h2, by rw [hE] at h5; exact h5⟩
  have hlen : l.length = 1 := by
    obtain ⟨l', f1, f2, -⟩ := ((C90_life (β := ℝ) _ hw 5).2 _ hL).2.2 fun c => c.y
    rw [e1] at f1
    cases f1
    simpa using f2
  match l, hlen with
  | [y], _ =>
    simp only [List.getElem?_cons_zero, Option.some.injEq] at e2
    rw [e1, e2]

/-! ### Motivators without a spline -/

theorem fresh_fails (hp : Heap) {dt : ℝ} (hdt : 0 < dt) : ({} : Slot).advance hp dt = none := by
  have h : (((0 : ℝ) : WithTop ℝ)) < ((0 + dt * 1 : ℝ) : WithTop ℝ) := by
    rw [zero_add, mul_one]
    exact_mod_cast hdt
  unfold Slot.advance
  simp only [if_pos h]
  rfl

/-- C91, disagreement. A spline motivator that has been initialised but given neither a target nor a spline makes the next frame fail, if
it has new slots: the evaluator asks for the position on a spline that is not there (bulk_spline_evaluator.h:294-298). -/
theorem C91_untargeted_frame_fails {hp : Heap} {cs : List (Call Slot Cmd ℝ)} {w : World Slot} (h : run (machine hp) cs = some w)
    {m : MotId} {L : Life Slot Cmd ℝ} (hL : life cs.reverse m = some L) (hev : L.events = []) (hnew : ({} : Slot) ∈ L.start)
    {dt : ℝ} (hdt : 0 < dt) : call (machine hp) (.frame L.proc dt) w = none := by
  cases hc : call (machine hp) (.frame L.proc dt) w with
  | none => rfl
  | some w' =>
    exfalso
    have hrun : run (machine hp) (cs ++ [.frame L.proc dt]) = some w' := by
      unfold Vector.run Vector.runFrom at h ⊢
      rw [List.foldlM_append, h]
      simpa using hc
    have hL' : life (cs ++ [Call.frame L.proc dt]).reverse m = some (L.add (.inr dt)) := by
      rw [List.reverse_append]
      simp [life, hL]
    obtain ⟨-, -, hr⟩ := (C90_life (β := Unit) (machine hp) hrun m).2 _ hL'
    obtain ⟨l, -, -, h3⟩ := hr fun _ => ()
    obtain ⟨k, hk, hk2⟩ := List.getElem_of_mem hnew
    obtain ⟨d', e1, -⟩ := h3 k {} (by simp [Life.add, List.getElem?_eq_getElem hk, hk2])
    simp only [Life.add, hev, List.nil_append] at e1
    have : replay (machine hp) ({} : Slot) (eventsOf k [Sum.inr dt]) = (({} : Slot).advance hp dt).bind fun d => some d := rfl
    rw [this, fresh_fails hp hdt] at e1
    cases e1

/-- Such a program: one motivator, and a frame. -/
example : ∃ w, run (machine fun _ => none) [.create 0 {} true, .initialize 5 0 [{}]] = some w ∧
    call (machine fun _ => none) (.frame 0 16) w = none := by
  have h : ∃ s, absRunFrom (machine fun _ => none) Abs.empty [.create 0 {} true, .initialize 5 0 [{}]] = some s :=
    ⟨_, absRunFrom_cons rfl (absRunFrom_cons (absInitialize rfl (by decide)) rfl)⟩
  obtain ⟨s, hs⟩ := h
  obtain ⟨w, hw, -⟩ := (run_iff _ _).2 s hs
  exact ⟨w, hw, C91_untargeted_frame_fails (m := 5) (L := ⟨0, [{}], []⟩) hw (by simp [life]) rfl (by simp) (by norm_num)⟩

/-- A slot that the last motivator has left cannot fail. -/
theorem C91_cleared_slots_run (hp : Heap) (c : Slot) (dts : List ℝ) :
    ∃ c', replay (machine hp) c.clearSpline (dts.map .inr) = some c' ∧ Blank c' := by
  have key : ∀ (dts : List ℝ) (c : Slot), c.spline = none → c.cubicXEnd = ⊤ →
      ∃ c', replay (machine hp) c (dts.map .inr) = some c' ∧ Blank c' := by
    intro dts
    induction dts with
    | nil => intro c h1 _; exact ⟨c, rfl, h1⟩
    | cons dt dts ih =>
      intro c h1 h2
      obtain ⟨c', e1, e2⟩ := ih { c with cubicX := c.cubicX + dt * c.rate }.evaluate h1 h2
      refine ⟨c', ?_, e2⟩
      have ha : c.advance hp dt = some { c with cubicX := c.cubicX + dt * c.rate }.evaluate := by
        unfold Slot.advance
        simp only [h2, not_top_lt, if_false, Option.map_some]
      have : replay (machine hp) c ((dt :: dts).map .inr) = (c.advance hp dt).bind fun d => replay (machine hp) d (dts.map .inr) := rfl
      rw [this, ha]
      exact e1
  exact key dts _ rfl rfl

/-! ### Repeating -/

/-- Setting a spline to repeat once it has ended has no effect: it stays at its end. `e` is the end and the position is more than half a
grain past it. -/
theorem C91_repeating_after_end {hp : Heap} {s : Spline} (hs : s.WF) {id : ℕ} (hh : hp id = some s)
    {p : Playback} {c : Slot} {X e : ℝ} (hat : At s id p c X) (he : s.endX = some e) (hX : e + s.g / 2 < X) (b : Bool) (dts : List ℝ) :
    ∃ c', replay (machine hp) c.evaluate (.inl (.repeating b) :: dts.map .inr) = some c' ∧
      c'.X hp = some (X + dts.sum * p.rate) ∧ ∃ y, s.endY = some y ∧ c'.y = p.yScale * y + p.yOffset := by
  have hg := hs.g_pos
  have hlast : ∀ b, s.nodes[s.nodes.length - 1]? = some b → e = b.X s.g := by
    intro b hb
    unfold Spline.endX at he
    rw [List.getLast?_eq_getElem?, hb] at he
    exact (Option.some.inj he).symm
  have hidx : c.xIndex = kAfter := by
    rcases hat.near with ⟨-, f, hf, hx⟩ | ⟨hj, -⟩ | ⟨a, b, ha, hb, -, hx⟩
    · exfalso
      have hflt := (List.getElem?_eq_some_iff.mp hf).1
      obtain ⟨l, hl⟩ : ∃ l, s.nodes[s.nodes.length - 1]? = some l := ⟨_, List.getElem?_eq_getElem (by omega)⟩
      have : (f.x : ℝ) ≤ l.x := by exact_mod_cast hs.sorted.le (Nat.zero_le _) hf hl
      rw [hlast l hl] at hX
      simp only [Node.X] at hx hX
      nlinarith
    · exact hj
    · exfalso
      have hflt := (List.getElem?_eq_some_iff.mp hb).1
      obtain ⟨l, hl⟩ : ∃ l, s.nodes[s.nodes.length - 1]? = some l := ⟨_, List.getElem?_eq_getElem (by omega)⟩
      have : (b.x : ℝ) ≤ l.x := by exact_mod_cast hs.sorted.le (by omega) hb hl
      rw [hlast l hl] at hX
      simp only [Node.X] at hx hX
      nlinarith
  obtain ⟨x0, Lh, ci, d1, d2, d3, d4, d5, d6⟩ := hat.data
  rw [hidx] at d1 d2 d3
  have hx0 : x0 = e := by
    simp only [Spline.nodeX, if_true] at d1
    rw [he] at d1
    exact (Option.some.inj d1).symm
  have hL : c.cubicXEnd = ⊤ := by
    rw [d5]
    simp only [Spline.rangeX, show kAfter ≠ kBefore by decide, if_false, if_true, he, Option.map_some, Option.some.injEq,
      Prod.mk.injEq] at d2
    exact d2.2.symm
  obtain ⟨n, hn, hci⟩ : ∃ n, s.nodes.getLast? = some n ∧ ci = ⟨n.Y s.yRange, 0, n.Y s.yRange, 0, 1⟩ := by
    simp only [Spline.cubicInitAt, show outside kAfter = true by decide, if_true, show kAfter ≠ kBefore by decide, if_false,
      Option.map_eq_some_iff] at d3
    obtain ⟨n, h1, h2⟩ := d3
    exact ⟨n, h1, h2.symm⟩
  have hendY : s.endY = some (n.Y s.yRange) := by simp [Spline.endY, hn]
  have hflat : ∀ t : ℝ, c.cubic.eval t = p.yScale * n.Y s.yRange + p.yOffset := by
    intro t
    rw [d6, hci]
    simp only [Cubic.init, Cubic.eval, Cubic.scaleUp, Cubic.shiftUp, ite_self]
    ring
  have key : ∀ (dts : List ℝ) (c1 : Slot) (Y : ℝ), c1.cubicXEnd = ⊤ → c1.spline = some id → c1.xIndex = kAfter → c1.rate = p.rate →
      c1.cubic = c.cubic → c1.cubicX = Y - x0 → c1.y = p.yScale * n.Y s.yRange + p.yOffset →
      ∃ c', replay (machine hp) c1 (dts.map .inr) = some c' ∧ c'.X hp = some (Y + dts.sum * p.rate) ∧
        c'.y = p.yScale * n.Y s.yRange + p.yOffset := by
    intro dts
    induction dts with
    | nil =>
      intro c1 Y _ h2 h3 _ _ h6 h7
      refine ⟨c1, rfl, ?_, h7⟩
      simp [Slot.X, h2, hh, h3, d1, h6]
    | cons dt dts ih =>
      intro c1 Y h1 h2 h3 h4 h5 h6 h7
      obtain ⟨c', e1, e2, e3⟩ := ih { c1 with cubicX := c1.cubicX + dt * c1.rate }.evaluate (Y + dt * p.rate) h1 h2 h3 h4 h5
        (by simp only [Slot.evaluate]; rw [h6, h4]; ring) (by simp only [Slot.evaluate]; rw [h5]; exact hflat _)
      refine ⟨c', ?_, by rw [e2, List.sum_cons]; congr 1; ring, e3⟩
      have ha : c1.advance hp dt = some { c1 with cubicX := c1.cubicX + dt * c1.rate }.evaluate := by
        unfold Slot.advance
        simp only [h1, not_top_lt, if_false, Option.map_some]
      have : replay (machine hp) c1 ((dt :: dts).map .inr) =
        (c1.advance hp dt).bind fun d => replay (machine hp) d (dts.map .inr) := rfl
      rw [this, ha]
      exact e1
  obtain ⟨c', e1, e2, e3⟩ := key dts { c.evaluate with rep := b } X hL hat.spline hidx hat.rate rfl d4
    (by simp only [Slot.evaluate]; exact hflat _)
  exact ⟨c', e1, e2, _, hendY, e3⟩

end Motive.SplineProc
