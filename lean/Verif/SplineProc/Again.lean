import Verif.SplineProc.Ahead
/-!
# Target times of splines that repeat (src/motive/processor/spline_processor.cpp:67-77)
-/

namespace Motive.SplineProc

open Motive.Proc Motive.Proc.Vector Motive.Splines Motive.Splines.Slot Motive.Math Motive.Curve

noncomputable section

theorem toInt_toward_zero {x : ℝ} {T : ℤ} (h : toInt x = some T) : |x - T| < 1 ∧ (0 ≤ x → 0 ≤ T ∧ (T : ℝ) ≤ x) ∧ (x < 0 → T ≤ 0 ∧ x ≤ T) := by
  unfold toInt at h
  split_ifs at h
  cases h
  refine ⟨(trunc_bounds _).2.1, fun h0 => ?_, fun h0 => ?_⟩
  · rw [trunc_of_nonneg h0]
    exact ⟨Int.floor_nonneg.mpr h0, Int.floor_le x⟩
  · rw [trunc_of_neg h0]
    exact ⟨Int.ceil_le.mpr (by simpa using h0.le), Int.le_ceil x⟩

/-- C107, for a spline that repeats: the target time is the time until the end of the current turn.  A motivator plays a spline that repeats, at
a rate of `r`, and then says that the target time is `T`. Now frames pass, `S` in all, and the blend is over. The position is where it has to be if the
end of a turn is met after `T / r`: up to a unit, and up to `k` whole turns, none if `S` is too short for the end of this one to be met, and the
target time is `T - S * r`, plus as many turns as it takes to get between 0 and the length of a turn, up to half a grain. -/
theorem C107_target_time_repeating {hp : Heap} {s : Spline} (hs : s.WF) (hn : s.Indexable) {id : ℕ} (hh : hp id = some s) {e M : ℝ}
    (he : s.endX = some e) (c0 : Slot) (p : Playback) (hmod : c0.modRange.valid → c0.modRange.start = -c0.modRange.stop ∧ 0 < c0.modRange.stop)
    (hx : 0 ≤ p.startX) (hrate : 0 < p.rate) (hrep : p.rep = true) (h2 : 2 ≤ s.nodes.length) (he0 : 0 < e) (he1 : e < 2147483648) (hM0 : 0 ≤ M)
    (hM : (p.startX + e + max p.blendX 0 * p.rate + M) / s.g + 1 < 2147483648)
    {evs : List (Cmd ⊕ ℝ)} (hev : ∀ v ∈ evs, Control v) {dts : List ℝ} (hdt : ∀ d ∈ dts, 0 ≤ d)
    (hst : Strides M p.rate (evs ++ dts.map Sum.inr)) {r : ℝ} (hr : (evs.foldl clock (p.startX, p.rate)).2 = r)
    {c : Slot} (hc : replay (machine hp) c0 (.inl (.play id p) :: evs) = some c) {T : ℤ} (hT : targetTime hp c = some T)
    (hbl : ¬ (Blends c0 p ∧ InBlend p (evs ++ dts.map Sum.inr))) :
    ∃ (c' : Slot) (x : ℝ) (k : ℤ) (T' : ℤ), replay (machine hp) c (dts.map Sum.inr) = some c' ∧
      c'.X hp = some x ∧ 0 ≤ x ∧ x ≤ e + s.g / 2 ∧ |x - (e - T + dts.sum * r - k * e)| < 1 ∧
      (¬ (Blends c0 p ∧ InBlend p evs) → dts.sum * r + 1 ≤ T → T + 1 + s.g / 2 ≤ e + dts.sum * r → k = 0) ∧
      targetTime hp c' = some T' ∧ -(s.g / 2) ≤ T' ∧ T' ≤ e ∧ |(T - dts.sum * r + k * e) - T'| < 2 := by
  obtain ⟨b, -, hplay⟩ := C96_plays hs hn hh he c0 p (fun _ => hmod) hx hrate (fun _ => he0) hM0 hM
  have hall : ∀ v ∈ evs ++ dts.map Sum.inr, Control v := by
    intro v hv
    rcases List.mem_append.mp hv with h | h
    · exact hev v h
    · obtain ⟨d, hd, rfl⟩ := List.mem_map.mp h
      exact hdt d hd
  obtain ⟨ca, Xa, a1, a2, -, ⟨na, a3⟩, -, a6⟩ := hplay evs hev (strides_append evs _ p.startX p.rate hst).1
  obtain ⟨cb, Xb, b1, b2, -, ⟨nb, b3⟩, -, b6⟩ := hplay _ hall hst
  rw [hc] at a1; cases a1
  have hstep : replay (machine hp) c (dts.map Sum.inr) = some cb := by
    have : replay (machine hp) c0 ((.inl (.play id p) :: evs) ++ dts.map Sum.inr) = some cb := b1
    rw [replay_append, hc, Option.bind_some] at this
    exact this
  set xa := (evs.foldl clock (p.startX, p.rate)).1 with hxa
  have hclock : (evs ++ dts.map Sum.inr).foldl clock (p.startX, p.rate) = (xa + dts.sum * r, r) := by
    rw [clock_append, show evs.foldl clock (p.startX, p.rate) = (xa, r) from Prod.ext rfl hr, clock_frames]
  rw [hclock] at b3
  obtain ⟨s1, -, -⟩ := play_source hev hc
  obtain ⟨t1, -, -⟩ := play_source hall b1
  have htime : toInt (e - Xa) = some T := by
    unfold targetTime at hT
    rw [s1, Option.bind_some, hh, Option.bind_some, he, Option.bind_some, a2, Option.bind_some] at hT
    exact hT
  obtain ⟨hnear, -, -⟩ := toInt_toward_zero htime
  obtain ⟨n1, n2⟩ := abs_lt.mp hnear
  have hsh := b6 hbl
  have hX0 := hsh.nonneg
  have hX1 := hsh.wraps hrep h2 e he
  have hg := hs.g_pos
  have hge : s.g ≤ e := by
    obtain ⟨l, -, rfl⟩ := endX_last he
    simp only [Node.X] at he0 ⊢
    have : 0 < l.x := by
      rcases Nat.eq_zero_or_pos l.x with h | h
      · rw [h] at he0; simp at he0
      · exact h
    have : (1 : ℝ) ≤ l.x := by exact_mod_cast this
    nlinarith
  obtain ⟨T', f1, -, -⟩ := toInt_near (x := e - Xb) (by linarith) (by linarith)
  obtain ⟨f2, f3, f4⟩ := toInt_toward_zero f1
  obtain ⟨g1, g2⟩ := abs_lt.mp f2
  refine ⟨cb, Xb, na - nb, T', hstep, b2, hX0, hX1, ?_, ?_, ?_, ?_, ?_, ?_⟩
  · rw [abs_lt]; push_cast
    constructor <;> nlinarith
  · intro hbl' q1 q2
    have hXa := (a6 hbl').nonneg
    have hlo : s.g / 2 < Xa + dts.sum * r := by linarith
    have hhi : Xa + dts.sum * r < e := by linarith
    have hk : Xb = Xa + dts.sum * r - ((na - nb : ℤ) : ℝ) * e := by push_cast; linarith
    by_contra hne
    rcases lt_or_gt_of_ne hne with h | h
    · have : ((na - nb : ℤ) : ℝ) ≤ -1 := by exact_mod_cast (by omega : na - nb ≤ -1)
      nlinarith
    · have : (1 : ℝ) ≤ ((na - nb : ℤ) : ℝ) := by exact_mod_cast (by omega : 1 ≤ na - nb)
      nlinarith
  · unfold targetTime
    rw [t1, Option.bind_some, hh, Option.bind_some, he, Option.bind_some, b2, Option.bind_some, f1]
  · by_cases h : 0 ≤ e - Xb
    · have : (0 : ℝ) ≤ T' := by exact_mod_cast (f3 h).1
      linarith
    · push Not at h
      linarith [(f4 h).2]
  · by_cases h : 0 ≤ e - Xb
    · linarith [(f3 h).2]
    · push Not at h
      have : (T' : ℝ) ≤ 0 := by exact_mod_cast (f4 h).1
      linarith
  · rw [abs_lt]; push_cast
    constructor <;> nlinarith

/-- For example: the sample spline, 9 long, is repeated; 20 units pass, more than two turns. -/
example : ∃ (c c' : Slot) (T T' k : ℤ), replay (machine fun _ => some Spline.sample) {} [.inl (.play 0 { rep := true })] = some c ∧
    targetTime (fun _ => some Spline.sample) c = some T ∧ replay (machine fun _ => some Spline.sample) c [.inr 4, .inr 11, .inr 5] = some c' ∧
    targetTime (fun _ => some Spline.sample) c' = some T' ∧ -(1 / 2 : ℝ) ≤ T' ∧ (T' : ℝ) ≤ 9 ∧ |(T - 20 + k * 9) - (T' : ℝ)| < 2 := by
  have hs := Spline.sample_wf
  have hmod : ({} : Slot).modRange.valid → ({} : Slot).modRange.start = -({} : Slot).modRange.stop ∧ 0 < ({} : Slot).modRange.stop := by
    intro h; norm_num [Range.valid] at h
  have hnb : ∀ evs, ¬ (Blends {} { rep := true } ∧ InBlend { rep := true } evs) := by rintro evs ⟨⟨h, -⟩, -⟩; exact h rfl
  obtain ⟨b, -, hplay⟩ := C96_plays hs.1 hs.2 (hp := fun _ => some Spline.sample) (id := 0) rfl endX_sample {} { rep := true } (fun _ => hmod)
    (by norm_num) (by norm_num) (by norm_num) (M := 11) (by norm_num) (by norm_num [Spline.sample])
  obtain ⟨c, X, a1, a2, -, -, -, a6⟩ := hplay [] (by simp) trivial
  have hX0 := (a6 (hnb [])).nonneg
  have hX1 := (a6 (hnb [])).wraps rfl (by norm_num [Spline.sample]) 9 endX_sample
  have hg : Spline.sample.g = 1 := rfl
  rw [hg] at hX1
  obtain ⟨T, t1, -⟩ := toInt_near (x := 9 - X) (by linarith) (by linarith)
  obtain ⟨s1, -, -⟩ := play_source (evs := []) (by simp) a1
  have hT : targetTime (fun _ => some Spline.sample) c = some T := by
    unfold targetTime
    rw [s1, Option.bind_some, Option.bind_some, endX_sample, Option.bind_some, a2, Option.bind_some, t1]
  obtain ⟨c', x, k, T', r1, -, -, -, -, -, r2, r3, r4, r5⟩ := C107_target_time_repeating hs.1 hs.2 (hp := fun _ => some Spline.sample) (id := 0) rfl
    endX_sample {} { rep := true } hmod (by norm_num) (by norm_num) rfl (by norm_num [Spline.sample]) (by norm_num) (by norm_num) (M := 11) (by norm_num)
    (by norm_num [Spline.sample]) (evs := []) (by simp) (dts := [4, 11, 5]) (by simp) (by norm_num [Strides]) rfl a1 hT (hnb _)
  refine ⟨c, c', T, T', k, a1, hT, r1, r2, by rw [hg] at r3; linarith, r4, ?_⟩
  norm_num at r5 ⊢
  exact r5

end
end Motive.SplineProc
