import Verif.Float.Blend

/-!
# Blending to a spline in single precision, frame by frame (C102)
-/

namespace Motive.Float.Hermite

open Motive.Curve (Cubic CubicInit)
open Motive.Math (Range)
open Motive.Splines (Node kBefore kAfter kInvalid outside SortedX)

noncomputable section

variable {rnd : ℚ → ℚ} {fused : Bool} {slope : ℤ → ℚ} {s : Spline} {pb : Playback} {f l : Node}

/-! ### The ends of the blend -/

/-- A curve that is neither scaled nor shifted. -/
theorem curveOf_unit (h : Nearest f32 rnd) {i : CubicInit ℚ} (hi : Floats i) (rep : Bool) : curveOf rnd ⟨rep, 0, 1⟩ i = init rnd i := by
  obtain ⟨m3, m2, m1, m0⟩ := init_mem h hi
  unfold curveOf scaleUp shiftUp
  simp only [mul_one, add_zero, h.exact m3, h.exact m2, h.exact m1, h.exact m0]

/-- The end of the blend is what the evaluator would show there. -/
theorem blendEnd_spec (h : Nearest f32 rnd) (hsl : ∀ a, f32.Mem (slope a)) {b : Start} {c : Cursor}
    (hc : initCubic rnd slope s ⟨pb.rep, 0, 1⟩ (kInvalid - 1) (rnd (b.x + rnd (b.blend * b.rate))) = some c) :
    blendEnd rnd fused slope s pb b =
      some (rnd (rnd ((evaluate rnd fused c).y * pb.yScale) + pb.yOffset), (evaluate rnd fused c).rawSlope rnd fused) := by
  unfold initCubic at hc
  rw [show (kInvalid - 1 + 1) % 65536 = kInvalid by decide] at hc
  obtain ⟨p, hp, hpl⟩ := Option.bind_eq_some_iff.mp hc
  unfold place at hpl
  obtain ⟨r, hr, hcc⟩ := Option.bind_eq_some_iff.mp hpl
  obtain ⟨i, hi, rfl⟩ := Option.map_eq_some_iff.mp hcc
  have flat : ∀ (n : Node) (x : ℚ), eval rnd fused (curveOf rnd ⟨pb.rep, 0, 1⟩ (flatInit (nodeY rnd s n))) x = nodeY rnd s n ∧
      deriv rnd fused (curveOf rnd ⟨pb.rep, 0, 1⟩ (flatInit (nodeY rnd s n))) x = 0 := by
    intro n x
    have := flat_curve (fused := fused) (pb := ⟨pb.rep, 0, 1⟩) h (nodeY rnd s n) x
    have hm : f32.Mem (nodeY rnd s n) := h.mem _
    simp only [mul_one, add_zero, h.exact hm] at this
    exact this
  unfold blendEnd
  rw [hp]
  simp only [Option.bind_some, evaluate, Cursor.rawSlope]
  unfold cubicInitAt at hi
  by_cases c1 : p.1 = kBefore
  · rw [if_pos c1] at hi ⊢
    obtain ⟨n, hn, rfl⟩ := Option.map_eq_some_iff.mp hi
    have := flat n (rnd (p.2 - r.1))
    unfold curveOf at this
    simp only at this
    rw [hn, this.1, this.2]
    rfl
  · rw [if_neg c1] at hi ⊢
    by_cases c2 : p.1 = kAfter
    · rw [if_pos c2] at hi ⊢
      obtain ⟨n, hn, rfl⟩ := Option.map_eq_some_iff.mp hi
      have := flat n (rnd (p.2 - r.1))
      unfold curveOf at this
      simp only at this
      rw [hn, this.1, this.2]
      rfl
    · rw [if_neg c2] at hi ⊢
      obtain ⟨m, hm, hi'⟩ := Option.bind_eq_some_iff.mp hi
      obtain ⟨n, hn, rfl⟩ := Option.map_eq_some_iff.mp hi'
      unfold rangeX at hr
      rw [if_neg c1, if_neg c2, hm, hn] at hr
      simp only [Option.bind_some, Option.map_some, Option.some.injEq] at hr
      have e := curveOf_unit h (floats_init h hsl s m n) pb.rep
      unfold curveOf at e
      simp only at e
      rw [hm, hn, e, ← hr]
      rfl

/-- Where the blend starts. -/
theorem start_index (h : Nearest f32 rnd) (hs : s.Legal) (hf : s.nodes.head? = some f) (hl : s.nodes.getLast? = some l)
    {x A : ℚ} (hx0 : 0 ≤ x) (hx1 : x ≤ l.x * s.g) (hA : Into s x A) (hrep : pb.rep = true → 2 ≤ s.nodes.length) :
    ∃ i x0, indexRepeat rnd s x kInvalid pb.rep = some (i, x) ∧ startOf rnd s i = some x0 ∧ 0 ≤ x0 ∧ f32.Mem x0 ∧
      |x - x0| ≤ A + 5 / 8 * s.g ∧ |x - x0| ≤ l.x * s.g + 5 / 8 * s.g := by
  have hg := hs.pos
  have hl65 : (l.x : ℚ) ≤ 65535 := by exact_mod_cast (hs.ok l (List.mem_of_getLast? hl)).1
  have hlg : (l.x : ℚ) * s.g ≤ 65535 * s.g := mul_le_mul_of_nonneg_right hl65 hg.le
  have hba : kBefore ≠ kAfter := by simp [kAfter, kBefore]
  obtain ⟨hA0, hA1, hA2⟩ := hA
  have hl0 : 0 ≤ (l.x : ℚ) * s.g := by positivity
  obtain ⟨i, hi, hc⟩ := index_cases h hs hf hl hx0 (by linarith) kInvalid
  rcases hc with ⟨rfl, hb⟩ | ⟨rfl, ha1, ha2⟩ | ⟨n1, n2, a, b, ha, hb, hx2, hx3⟩
  · refine ⟨kBefore, 0, ?_, by unfold startOf; rw [if_pos rfl], le_rfl, mem_zero, ?_, ?_⟩
    · unfold indexRepeat; rw [hi]; simp [hba]
    · have := hA1 f hf (by linarith)
      rw [sub_zero, abs_of_nonneg hx0]; linarith
    · rw [sub_zero, abs_of_nonneg hx0]; linarith
  · have hr : pb.rep = false := by
      cases hr : pb.rep with
      | false => rfl
      | true => exfalso; have := ha2 (hrep hr); linarith
    have nl := abs_le.mp (nodeX_near h hs (List.mem_of_getLast? hl))
    have hlm : f32.Mem (nodeX rnd s l) := h.mem _
    refine ⟨kAfter, nodeX rnd s l, ?_, ?_, nodeX_nonneg h hs l, hlm, ?_, ?_⟩
    · unfold indexRepeat; rw [hi, hr]; simp
    · unfold startOf; rw [if_neg hba.symm, if_pos rfl, hl]; rfl
    · rw [abs_le]; constructor <;> linarith [nl.1, nl.2]
    · rw [abs_le]; constructor <;> linarith [nl.1, nl.2]
  · have na := abs_le.mp (nodeX_near h hs (List.mem_of_getElem? ha))
    have hd := abs_le.mp (hA2 i a b ha hb hx2 hx3)
    have ha0 : 0 ≤ (a.x : ℚ) * s.g := by positivity
    have hm : f32.Mem (nodeX rnd s a) := h.mem _
    refine ⟨i, nodeX rnd s a, ?_, ?_, nodeX_nonneg h hs a, hm, ?_, ?_⟩
    · unfold indexRepeat; rw [hi]; simp [n2]
    · unfold startOf; rw [if_neg n1, if_neg n2, ha]; rfl
    · rw [abs_le]; constructor <;> linarith [na.1, na.2, hd.1, hd.2]
    · rw [abs_le]; constructor <;> linarith [na.1, na.2]

/-! ### The blend and the frames after it -/

/-- The cursor is on the curve of the blend, which starts at `a` from the beginning `x0` of the spline's segment. -/
structure Blending (rnd : ℚ → ℚ) (fused : Bool) (s : Spline) (b : Start) (i : CubicInit ℚ) (x0 a : ℚ) (c : Cursor) : Prop where
  st : startOf rnd s c.index = some x0
  start : a = rnd (b.x - x0)
  mem : f32.Mem c.x
  lo : a ≤ c.x
  hi : c.x ≤ mulAdd rnd fused b.blend b.rate a
  stop : c.xEnd = ((mulAdd rnd fused b.blend b.rate a : ℚ) : WithTop ℚ)
  cub : c.cubic = shiftLeft rnd fused (init rnd i) (-a)

theorem Where.mono {D S : ℚ} {m n : ℕ} {c : Cursor} (hg : 0 ≤ s.g) (hD : 0 ≤ D) (hmn : m ≤ n)
    (hc : Where rnd slope s pb l D m S c) : Where rnd slope s pb l D n S c := by
  have hQ : 0 ≤ (l.x * s.g + D + s.g) / 2 ^ 20 := by positivity
  have h1 : (m : ℚ) + 1 ≤ n + 1 := by exact_mod_cast Nat.succ_le_succ hmn
  have := mul_le_mul_of_nonneg_right h1 hQ
  rcases hc with ⟨h1, h2, h3⟩ | ⟨k, P, h1, h2, h3⟩
  · exact Or.inl ⟨h1, h2, by linarith⟩
  · exact Or.inr ⟨k, P, h1, h2, by linarith⟩

section Move

variable {b : Start} {i : CubicInit ℚ} {x0 a w D : ℚ}

/-- One frame of a blend. -/
theorem Blending.next (h : Nearest f32 rnd) (hs : s.Legal) (hf : s.nodes.head? = some f) (hl : s.nodes.getLast? = some l)
    (hx0m : f32.Mem x0) (hb0 : 0 ≤ b.x) (hb1 : b.x ≤ l.x * s.g) (hw : w = b.blend * b.rate) (hbl : 0 ≤ b.blend) (hbr : 0 ≤ b.rate)
    (hD0 : 0 ≤ D) (hD : D + w ≤ 2 ^ 29 * s.g) (hrep : pb.rep = true → 2 ≤ s.nodes.length ∧ D + w + s.g ≤ l.x * s.g)
    (hax : |b.x - x0| ≤ l.x * s.g + 5 / 8 * s.g) (ha : |a| ≤ l.x * s.g + s.g)
    {c : Cursor} (hc : Blending rnd fused s b i x0 a c) {n : ℕ} {S : ℚ}
    (hS : |c.x - a - S| ≤ n * ((l.x * s.g + (D + w) + s.g) / 2 ^ 20)) {fr : Frame} (h0 : 0 ≤ fr.dt) (h1 : 0 ≤ fr.rate)
    (h2 : fr.dt * fr.rate ≤ D) :
    ∃ c', advance rnd fused slope s pb fr c = some c' ∧
      ((Blending rnd fused s b i x0 a c' ∧
        |c'.x - a - (S + fr.dt * fr.rate)| ≤ (n + 1 : ℕ) * ((l.x * s.g + (D + w) + s.g) / 2 ^ 20)) ∨
       (w ≤ S + fr.dt * fr.rate + (n + 1 : ℕ) * ((l.x * s.g + (D + w) + s.g) / 2 ^ 20) ∧
        Where rnd slope s pb l (D + w) n (b.x + (S + fr.dt * fr.rate)) c')) := by
  have hg := hs.pos
  have hu := u_pos
  have hl0 : 0 ≤ (l.x : ℚ) * s.g := by positivity
  have hl65 : (l.x : ℚ) ≤ 65535 := by exact_mod_cast (hs.ok l (List.mem_of_getLast? hl)).1
  have hlg : (l.x : ℚ) * s.g ≤ 65535 * s.g := mul_le_mul_of_nonneg_right hl65 hg.le
  have hw0 : 0 ≤ w := by rw [hw]; positivity
  set M := l.x * s.g + (D + w) + s.g with hM
  set Q := M / 2 ^ 20 with hQ
  have hMg : s.g ≤ M := by linarith
  have hM0 : 1 / 2 ^ 30 ≤ M := by linarith [hs.least]
  have hM00 : 1 / 2 ^ 30 ≤ 2 * M := by linarith
  have hMpos : 0 < M := lt_of_lt_of_le hg hMg
  have hU : 17 / 16 * u * M ≤ 17 / 16 * (Q / 16) := by rw [hQ, u]; linarith
  have hU0 : 0 ≤ 17 / 16 * u * M := by positivity
  have hUM : 17 / 16 * u * M ≤ M / 2 ^ 23 := by
    rw [u]
    linarith
  have ha' := abs_le.mp ha
  have hS' := abs_le.mp hS
  obtain ⟨z1, z2⟩ := moved (fused := fused) h (x := a) (M := 2 * M) (B := l.x * s.g + s.g) (D := w) hM00
    (by rw [hc.start]; exact h.mem _) ha (by linarith) hbl hbr (le_of_eq hw.symm)
  have z2' := abs_le.mp z2
  set e := mulAdd rnd fused b.blend b.rate a with he
  have hcx : |c.x| ≤ l.x * s.g + s.g + w + 4 * (17 / 16 * u * M) := by
    rw [abs_le]
    constructor
    · linarith [hc.lo]
    · linarith [hc.hi, z2'.2]
  obtain ⟨m1, m2⟩ := moved (fused := fused) h (x := c.x) (M := 2 * M) (D := D) hM00 hc.mem hcx (by linarith) h0 h1 h2
  have m2' := abs_le.mp m2
  have hδ := mul_nonneg h0 h1
  set x' := mulAdd rnd fused fr.dt fr.rate c.x with hx'
  have hbase := small h hM0 (x := b.x - x0) (by linarith)
  rw [← hc.start] at hbase
  have hbase' := abs_le.mp hbase
  push_cast
  by_cases hlt : c.xEnd < ((x' : ℚ) : WithTop ℚ)
  · have hlt' := hlt
    rw [hc.stop, WithTop.coe_lt_coe] at hlt'
    have hge : -x0 ≤ a := by
      rw [hc.start]
      exact h.ge_of_ge (mem_neg hx0m) (by linarith)
    have hsum0 : 0 ≤ x0 + x' := by linarith [hc.lo]
    have hX0 := h.ge_of_ge mem_zero hsum0
    have hsum : |x0 + x'| ≤ 33 / 32 * (2 * M) := by
      rw [abs_of_nonneg hsum0]
      linarith [hc.hi, z2'.2, m2'.2, hbase'.2]
    have e1 := abs_le.mp (small h hM00 hsum)
    have hX1 : |rnd (x0 + x') - (b.x + (S + fr.dt * fr.rate))| ≤ n * Q + 8 * (17 / 16 * u * M) := by
      rw [abs_le]
      constructor
      · linarith [e1.1, m2'.1, hS'.1, hbase'.1]
      · linarith [e1.2, m2'.2, hS'.2, hbase'.2]
    have hup : rnd (x0 + x') ≤ l.x * s.g + (D + w) + 12 * (17 / 16 * u * M) := by
      linarith [e1.2, m2'.2, hbase'.2, hc.hi, z2'.2]
    have hMs : M ≤ 65536 * s.g + 2 ^ 29 * s.g := by linarith
    obtain ⟨c', hc', hor⟩ := initCubic_spec (slope := slope) (pb := pb) (D := D + w) h hs hf hl (by linarith) hM.symm.le (h.mem (x0 + x')) hX0
      (by norm_num at hMs ⊢; linarith) (fun hr => ⟨(hrep hr).1, (hrep hr).2, by have := (hrep hr).2; linarith⟩) c.index
    refine ⟨evaluate rnd fused c', ?_, Or.inr ⟨?_, ?_⟩⟩
    · unfold advance
      rw [if_pos hlt, hc.st]
      simp only [Option.bind_some]
      rw [← hx', hc']
      rfl
    · linarith [z2'.1, m2'.2, hS'.2]
    · rcases hor with ⟨hr, hfin, hle⟩ | ⟨k, P', hk, hP', hd⟩
      · refine Or.inl ⟨hr, hfin, ?_⟩
        rw [← hM, ← hQ]
        linarith [(abs_le.mp hX1).2]
      · refine Or.inr ⟨k, P', hk, hP', ?_⟩
        rw [← hM, ← hQ]
        have e : P' + k * (l.x * s.g) - (b.x + (S + fr.dt * fr.rate)) =
            (P' + k * (l.x * s.g) - rnd (x0 + x')) + (rnd (x0 + x') - (b.x + (S + fr.dt * fr.rate))) := by ring
        rw [e]
        refine (abs_add_le _ _).trans ?_
        linarith
  · refine ⟨evaluate rnd fused { c with x := x' }, ?_, Or.inl ⟨⟨hc.st, hc.start, mulAdd_mem h _ _ _, hc.lo.trans m1, ?_, hc.stop, hc.cub⟩, ?_⟩⟩
    · unfold advance
      rw [← hx', if_neg hlt]
      rfl
    · rw [hc.stop, WithTop.coe_lt_coe, not_lt] at hlt
      exact hlt
    · show |x' - a - (S + fr.dt * fr.rate)| ≤ _
      rw [abs_le]
      constructor
      · linarith [m2'.1, hS'.1]
      · linarith [m2'.2, hS'.2]

/-- Many frames. -/
theorem Blending.frames (h : Nearest f32 rnd) (hs : s.Legal) (hf : s.nodes.head? = some f) (hl : s.nodes.getLast? = some l)
    (hx0m : f32.Mem x0) (hb0 : 0 ≤ b.x) (hb1 : b.x ≤ l.x * s.g) (hw : w = b.blend * b.rate) (hbl : 0 ≤ b.blend) (hbr : 0 ≤ b.rate)
    (hD0 : 0 ≤ D) (hD : D + w ≤ 2 ^ 29 * s.g) (hrep : pb.rep = true → 2 ≤ s.nodes.length ∧ D + w + s.g ≤ l.x * s.g)
    (hax : |b.x - x0| ≤ l.x * s.g + 5 / 8 * s.g) (ha : |a| ≤ l.x * s.g + s.g)
    {fs : List Frame} (hfs : Forward D fs) {c : Cursor} (hc : Blending rnd fused s b i x0 a c) {n : ℕ} {S : ℚ}
    (hS : |c.x - a - S| ≤ n * ((l.x * s.g + (D + w) + s.g) / 2 ^ 20)) :
    ∃ c', Hermite.frames rnd fused slope s pb fs c = some c' ∧
      ((Blending rnd fused s b i x0 a c' ∧
        |c'.x - a - (S + distance fs)| ≤ (n + fs.length : ℕ) * ((l.x * s.g + (D + w) + s.g) / 2 ^ 20)) ∨
       (w ≤ S + distance fs + (n + fs.length : ℕ) * ((l.x * s.g + (D + w) + s.g) / 2 ^ 20) ∧
        Where rnd slope s pb l (D + w) (n + fs.length) (b.x + (S + distance fs)) c')) := by
  have hg := hs.pos
  have hw0 : 0 ≤ w := by rw [hw]; positivity
  have hQ : 0 ≤ (l.x * s.g + (D + w) + s.g) / 2 ^ 20 := by positivity
  set Q := (l.x * s.g + (D + w) + s.g) / 2 ^ 20 with hQd
  induction fs generalizing c n S with
  | nil => exact ⟨c, rfl, Or.inl ⟨hc, by simpa [distance] using hS⟩⟩
  | cons fr fs ih =>
    obtain ⟨h0, h1, h2⟩ := hfs fr (by simp)
    have hfs' : Forward D fs := fun q hq => hfs q (by simp [hq])
    have e1 : n + 1 + fs.length = n + (fr :: fs).length := by simp only [List.length_cons]; omega
    have e2 : S + fr.dt * fr.rate + distance fs = S + distance (fr :: fs) := by
      simp only [distance, List.map_cons, List.sum_cons]; ring
    obtain ⟨d, hd, hor⟩ := hc.next (slope := slope) (pb := pb) h hs hf hl hx0m hb0 hb1 hw hbl hbr hD0 hD hrep hax ha hS h0 h1 h2
    rw [← hQd] at hor
    rcases hor with ⟨hB, hS'⟩ | ⟨hle, hW⟩
    · obtain ⟨e, he, hor'⟩ := ih hfs' hB hS'
      refine ⟨e, by simp only [Hermite.frames, hd, Option.bind_some, he], ?_⟩
      rw [e1, e2] at hor'
      exact hor'
    · have fw : Forward (D + w) fs := fun q hq => ⟨(hfs' q hq).1, (hfs' q hq).2.1, by linarith [(hfs' q hq).2.2]⟩
      obtain ⟨e, he, hW'⟩ := hW.frames (fused := fused) h hs hf hl (by linarith) hD hrep fw
      refine ⟨e, by simp only [Hermite.frames, hd, Option.bind_some, he], Or.inr ⟨?_, ?_⟩⟩
      · rw [← e1, ← e2]
        have hdist : 0 ≤ distance fs := by
          unfold distance
          refine List.sum_nonneg ?_
          intro q hq
          obtain ⟨fr', hm, rfl⟩ := List.mem_map.mp hq
          exact mul_nonneg (hfs' fr' hm).1 (hfs' fr' hm).2.1
        have : ((n + 1 : ℕ) : ℚ) * Q ≤ ((n + 1 + fs.length : ℕ) : ℚ) * Q :=
          mul_le_mul_of_nonneg_right (by push_cast; have : (0 : ℚ) ≤ (fs.length : ℚ) := Nat.cast_nonneg _; linarith) hQ
        linarith
      · have e3 : b.x + (S + fr.dt * fr.rate) + distance fs = b.x + (S + fr.dt * fr.rate + distance fs) := by ring
        rw [← e1, ← e2]
        rw [e3] at hW'
        exact Where.mono hg.le (by linarith) (by omega) hW'

end Move

/-! ### Properties -/

section Properties

variable {b : Start} {y d A D : ℚ}

/-- How a blend is played. -/
theorem blend_where (h : Nearest f32 rnd) (hsl : ∀ a, f32.Mem (slope a)) (hs : s.Legal)
    (hl : s.nodes.getLast? = some l) (hx0 : 0 ≤ b.x) (hx1 : b.x ≤ l.x * s.g) (hA : Into s b.x A)
    (hb : 0 ≤ b.blend) (hr : 0 ≤ b.rate) (hD0 : 0 ≤ D)
    (hD : D + b.blend * b.rate ≤ 2 ^ 29 * s.g)
    (hrep : pb.rep = true → 2 ≤ s.nodes.length ∧ D + b.blend * b.rate + s.g ≤ l.x * s.g) :
    ∃ endY endD x0 a, Target rnd fused slope s pb (b.x + b.blend * b.rate) ((l.x * s.g + (D + b.blend * b.rate) + s.g) / 2 ^ 20) endY endD ∧
      f32.Mem endY ∧ f32.Mem endD ∧ |a| ≤ A + s.g ∧ |a| ≤ l.x * s.g + s.g ∧ f32.Mem a ∧
      ∀ fs, Forward D fs → ∃ c, blendPlay rnd fused slope s pb b y d fs = some c ∧ Evaluated rnd fused c ∧ (fs = [] → c.x = a) ∧
        ((Blending rnd fused s b ⟨y, d, endY, endD, rnd (b.blend * b.rate)⟩ x0 a c ∧
          |c.x - a - distance fs| ≤ fs.length * ((l.x * s.g + (D + b.blend * b.rate) + s.g) / 2 ^ 20)) ∨
         (b.blend * b.rate ≤ distance fs + fs.length * ((l.x * s.g + (D + b.blend * b.rate) + s.g) / 2 ^ 20) ∧
          Where rnd slope s pb l (D + b.blend * b.rate) fs.length (b.x + distance fs) c)) := by
  obtain ⟨f, hf⟩ : ∃ f, s.nodes.head? = some f := by
    rw [List.head?_eq_getElem?]
    exact ⟨_, List.getElem?_eq_getElem hs.nonempty⟩
  have hg := hs.pos
  have hu := u_pos
  have hl0 : 0 ≤ (l.x : ℚ) * s.g := by positivity
  have hl65 : (l.x : ℚ) ≤ 65535 := by exact_mod_cast (hs.ok l (List.mem_of_getLast? hl)).1
  have hlg : (l.x : ℚ) * s.g ≤ 65535 * s.g := mul_le_mul_of_nonneg_right hl65 hg.le
  obtain ⟨w, hw⟩ : ∃ w, w = b.blend * b.rate := ⟨_, rfl⟩
  have hw0 : 0 ≤ w := by rw [hw]; positivity
  rw [← hw] at hD hrep ⊢
  obtain ⟨M, hM⟩ : ∃ M, M = l.x * s.g + (D + w) + s.g := ⟨_, rfl⟩
  have hMg : s.g ≤ M := by linarith
  have hM0 : 1 / 2 ^ 30 ≤ M := by linarith [hs.least]
  have hMpos : 0 < M := lt_of_lt_of_le hg hMg
  have hU0 : 0 ≤ 17 / 16 * u * M := by positivity
  have hUM : 17 / 16 * u * M ≤ M / 2 ^ 23 := by rw [u]; linarith
  have hMs : M ≤ 65536 * s.g + 2 ^ 29 * s.g := by linarith
  -- the end
  have w1 := abs_le.mp (small h hM0 (x := w) (by rw [abs_of_nonneg hw0]; linarith))
  have w0 := h.ge_of_ge mem_zero hw0
  have x1 := abs_le.mp (small h hM0 (x := b.x + rnd w) (by rw [abs_of_nonneg (by linarith)]; linarith [w1.2]))
  have xx0 := h.ge_of_ge mem_zero (x := b.x + rnd w) (by linarith)
  obtain ⟨ce, hce, hor⟩ := initCubic_spec (slope := slope) (pb := ⟨pb.rep, 0, 1⟩) (D := D + w) h hs hf hl (by linarith) hM.symm.le
    (h.mem (b.x + rnd w)) xx0 (by norm_num at hMs ⊢; linarith [x1.2, w1.2])
    (fun hr => ⟨(hrep hr).1, (hrep hr).2, by have := (hrep hr).2; linarith [x1.2, w1.2]⟩) (kInvalid - 1)
  have hbe := blendEnd_spec (fused := fused) (pb := pb) (b := b) h hsl (by rw [← hw]; exact hce)
  -- the start
  obtain ⟨i, x0, hi, hst, hx00, hx0m, d1, d2⟩ := start_index (pb := pb) h hs hf hl hx0 hx1 hA (fun hr => (hrep hr).1)
  have hae : |rnd (b.x - x0) - (b.x - x0)| ≤ s.g / 2 ^ 7 := by
    refine (err_any h _).trans ?_
    have h2 : u * |b.x - x0| ≤ u * (65536 * s.g) := mul_le_mul_of_nonneg_left (by linarith) hu.le
    have e1 : u * (65536 * s.g) = 1 / 2 ^ 8 * s.g := by rw [u]; ring
    have e2 : eta ≤ 1 / 2 ^ 24 * (1 / 2 ^ 30) := by norm_num [eta]
    have := hs.least
    rw [e1] at h2
    linarith
  have hab : |rnd (b.x - x0)| ≤ |b.x - x0| + s.g / 2 ^ 7 := by
    have e : rnd (b.x - x0) = (b.x - x0) + (rnd (b.x - x0) - (b.x - x0)) := by ring
    calc |rnd (b.x - x0)| = |(b.x - x0) + (rnd (b.x - x0) - (b.x - x0))| := by rw [← e]
      _ ≤ _ := abs_add_le _ _
      _ ≤ _ := by linarith
  obtain ⟨a, ha⟩ : ∃ a, a = rnd (b.x - x0) := ⟨_, rfl⟩
  rw [← ha] at hab
  have hA1 : |a| ≤ A + s.g := by linarith
  have hA2 : |a| ≤ l.x * s.g + s.g := by linarith
  have ham : f32.Mem a := by rw [ha]; exact h.mem _
  refine ⟨rnd (rnd ((evaluate rnd fused ce).y * pb.yScale) + pb.yOffset), (evaluate rnd fused ce).rawSlope rnd fused, x0, a, ?_, h.mem _,
    mulAdd_mem h _ _ _, hA1, hA2, ham, ?_⟩
  · rw [← hM]
    have hQ : 7 * (17 / 16 * u * M) ≤ M / 2 ^ 20 := by rw [u]; linarith
    rcases hor with ⟨hr', hfin, hle⟩ | ⟨k, P, hk, hP, hd⟩
    · refine Or.inl ⟨hr', l, hl, by linarith [x1.2, w1.2], ?_⟩
      have hev : Evaluated rnd fused (evaluate rnd fused ce) := rfl
      have hfin' : Finished rnd s ⟨pb.rep, 0, 1⟩ (evaluate rnd fused ce) := hfin
      have := hfin'.shows h hl hev
      refine ⟨?_, this.2⟩
      rw [this.1]
      have hm : f32.Mem (nodeY rnd s l) := h.mem _
      simp only [shownY, mul_one, add_zero, h.exact hm]
    · have hev : Evaluated rnd fused (evaluate rnd fused ce) := rfl
      have hP' : Located rnd slope s ⟨pb.rep, 0, 1⟩ (evaluate rnd fused ce) P := hP
      refine Or.inr ⟨evaluate rnd fused ce, k, P, l, hl, hk, hP'.shows h hsl hs mem_zero hev, ?_, rfl, rfl⟩
      have e : P + k * (l.x * s.g) - (b.x + w) = (P + k * (l.x * s.g) - rnd (b.x + rnd w)) + (rnd (b.x + rnd w) - (b.x + w)) := by ring
      rw [e]
      refine (abs_add_le _ _).trans ?_
      have : |rnd (b.x + rnd w) - (b.x + w)| ≤ 2 * (17 / 16 * u * M) := by
        rw [abs_le]; constructor
        · linarith [x1.1, w1.1]
        · linarith [x1.2, w1.2]
      linarith
  · intro fs hfs
    obtain ⟨z1, -⟩ := moved (fused := fused) h (x := a) (M := 2 * M) (B := l.x * s.g + s.g) (D := w) (by linarith) ham hA2 (by linarith) hb hr
      (le_of_eq hw.symm)
    have hB : Blending rnd fused s b ⟨y, d, rnd (rnd ((evaluate rnd fused ce).y * pb.yScale) + pb.yOffset),
        (evaluate rnd fused ce).rawSlope rnd fused, rnd (b.blend * b.rate)⟩ x0 a
        (evaluate rnd fused ⟨i, a, ((mulAdd rnd fused b.blend b.rate a : ℚ) : WithTop ℚ), shiftLeft rnd fused (init rnd
          ⟨y, d, rnd (rnd ((evaluate rnd fused ce).y * pb.yScale) + pb.yOffset),
            (evaluate rnd fused ce).rawSlope rnd fused, rnd (b.blend * b.rate)⟩) (-a), 0⟩) :=
      ⟨hst, ha, ham, le_rfl, z1, rfl, rfl⟩
    obtain ⟨c, hc, hor'⟩ := hB.frames (slope := slope) (pb := pb) h hs hf hl hx0m hx0 hx1 hw hb hr hD0 hD hrep d2 hA2 hfs (n := 0) (S := 0)
      (by simp [evaluate])
    have hbt : blendTo rnd fused slope s pb b y d = some (evaluate rnd fused ⟨i, a, ((mulAdd rnd fused b.blend b.rate a : ℚ) : WithTop ℚ),
        shiftLeft rnd fused (init rnd
          ⟨y, d, rnd (rnd ((evaluate rnd fused ce).y * pb.yScale) + pb.yOffset),
            (evaluate rnd fused ce).rawSlope rnd fused, rnd (b.blend * b.rate)⟩) (-a), 0⟩) := by
      unfold blendTo blendInit
      rw [hbe, hi]
      simp only [Option.map_some, Option.bind_some]
      rw [hst]
      simp only [Option.map_some]
      rw [← ha]
    refine ⟨c, ?_, frames_evaluated (by rfl) hc, ?_, ?_⟩
    · unfold blendPlay
      rw [hbt]
      exact hc
    · rintro rfl
      cases hc
      rfl
    · rw [← hw] at hor'
      simpa only [Nat.zero_add, zero_add] using hor'

/-- **C102**: an index that shows the value `y` and the derivative `d` is told to blend to a spline, from `b.x` on and over the distance
`w = b.blend * b.rate`.  There are an end value and an end slope, those of the spline at `b.x + w`, such that through any frames that are
played, until the distance played is `w` (up to rounding errors of the position), the index follows the exact cubic from the value
`y` and the slope `d` to these, and afterwards shows the spline, as in `C101_play`.  The error of the value on the cubic is
at most `τ ^ 3 / 2 ^ 17` of the amount by which it may change, where `τ = 1 + 2 (A + g) / w` and `A` is the distance of `b.x` from the
beginning of its segment. -/
theorem C102_blend (h : Nearest f32 rnd) (hsl : ∀ a, f32.Mem (slope a)) (hs : s.Legal) (ho : f32.Mem pb.yOffset)
    (hl : s.nodes.getLast? = some l) (hy : f32.Mem y) (hd : f32.Mem d)
    (hx0 : 0 ≤ b.x) (hx1 : b.x ≤ l.x * s.g) (hA : Into s b.x A)
    (hb : 0 ≤ b.blend) (hr : 0 ≤ b.rate) (hw0 : 1 / 2 ^ 30 ≤ b.blend * b.rate) (hw1 : b.blend * b.rate ≤ 2 ^ 29) (hD0 : 0 ≤ D)
    (hD : D + b.blend * b.rate ≤ 2 ^ 29 * s.g)
    (hrep : pb.rep = true → 2 ≤ s.nodes.length ∧ D + b.blend * b.rate + s.g ≤ l.x * s.g) :
    ∃ endY endD, Target rnd fused slope s pb (b.x + b.blend * b.rate) ((l.x * s.g + (D + b.blend * b.rate) + s.g) / 2 ^ 20) endY endD ∧
      ∀ fs, Forward D fs → ∃ c, blendPlay rnd fused slope s pb b y d fs = some c ∧
        ((∃ t, 0 ≤ t ∧ t ≤ b.blend * b.rate + (l.x * s.g + (D + b.blend * b.rate) + s.g) / 2 ^ 20 ∧
            |t - distance fs| ≤ fs.length * ((l.x * s.g + (D + b.blend * b.rate) + s.g) / 2 ^ 20) ∧
            ∀ p : Cubic ℚ, p.eval 0 = y → p.deriv 0 = d → p.eval (b.blend * b.rate) = endY → p.deriv (b.blend * b.rate) = endD →
              |c.y - p.eval t| ≤ |y| / 2 ^ 19 +
                (1 + 2 * (A + s.g) / (b.blend * b.rate)) ^ 3 * (|endY - y| + b.blend * b.rate * (|d| + |endD|)) / 2 ^ 17 + 1 / 2 ^ 45 ∧
              |c.rawSlope rnd fused - p.deriv t| ≤
                (1 + 2 * (A + s.g) / (b.blend * b.rate)) ^ 2 * ((|endY - y| + b.blend * b.rate * (|d| + |endD|)) / (b.blend * b.rate)) / 2 ^ 15 +
                1 / 2 ^ 75) ∨
         (b.blend * b.rate ≤ distance fs + fs.length * ((l.x * s.g + (D + b.blend * b.rate) + s.g) / 2 ^ 20) ∧
          ((pb.rep = false ∧ c.y = shownY rnd s pb l ∧ c.rawSlope rnd fused = 0 ∧
              (l.x - 9 / 16) * s.g ≤ b.x + distance fs + (fs.length + 1) * ((l.x * s.g + (D + b.blend * b.rate) + s.g) / 2 ^ 20)) ∨
           ∃ (k : ℕ) (P : ℚ), (pb.rep = false → k = 0) ∧ Shows rnd fused slope s pb c P ∧
              |P + k * (l.x * s.g) - (b.x + distance fs)| ≤
                (fs.length + 1) * ((l.x * s.g + (D + b.blend * b.rate) + s.g) / 2 ^ 20)))) := by
  have hg := hs.pos
  obtain ⟨endY, endD, x0, a, hT, mY, mD, hA1, hA2, ham, hfs⟩ := blend_where (fused := fused) (slope := slope) (y := y) (d := d) h hsl hs hl hx0 hx1 hA hb hr hD0 hD hrep
  refine ⟨endY, endD, hT, ?_⟩
  intro fs hfw
  obtain ⟨c, hc, hev, -, hor⟩ := hfs fs hfw
  refine ⟨c, hc, ?_⟩
  have hl0 : 0 ≤ (l.x : ℚ) * s.g := by positivity
  have hl65 : (l.x : ℚ) ≤ 65535 := by exact_mod_cast (hs.ok l (List.mem_of_getLast? hl)).1
  have hlg : (l.x : ℚ) * s.g ≤ 65535 * s.g := mul_le_mul_of_nonneg_right hl65 hg.le
  rcases hor with ⟨hB, hS⟩ | ⟨hle, hW⟩
  · left
    obtain ⟨w, hw⟩ : ∃ w, w = b.blend * b.rate := ⟨_, rfl⟩
    rw [← hw] at hw0 hw1 hS hD ⊢
    have hwpos : 0 < w := lt_of_lt_of_le (by norm_num) hw0
    -- the position on the curve
    obtain ⟨A', hA'⟩ : ∃ A', A' = min (A + s.g) (l.x * s.g + s.g) := ⟨_, rfl⟩
    have haA : |a| ≤ A' := by rw [hA']; exact le_min hA1 hA2
    have hA'0 : 0 ≤ A' := (abs_nonneg a).trans haA
    have hA'1 : A' ≤ A + s.g := by rw [hA']; exact min_le_left _ _
    have hA'2 : A' ≤ l.x * s.g + s.g := by rw [hA']; exact min_le_right _ _
    obtain ⟨-, z2⟩ := moved (fused := fused) h (x := a) (M := A' + w) (B := A') (D := w) (by linarith) ham haA le_rfl hb hr (le_of_eq hw.symm)
    have z2' := abs_le.mp z2
    rw [← hw] at z2'
    have hu1 : 2 * (17 / 16 * u * (A' + w)) ≤ (A' + w) / 2 ^ 20 := by rw [u]; linarith
    have ha' := abs_le.mp haA
    refine ⟨c.x - a, by linarith [hB.lo], ?_, hS, ?_⟩
    · have : (A' + w) / 2 ^ 20 ≤ (l.x * s.g + (D + w) + s.g) / 2 ^ 20 := by
        apply div_le_div_of_nonneg_right _ (by norm_num)
        linarith
      linarith [hB.hi, z2'.2]
    · intro p p1 p2 p3 p4
      have hv : |rnd (b.blend * b.rate) - w| ≤ w / 2 ^ 24 := by
        rw [← hw]
        have := err_normal h (x := w) (by
          rw [abs_of_pos hwpos]; refine le_trans ?_ hw0; norm_num)
        rw [abs_of_pos hwpos, u] at this
        linarith
      have hG : l.x * s.g + s.g ≤ 2 ^ 30 := by
        have := mul_le_mul_of_nonneg_left hs.most (show (0 : ℚ) ≤ 65536 by norm_num)
        norm_num at this ⊢
        linarith
      have hτ : 1 ≤ 1 + 2 * (A + s.g) / w := by
        have : 0 ≤ 2 * (A + s.g) / w := by have := hA.1; positivity
        linarith
      have hτw : (1 + 2 * (A + s.g) / w) * w = w + 2 * (A + s.g) := by field_simp
      have key := shifted_value (fused := fused) (i := ⟨y, d, endY, endD, rnd (b.blend * b.rate)⟩) (p := p) (x := c.x) (a := a)
        (A := A') (X := 65 / 64 * (A' + w)) (w := w) (τ := 1 + 2 * (A + s.g) / w) h ⟨hy, hd, mY, mD, h.mem _⟩ hv hw0 (hw1.trans (by norm_num)) ⟨p1, p2, p3, p4⟩ haA
        (by rw [abs_le]; constructor
            · linarith [hB.lo]
            · linarith [hB.hi, z2'.2]) (by norm_num at hG ⊢; linarith) (by norm_num at hG hw1 ⊢; linarith) hτ
        (by rw [hτw]; linarith)
      unfold Evaluated at hev
      unfold Cursor.rawSlope
      rw [hev, hB.cub]
      exact key
  · right
    refine ⟨hle, ?_⟩
    rcases hW with ⟨hr', hfin, hle'⟩ | ⟨k, P, hk, hP, hd'⟩
    · have := hfin.shows h hl hev
      exact Or.inl ⟨hr', this.1, this.2, hle'⟩
    · exact Or.inr ⟨k, P, hk, hP.shows h hsl hs ho hev, hd'⟩

/-- **C102**: right after the call, before any frame, the value and the slope are those that were shown before, up to the errors of
`C102_blend`: there is no jump. -/
theorem C102_start (h : Nearest f32 rnd) (hsl : ∀ a, f32.Mem (slope a)) (hs : s.Legal) (ho : f32.Mem pb.yOffset)
    (hl : s.nodes.getLast? = some l) (hy : f32.Mem y) (hd : f32.Mem d) (hx0 : 0 ≤ b.x) (hx1 : b.x ≤ l.x * s.g) (hA : Into s b.x A)
    (hb : 0 ≤ b.blend) (hr : 0 ≤ b.rate) (hw0 : 1 / 2 ^ 30 ≤ b.blend * b.rate) (hw1 : b.blend * b.rate ≤ 2 ^ 29)
    (hD : b.blend * b.rate ≤ 2 ^ 29 * s.g)
    (hrep : pb.rep = true → 2 ≤ s.nodes.length ∧ b.blend * b.rate + s.g ≤ l.x * s.g) :
    ∃ endY endD c, Target rnd fused slope s pb (b.x + b.blend * b.rate) ((l.x * s.g + b.blend * b.rate + s.g) / 2 ^ 20) endY endD ∧
      blendTo rnd fused slope s pb b y d = some c ∧
      |c.y - y| ≤ |y| / 2 ^ 19 +
        (1 + 2 * (A + s.g) / (b.blend * b.rate)) ^ 3 * (|endY - y| + b.blend * b.rate * (|d| + |endD|)) / 2 ^ 17 + 1 / 2 ^ 45 ∧
      |c.rawSlope rnd fused - d| ≤
        (1 + 2 * (A + s.g) / (b.blend * b.rate)) ^ 2 * ((|endY - y| + b.blend * b.rate * (|d| + |endD|)) / (b.blend * b.rate)) / 2 ^ 15 +
        1 / 2 ^ 75 := by
  have hw : 0 < b.blend * b.rate := lt_of_lt_of_le (by norm_num) hw0
  obtain ⟨endY, endD, hT, hall⟩ := C102_blend (fused := fused) (slope := slope) (D := 0) h hsl hs ho hl hy hd hx0 hx1 hA hb hr hw0 hw1
    le_rfl (by rw [zero_add]; exact hD) (by rw [zero_add]; exact hrep)
  rw [zero_add] at hT
  obtain ⟨c, hc, hor⟩ := hall [] (by intro f hf; cases hf)
  have hbt : blendTo rnd fused slope s pb b y d = some c := by
    unfold blendPlay at hc
    cases hbt : blendTo rnd fused slope s pb b y d with
    | none => rw [hbt] at hc; cases hc
    | some c' => rw [hbt] at hc; exact hc
  rcases hor with ⟨t, -, -, ht, hp⟩ | ⟨hle, -⟩
  · simp only [distance, List.map_nil, List.sum_nil, List.length_nil, Nat.cast_zero, zero_mul, sub_zero, abs_nonpos_iff] at ht
    subst ht
    obtain ⟨p1, p2, p3, p4⟩ : Through ⟨y, d, endY, endD, b.blend * b.rate⟩ (b.blend * b.rate) (Cubic.init ⟨y, d, endY, endD, b.blend * b.rate⟩) :=
      (Motive.Curve.C29_hermite _ hw _).mp rfl
    have p1' : (Cubic.init ⟨y, d, endY, endD, b.blend * b.rate⟩).eval 0 = y := p1
    have p2' : (Cubic.init ⟨y, d, endY, endD, b.blend * b.rate⟩).deriv 0 = d := p2
    have := hp _ p1' p2' p3 p4
    rw [p1', p2'] at this
    exact ⟨endY, endD, c, hT, hbt, this⟩
  · simp only [distance, List.map_nil, List.sum_nil, List.length_nil, Nat.cast_zero, zero_mul, add_zero] at hle
    linarith

/-- **C102**, disagreement: far into a long segment, over a short distance, blending breaks down.  The spline goes from 0 to 1.  An
index that shows 1 shows less than a half after it is told to blend from 10000 over 64; and one that shows 0 shows a value beyond 2000 a
few units after it is told to blend from 60000 over 16. -/
theorem C102_far_into_segment_breaks (fused : Bool) :
    (∃ c, blendTo (rne f32) fused (fun _ => 0) long ⟨false, 0, 1⟩ ⟨10000, 64, 1⟩ 1 0 = some c ∧ 0 ≤ c.y ∧ c.y ≤ 1 / 2) ∧
    ∃ c, blendPlay (rne f32) fused (fun _ => 0) long ⟨false, 0, 1⟩ ⟨60000, 16, 1⟩ 0 0 [⟨4, 1⟩] = some c ∧ 2000 ≤ |c.y| := by
  have key : ∀ {o : Option Cursor} {v : ℚ}, o.map (·.y) = some v → ∃ c, o = some c ∧ c.y = v := by
    rintro (_ | c) v h
    · cases h
    · exact ⟨c, rfl, by simpa using h⟩
  cases fused
  · obtain ⟨c, h1, h2⟩ := key (show (blendTo (rne f32) false (fun _ => 0) long ⟨false, 0, 1⟩ ⟨10000, 64, 1⟩ 1 0).map (·.y) = some 0 by
      decide +kernel)
    obtain ⟨c', h1', h2'⟩ := key (show (blendPlay (rne f32) false (fun _ => 0) long ⟨false, 0, 1⟩ ⟨60000, 16, 1⟩ 0 0 [⟨4, 1⟩]).map (·.y) =
      some (-8192) by decide +kernel)
    exact ⟨⟨c, h1, by rw [h2], by rw [h2]; norm_num⟩, c', h1', by rw [h2']; norm_num⟩
  · obtain ⟨c, h1, h2⟩ := key (show (blendTo (rne f32) true (fun _ => 0) long ⟨false, 0, 1⟩ ⟨10000, 64, 1⟩ 1 0).map (·.y) =
      some (489 / 1024) by decide +kernel)
    obtain ⟨c', h1', h2'⟩ := key (show (blendPlay (rne f32) true (fun _ => 0) long ⟨false, 0, 1⟩ ⟨60000, 16, 1⟩ 0 0 [⟨4, 1⟩]).map (·.y) =
      some 2818 by decide +kernel)
    exact ⟨⟨c, h1, by rw [h2]; norm_num, by rw [h2]; norm_num⟩, c', h1', by rw [h2']; norm_num⟩

theorem hill_into : Into hill 1 1 := by
  refine ⟨by norm_num, ?_, ?_⟩
  · intro f hf h
    norm_num
  · intro i a b ha hb h1 h2
    rcases i with _ | _ | i
    · simp only [hill, List.getElem?_cons_zero, Option.some.injEq] at ha; subst ha; norm_num
    · simp only [hill, List.getElem?_cons_succ, List.getElem?_cons_zero, Option.some.injEq] at ha; subst ha
      norm_num [hill] at h1
    · simp [hill] at hb

/-- The theorems apply to a blend from 5 to a hill, over one unit, which is played for a quarter of a unit; and for four units, and then
the index is on the hill. -/
example : ∃ endY endD, Target (rne f32) true (fun _ => 0) hill ⟨false, 0, 1⟩ 2 (1 / 2 ^ 16) endY endD ∧
    (∃ c, blendPlay (rne f32) true (fun _ => 0) hill ⟨false, 0, 1⟩ ⟨1, 1, 1⟩ 5 0 [⟨1 / 4, 1⟩] = some c ∧
      ∃ t, |t - 1 / 4| ≤ 1 / 2 ^ 16 ∧ ∀ p : Cubic ℚ, p.eval 0 = 5 → p.deriv 0 = 0 → p.eval 1 = endY → p.deriv 1 = endD →
        |c.y - p.eval t| ≤ 5 / 2 ^ 19 + 125 * (|endY - 5| + |endD|) / 2 ^ 17 + 1 / 2 ^ 45) ∧
    ∃ c P, blendPlay (rne f32) true (fun _ => 0) hill ⟨false, 0, 1⟩ ⟨1, 1, 1⟩ 5 0 [⟨2, 1⟩, ⟨2, 1⟩] = some c ∧
      Shows (rne f32) true (fun _ => 0) hill ⟨false, 0, 1⟩ c P ∧ |P - 5| ≤ 1 / 2 ^ 14 := by
  have m5 : f32.Mem 5 := Motive.Float.Range.mem32 5 0 _ (by norm_num) (by norm_num) (by norm_num)
  obtain ⟨endY, endD, hT, hall⟩ := C102_blend (fused := true) (slope := fun _ => 0) (pb := ⟨false, 0, 1⟩) (b := ⟨1, 1, 1⟩) (y := 5) (d := 0)
    (D := 2) (l := ⟨9, 0, 0⟩) (rne_nearest f32) (fun _ => mem_zero) hill_legal mem_zero rfl m5 mem_zero (by norm_num) (by norm_num [hill])
    hill_into (by norm_num) (by norm_num) (by norm_num) (by norm_num) (by norm_num) (by norm_num [hill]) (by intro h; cases h)
  refine ⟨endY, endD, ?_, ?_, ?_⟩
  · have : Target (rne f32) true (fun _ => 0) hill ⟨false, 0, 1⟩ 2 (13 / 2 ^ 20) endY endD := by
      convert hT using 1 <;> norm_num [hill]
    rcases this with ⟨r, l, hl, h1, h2⟩ | ⟨c, k, P, l, hl, h1, h2, h3, h4⟩
    · exact Or.inl ⟨r, l, hl, by norm_num at h1 ⊢; linarith, h2⟩
    · exact Or.inr ⟨c, k, P, l, hl, h1, h2, by norm_num at h3 ⊢; linarith, h4⟩
  · obtain ⟨c, hc, hor⟩ := hall [⟨1 / 4, 1⟩] (by
      intro f hf; simp only [List.mem_singleton] at hf; subst hf; norm_num)
    refine ⟨c, hc, ?_⟩
    rcases hor with ⟨t, -, -, ht, hp⟩ | ⟨hle, -⟩
    · refine ⟨t, ?_, ?_⟩
      · norm_num [distance, hill] at ht ⊢
        linarith
      · intro p p1 p2 p3 p4
        have := (hp p p1 p2 (by norm_num; exact p3) (by norm_num; exact p4)).1
        norm_num [hill] at this ⊢
        linarith
    · norm_num [distance, hill] at hle
  · obtain ⟨c, hc, hor⟩ := hall [⟨2, 1⟩, ⟨2, 1⟩] (by
      intro f hf; simp only [List.mem_cons, List.not_mem_nil, or_false, or_self] at hf; subst hf; norm_num)
    rcases hor with ⟨t, -, ht1, ht, -⟩ | ⟨-, ⟨-, -, -, h1⟩ | ⟨k, P, hk, h1, h2⟩⟩
    · have := abs_le.mp ht
      norm_num [distance, hill] at ht1 this
      linarith
    · norm_num [distance, hill] at h1
    · refine ⟨c, P, hc, h1, ?_⟩
      rw [hk rfl] at h2
      norm_num [distance, hill] at h2 ⊢
      linarith

end Properties

end

end Motive.Float.Hermite
