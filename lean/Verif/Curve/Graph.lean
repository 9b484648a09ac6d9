import Mathlib.Algebra.Order.Archimedean.Real.Basic
import Mathlib.Data.List.Sort
import Mathlib.Tactic.Linarith
import Mathlib.Tactic.NormNum
import Mathlib.Tactic.FieldSimp
import Mathlib.Tactic.Ring

/-!
# Drawing curves as text (curve.cpp:365-447, curve.h:452-495)

The model of `Graph2DPoints` and `GraphCurveOnXRange` as they are compiled with
`FPL_CURVE_GRAPH_FUNCTIONS`.  Numbers are exact.  The two lines with the greatest and the least `y`
around the drawing are left out, and so are the line breaks: a drawing is the list of its lines.
-/

namespace Motive.Graph

/-- A position on the screen: column and row (`vec2i`). -/
abbrev Pixel := ℤ × ℤ

/-- curve.cpp:366: `Round`; the conversion to `int` truncates towards zero. -/
noncomputable def round (f : ℝ) : ℤ := if 0 ≤ f + 1 / 2 then ⌊f + 1 / 2⌋ else ⌈f + 1 / 2⌉

/-- curve.cpp:392-395: the least of a coordinate of the points. -/
noncomputable def least (v : ℝ) (vs : List ℝ) : ℝ := vs.foldl min v

/-- curve.cpp:392-396: the greatest of a coordinate of the points. -/
noncomputable def greatest (v : ℝ) (vs : List ℝ) : ℝ := vs.foldl max v

/-- curve.cpp:380-382: `CompareBigYSmallX`, made reflexive for the sort. -/
def above (a b : Pixel) : Bool := if a.2 = b.2 then a.1 ≤ b.1 else b.2 < a.2

/-- curve.cpp:423: the loop that steps over the other points at the same position.  `past` is what
lies in memory behind the last point: `none` says that reading it is undefined, as it is in C++.
If it looks like the point itself, the loop runs on into unknown memory. -/
def stepOver (past : Option Pixel) (at_ : Pixel) : List Pixel → Option (List Pixel)
  | [] => match past with
    | none => none
    | some j => if j = at_ then none else some []
  | q :: qs => if q = at_ then stepOver past at_ qs else some (q :: qs)

/-- curve.cpp:420-435: the loop over `n` columns from `col` on in line `row`, with `qs` the points
still to draw.  The characters and the points left over.  -/
def cells (past : Option Pixel) (zeroRow row : ℤ) :
    ℕ → ℤ → List Pixel → Option (List Char × List Pixel)
  | 0, _, qs => some ([], qs)
  | n + 1, col, qs => match qs with
    | [] => none
    | q :: qs' =>
      if q = (col, row) then do
        let rest ← stepOver past (col, row) qs'
        if rest = [] then return (['*'], [])
        let r ← cells past zeroRow row n (col + 1) rest
        return ('*' :: r.1, r.2)
      else if col = 0 then do
        let r ← cells past zeroRow row n (col + 1) (q :: qs')
        return ('|' :: r.1, r.2)
      else if row = zeroRow then do
        let r ← cells past zeroRow row n (col + 1) (q :: qs')
        return ('-' :: r.1, r.2)
      else if q.2 < row then
        return ([], q :: qs')
      else do
        let r ← cells past zeroRow row n (col + 1) (q :: qs')
        return (' ' :: r.1, r.2)

/-- curve.cpp:419-438: the loop over `n` lines from `row` downwards, each of `width` columns. -/
def lines (past : Option Pixel) (zeroRow : ℤ) (width : ℕ) :
    ℕ → ℤ → List Pixel → Option (List (List Char))
  | 0, _, _ => some []
  | n + 1, row, qs => do
    let r ← cells past zeroRow row width 0 qs
    if r.2 = [] then return [r.1]
    let more ← lines past zeroRow width n (row - 1) r.2
    return r.1 :: more

/-- curve.cpp:397-408: where a coordinate `v` is drawn, for the extent `lo` to `hi` and `size`
characters.  For `size` 1 the increment is infinite and the quotient 0, as in Lean. -/
noncomputable def place (lo hi : ℝ) (size : ℕ) (v : ℝ) : ℤ :=
  round ((v - lo) / ((hi - lo) / ((size : ℝ) - 1)))

/-- curve.cpp:400: the row of the horizontal axis. -/
noncomputable def axisRow (lo hi : ℝ) (size : ℕ) : ℤ := round ((0 - lo) * size / (hi - lo))

/-- curve.cpp:384-440: `Graph2DPoints` for a drawing of `w` by `h` characters.  If all points have
the same `x` or the same `y`, a quotient 0/0 is converted to `int`, which is undefined: `none`. -/
noncomputable def graph (past : Option Pixel) (points : List (ℝ × ℝ)) (w h : ℕ) :
    Option (List (List Char)) := match points with
  | [] => some []
  | p :: ps =>
    let loX := least p.1 (ps.map Prod.fst)
    let hiX := greatest p.1 (ps.map Prod.fst)
    let loY := least p.2 (ps.map Prod.snd)
    let hiY := greatest p.2 (ps.map Prod.snd)
    if hiX - loX = 0 ∨ hiY - loY = 0 then none else
    let pixels := (p :: ps).map fun q => (place loX hiX w q.1, place loY hiY h q.2)
    lines past (axisRow loY hiY h) (w + 1) (h + 1) h (pixels.mergeSort above)

/-- curve.h:483-490: the points `GraphCurveOnXRange` draws.  `f` is `CurveValue`. -/
noncomputable def samples (f : ℝ → ℝ) (start stop : ℝ) (n : ℕ) : List (ℝ × ℝ) :=
  let inc := (stop - start) / ((n : ℝ) - 1)
  (List.range n).map fun (i : ℕ) => (start + i * inc, f (start + i * inc))

/-- curve.h:478-495: `GraphCurveOnXRange`. -/
noncomputable def graphCurve (past : Option Pixel) (f : ℝ → ℝ) (start stop : ℝ) (w h : ℕ) :
    Option (List (List Char)) := graph past (samples f start stop w) w h

/-! ## What a drawing should be -/

/-- The character of a drawing of height `h` in column `x` and row `y`, counted from the bottom,
with one more line on top. -/
def charAt (drawing : List (List Char)) (h : ℕ) (x y : ℕ) : Option Char :=
  (drawing[h - y]?).bind fun (line : List Char) => line[x]?

/-- The extent of the points: `lo` is the least and `hi` the greatest of their coordinates. -/
def Extent (vs : List ℝ) (lo hi : ℝ) : Prop :=
  lo ∈ vs ∧ hi ∈ vs ∧ ∀ v ∈ vs, lo ≤ v ∧ v ≤ hi

/-- Where a number between `lo` and `hi` belongs on a scale of `size` characters: at the nearest
one, if the first stands for `lo` and the last for `hi`. -/
def Belongs (lo hi : ℝ) (size : ℕ) (v : ℝ) (k : ℕ) : Prop :=
  -(1 / 2) < k - (v - lo) / (hi - lo) * ((size : ℝ) - 1) ∧
    k - (v - lo) / (hi - lo) * ((size : ℝ) - 1) ≤ 1 / 2

/-! ## The loops -/

theorem above_trans (a b c : Pixel) : above a b = true → above b c = true → above a c = true := by
  unfold above
  split_ifs <;> simp_all <;> omega

theorem above_total (a b : Pixel) : (above a b || above b a) = true := by
  unfold above
  rcases lt_trichotomy a.2 b.2 with h | h | h
  · have : a.2 ≠ b.2 := by omega
    have : b.2 ≠ a.2 := by omega
    simp [*]
  · simp [h]; omega
  · have : a.2 ≠ b.2 := by omega
    have : b.2 ≠ a.2 := by omega
    simp [*]

/-- The points still to draw are in order, and none is before column `col` of line `row`. -/
def Ahead (col row : ℤ) (qs : List Pixel) : Prop :=
  qs.Pairwise (fun a b => above a b = true) ∧
    ∀ q ∈ qs, 0 ≤ q.1 ∧ (q.2 < row ∨ q.2 = row ∧ col ≤ q.1)

theorem stepOver_spec (past : Option Pixel) (p : Pixel) (qs : List Pixel)
    (hs : (p :: qs).Pairwise (fun a b => above a b = true)) :
    (∃ rest, stepOver past p qs = some rest ∧ rest <:+ qs ∧ (rest = [] → past ≠ none) ∧
        ∀ q, q ∈ rest ↔ q ∈ qs ∧ q ≠ p) ∨
      (stepOver past p qs = none ∧ (past = none ∨ past = some p)) := by
  induction qs with
  | nil =>
    cases past with
    | none => right; simp [stepOver]
    | some j =>
      by_cases h : j = p
      · right; simp [stepOver, h]
      · left; exact ⟨[], by simp [stepOver, h]⟩
  | cons q qs ih =>
    by_cases h : q = p
    · subst h
      rw [List.pairwise_cons] at hs
      rcases ih hs.2 with ⟨rest, h1, h2, h3, h4⟩ | h1
      · left
        refine ⟨rest, by simp [stepOver, h1], h2.trans (List.suffix_cons _ _), h3, fun q' => ?_⟩
        rw [h4]
        constructor
        · rintro ⟨a, b⟩; exact ⟨List.mem_cons_of_mem _ a, b⟩
        · rintro ⟨a, b⟩
          rcases List.mem_cons.1 a with c | c
          · exact absurd c b
          · exact ⟨c, b⟩
      · right; simpa [stepOver] using h1
    · left
      refine ⟨q :: qs, by simp [stepOver, h], List.suffix_refl _, by simp, fun q' => ?_⟩
      refine ⟨fun a => ⟨a, ?_⟩, fun a => a.1⟩
      rintro rfl
      rw [List.pairwise_cons] at hs
      rcases List.mem_cons.1 a with c | c
      · exact h c.symm
      · -- `q'` is above `q` and below it
        have h1 := hs.1 q List.mem_cons_self
        have h2 := (List.pairwise_cons.1 hs.2).1 _ c
        apply h
        unfold above at h1 h2
        ext
        · split_ifs at h1 h2 <;> simp at h1 h2 <;> omega
        · split_ifs at h1 h2 <;> simp at h1 h2 <;> omega

/-- The character that belongs at a position without a point. -/
def background (zeroRow : ℤ) (x y : ℤ) : Char :=
  if x = 0 then '|' else if y = zeroRow then '-' else ' '

/-- What a line has to be. -/
def LineOk (zeroRow row col : ℤ) (qs : List Pixel) (cs : List Char) : Prop :=
  (∀ i : ℕ, (col + i, row) ∈ qs → cs[i]? = some '*') ∧
    ∀ (i : ℕ) (c : Char), cs[i]? = some c → (col + i, row) ∉ qs →
      c = background zeroRow (col + i) row

theorem lineOk_cons {zeroRow row col : ℤ} {qs rest : List Pixel} {c : Char} {cs : List Char}
    (h : LineOk zeroRow row (col + 1) rest cs)
    (hrest : ∀ i : ℕ, (col + 1 + i, row) ∈ rest ↔ (col + 1 + i, row) ∈ qs)
    (h1 : (col, row) ∈ qs → c = '*')
    (h2 : (col, row) ∉ qs → c = background zeroRow col row) :
    LineOk zeroRow row col qs (c :: cs) := by
  constructor
  · rintro (_ | i) hi
    · simpa using h1 (by simpa using hi)
    · have e : col + ((i + 1 : ℕ) : ℤ) = col + 1 + i := by push_cast; ring
      rw [e] at hi
      simpa using h.1 i ((hrest i).2 hi)
  · rintro (_ | i) d hd hi
    · have : d = c := by simpa using hd.symm
      subst this
      simpa using h2 (by simpa using hi)
    · have e : col + ((i + 1 : ℕ) : ℤ) = col + 1 + i := by push_cast; ring
      rw [e] at hi ⊢
      exact h.2 i d (by simpa using hd) (fun a => hi ((hrest i).1 a))

theorem cells_spec (past : Option Pixel) (zeroRow row : ℤ) (n : ℕ) (col : ℤ) (qs : List Pixel)
    (hne : qs ≠ []) (hq : Ahead col row qs) (hw : ∀ q ∈ qs, q.1 < col + n) :
    (∃ r, cells past zeroRow row n col qs = some r ∧ LineOk zeroRow row col qs r.1 ∧
        r.2 <:+ qs ∧ (r.2 = [] → past ≠ none) ∧ ∀ q, q ∈ r.2 ↔ q ∈ qs ∧ q.2 < row) ∨
      (cells past zeroRow row n col qs = none ∧ (past = none ∨ ∃ q ∈ qs, past = some q)) := by
  induction n generalizing col qs with
  | zero =>
    have hno : ∀ q ∈ qs, q.2 < row := by
      intro q h
      have h1 := hw q h
      rcases (hq.2 q h).2 with h2 | h2
      · exact h2
      · simp at h1; omega
    left
    refine ⟨_, rfl, ⟨fun i hi => ?_, by simp⟩, List.suffix_refl _, fun h => absurd h hne, fun q => ?_⟩
    · have := hno _ hi; simp at this
    · exact ⟨fun h => ⟨h, hno q h⟩, fun h => h.1⟩
  | succ n ih =>
    cases qs with
    | nil => exact absurd rfl hne
    | cons q qs' =>
      by_cases h : q = (col, row)
      · -- a star
        subst h
        rcases stepOver_spec past (col, row) qs' hq.1 with ⟨rest, h1, h2, h3, h4⟩ | ⟨h1, h2⟩
        · by_cases hr : rest = []
          · subst hr
            left
            have hall : ∀ q ∈ qs', q = (col, row) := by
              intro q hq'
              by_contra hc
              exact absurd ((h4 q).2 ⟨hq', hc⟩) (by simp)
            refine ⟨(['*'], []), by simp [cells, h1], ?_, List.nil_suffix, fun _ => h3 rfl,
              fun q => ?_⟩
            · constructor
              · rintro (_ | i) hi
                · rfl
                · exfalso
                  rcases List.mem_cons.1 hi with e | e
                  · simp at e; omega
                  · have := hall _ e; simp at this; omega
              · rintro (_ | i) c hc hi
                · simp at hi
                · simp at hc
            · simp only [List.not_mem_nil, List.mem_cons, false_iff, not_and]
              rintro (rfl | e)
              · simp
              · rw [hall _ e]; simp
          · have hsub : ∀ q ∈ rest, q ∈ (col, row) :: qs' := fun q a =>
              List.mem_cons_of_mem _ ((h4 q).1 a).1
            have hq' : Ahead (col + 1) row rest := by
              refine ⟨((List.pairwise_cons.1 hq.1).2).sublist h2.sublist, fun q a => ?_⟩
              have b := hq.2 q (hsub q a)
              have c := ((h4 q).1 a).2
              refine ⟨b.1, ?_⟩
              rcases b.2 with d | ⟨d, e⟩
              · exact Or.inl d
              · refine Or.inr ⟨d, ?_⟩
                have : q.1 ≠ col := fun f => c (Prod.ext f d)
                omega
            have hw' : ∀ q ∈ rest, q.1 < col + 1 + n := by
              intro q a
              have := hw q (hsub q a)
              push_cast at this; omega
            rcases ih (col + 1) rest hr hq' hw' with ⟨r, k1, k2, k3, k4, k5⟩ | ⟨k1, k2⟩
            · left
              refine ⟨('*' :: r.1, r.2), by simp [cells, h1, hr, k1], ?_,
                k3.trans (h2.trans (List.suffix_cons _ _)), k4, fun q => ?_⟩
              · refine lineOk_cons k2 (fun i => ?_) (fun _ => rfl) (fun a => absurd (by simp) a)
                rw [h4]
                constructor
                · rintro ⟨a, _⟩; exact List.mem_cons_of_mem _ a
                · intro a
                  rcases List.mem_cons.1 a with e | e
                  · exfalso; simp at e; omega
                  · refine ⟨e, ?_⟩
                    intro f; simp at f; omega
              · rw [k5, h4]
                constructor
                · rintro ⟨⟨a, _⟩, b⟩; exact ⟨List.mem_cons_of_mem _ a, b⟩
                · rintro ⟨a, b⟩
                  have hne' : q ≠ (col, row) := by rintro rfl; simp at b
                  rcases List.mem_cons.1 a with e | e
                  · exact absurd e hne'
                  · exact ⟨⟨e, hne'⟩, b⟩
            · right
              refine ⟨by simp [cells, h1, hr, k1], ?_⟩
              rcases k2 with a | ⟨q, a, b⟩
              · exact Or.inl a
              · exact Or.inr ⟨q, hsub q a, b⟩
        · right
          refine ⟨by simp [cells, h1], ?_⟩
          rcases h2 with a | a
          · exact Or.inl a
          · exact Or.inr ⟨_, List.mem_cons_self, a⟩
      · -- no point here
        have hnot : (col, row) ∉ q :: qs' := by
          intro a
          rcases List.mem_cons.1 a with e | e
          · exact h e.symm
          · have h1 := (List.pairwise_cons.1 hq.1).1 _ e
            have h2 := (hq.2 q List.mem_cons_self).2
            apply h
            unfold above at h1
            ext
            · split_ifs at h1 <;> simp at h1 <;> simp <;> omega
            · split_ifs at h1 <;> simp at h1 <;> simp <;> omega
        have hq' : Ahead (col + 1) row (q :: qs') := by
          refine ⟨hq.1, fun p a => ?_⟩
          have b := hq.2 p a
          refine ⟨b.1, ?_⟩
          rcases b.2 with d | ⟨d, e⟩
          · exact Or.inl d
          · refine Or.inr ⟨d, ?_⟩
            have : p.1 ≠ col := fun f => hnot ((Prod.ext f d : p = (col, row)) ▸ a)
            omega
        have hw' : ∀ p ∈ q :: qs', p.1 < col + 1 + n := by
          intro p a
          have := hw p a
          push_cast at this; omega
        have key : ∀ c, c = background zeroRow col row →
            cells past zeroRow row (n + 1) col (q :: qs') =
              (do let r ← cells past zeroRow row n (col + 1) (q :: qs'); return (c :: r.1, r.2)) →
            (∃ r, cells past zeroRow row (n + 1) col (q :: qs') = some r ∧
                LineOk zeroRow row col (q :: qs') r.1 ∧ r.2 <:+ q :: qs' ∧
                (r.2 = [] → past ≠ none) ∧ ∀ p, p ∈ r.2 ↔ p ∈ q :: qs' ∧ p.2 < row) ∨
              (cells past zeroRow row (n + 1) col (q :: qs') = none ∧
                (past = none ∨ ∃ p ∈ q :: qs', past = some p)) := by
          intro c hc he
          rw [he]
          rcases ih (col + 1) (q :: qs') hne hq' hw' with ⟨r, k1, k2, k3, k4, k5⟩ | ⟨k1, k2⟩
          · left
            exact ⟨(c :: r.1, r.2), by simp [k1],
              lineOk_cons k2 (fun i => Iff.rfl) (fun a => absurd a hnot) (fun _ => hc), k3, k4, k5⟩
          · right
            exact ⟨by simp [k1], k2⟩
        by_cases h0 : col = 0
        · exact key '|' (by simp [background, h0]) (by rw [cells]; rw [if_neg h, if_pos h0])
        · by_cases hz : row = zeroRow
          · exact key '-' (by simp [background, h0, hz]) (by rw [cells]; rw [if_neg h, if_neg h0, if_pos hz])
          · by_cases hb : q.2 < row
            · left
              have hall : ∀ p ∈ q :: qs', p.2 < row := by
                intro p a
                rcases List.mem_cons.1 a with e | e
                · rw [e]; exact hb
                · have h1 := (List.pairwise_cons.1 hq.1).1 _ e
                  unfold above at h1
                  split_ifs at h1 <;> simp at h1 <;> omega
              refine ⟨([], q :: qs'), by simp [cells, h, h0, hz, hb], ⟨fun i hi => ?_, by simp⟩,
                List.suffix_refl _, by simp, fun p => ?_⟩
              · have := hall _ hi; simp at this
              · exact ⟨fun a => ⟨a, hall p a⟩, fun a => a.1⟩
            · exact key ' ' (by simp [background, h0, hz]) (by simp [cells, h, h0, hz, hb])

/-- What the lines of a drawing have to be, from `row` downwards. -/
def LinesOk (zeroRow row : ℤ) (qs : List Pixel) (ls : List (List Char)) : Prop :=
  (∀ (k i : ℕ), ((i : ℤ), row - k) ∈ qs → (ls[k]?).bind (fun (l : List Char) => l[i]?) = some '*') ∧
    ∀ (k i : ℕ) (c : Char), (ls[k]?).bind (fun (l : List Char) => l[i]?) = some c →
      ((i : ℤ), row - k) ∉ qs → c = background zeroRow i (row - k)

theorem lines_spec (past : Option Pixel) (zeroRow : ℤ) (width n : ℕ) (row : ℤ) (qs : List Pixel)
    (hne : qs ≠ []) (hq : Ahead 0 row qs) (hw : ∀ q ∈ qs, q.1 < width)
    (hn : ∀ q ∈ qs, row < q.2 + n) :
    (∃ ls, lines past zeroRow width n row qs = some ls ∧ LinesOk zeroRow row qs ls ∧
        ls.length ≤ n ∧ past ≠ none) ∨
      (lines past zeroRow width n row qs = none ∧ (past = none ∨ ∃ q ∈ qs, past = some q)) := by
  induction n generalizing row qs with
  | zero =>
    obtain ⟨q, qs, rfl⟩ := List.exists_cons_of_ne_nil hne
    have h1 := hn q List.mem_cons_self
    have h2 := (hq.2 q List.mem_cons_self).2
    simp at h1
    omega
  | succ n ih =>
    rcases cells_spec past zeroRow row width 0 qs hne hq (by simpa using hw) with
      ⟨r, h1, h2, h3, h4, h5⟩ | ⟨h1, h2⟩
    · have h2' : LineOk zeroRow row 0 qs r.1 := h2
      by_cases hr : r.2 = []
      · left
        refine ⟨[r.1], by simp [lines, h1, hr], ⟨?_, ?_⟩, by simp, h4 hr⟩
        · rintro (_ | k) i hi
          · simpa using h2'.1 i (by simpa using hi)
          · exfalso
            have : ((i : ℤ), row - ((k + 1 : ℕ) : ℤ)) ∈ r.2 := (h5 _).2 ⟨hi, by push_cast; omega⟩
            rw [hr] at this; simp at this
        · rintro (_ | k) i c hc hi
          · have := h2'.2 i c (by simpa using hc) (by simpa using hi)
            simpa using this
          · simp at hc
      · have hq' : Ahead 0 (row - 1) r.2 := by
          refine ⟨hq.1.sublist h3.sublist, fun q a => ?_⟩
          have b := (h5 q).1 a
          have c := hq.2 q b.1
          refine ⟨c.1, ?_⟩
          omega
        rcases ih (row - 1) r.2 hr hq' (fun q a => hw q ((h5 q).1 a).1)
            (fun q a => by have := hn q ((h5 q).1 a).1; push_cast at this; omega) with
          ⟨ls, k1, k2, k3, k4⟩ | ⟨k1, k2⟩
        · left
          refine ⟨r.1 :: ls, by simp [lines, h1, hr, k1], ⟨?_, ?_⟩, by simpa using k3, k4⟩
          · rintro (_ | k) i hi
            · simpa using h2'.1 i (by simpa using hi)
            · have e : row - ((k + 1 : ℕ) : ℤ) = row - 1 - k := by push_cast; ring
              rw [e] at hi
              simpa using k2.1 k i ((h5 _).2 ⟨hi, by simp; omega⟩)
          · rintro (_ | k) i c hc hi
            · have := h2'.2 i c (by simpa using hc) (by simpa using hi)
              simpa using this
            · have e : row - ((k + 1 : ℕ) : ℤ) = row - 1 - k := by push_cast; ring
              rw [e] at hi ⊢
              exact k2.2 k i c (by simpa using hc) (fun a => hi ((h5 _).1 a).1)
        · right
          refine ⟨by simp [lines, h1, hr, k1], ?_⟩
          rcases k2 with a | ⟨q, a, b⟩
          · exact Or.inl a
          · exact Or.inr ⟨q, ((h5 q).1 a).1, b⟩
    · right
      exact ⟨by simp [lines, h1], h2⟩

/-! ## The extent and the places -/

theorem least_spec (v : ℝ) (vs : List ℝ) :
    least v vs ∈ v :: vs ∧ ∀ u ∈ v :: vs, least v vs ≤ u := by
  unfold least
  induction vs generalizing v with
  | nil => simp
  | cons a vs ih =>
    obtain ⟨h1, h2⟩ := ih (min v a)
    rw [List.foldl_cons]
    constructor
    · rcases List.mem_cons.1 h1 with e | e
      · rw [e]
        rcases min_choice v a with f | f <;> rw [f] <;> simp
      · exact List.mem_cons_of_mem _ (List.mem_cons_of_mem _ e)
    · intro u hu
      have hm := h2 (min v a) List.mem_cons_self
      rcases List.mem_cons.1 hu with rfl | hu
      · exact hm.trans (min_le_left _ _)
      · rcases List.mem_cons.1 hu with rfl | hu
        · exact hm.trans (min_le_right _ _)
        · exact h2 u (List.mem_cons_of_mem _ hu)

theorem greatest_spec (v : ℝ) (vs : List ℝ) :
    greatest v vs ∈ v :: vs ∧ ∀ u ∈ v :: vs, u ≤ greatest v vs := by
  unfold greatest
  induction vs generalizing v with
  | nil => simp
  | cons a vs ih =>
    obtain ⟨h1, h2⟩ := ih (max v a)
    rw [List.foldl_cons]
    constructor
    · rcases List.mem_cons.1 h1 with e | e
      · rw [e]
        rcases max_choice v a with f | f <;> rw [f] <;> simp
      · exact List.mem_cons_of_mem _ (List.mem_cons_of_mem _ e)
    · intro u hu
      have hm := h2 (max v a) List.mem_cons_self
      rcases List.mem_cons.1 hu with rfl | hu
      · exact (le_max_left _ _).trans hm
      · rcases List.mem_cons.1 hu with rfl | hu
        · exact (le_max_right _ _).trans hm
        · exact h2 u (List.mem_cons_of_mem _ hu)

theorem extent_eq (v : ℝ) (vs : List ℝ) (lo hi : ℝ) (h : Extent (v :: vs) lo hi) :
    least v vs = lo ∧ greatest v vs = hi := by
  obtain ⟨h1, h2, h3⟩ := h
  obtain ⟨a, b⟩ := least_spec v vs
  obtain ⟨c, d⟩ := greatest_spec v vs
  exact ⟨le_antisymm (b _ h1) (h3 _ a).1, le_antisymm (h3 _ c).2 (d _ h2)⟩

theorem extent_exists (v : ℝ) (vs : List ℝ) :
    Extent (v :: vs) (least v vs) (greatest v vs) :=
  ⟨(least_spec v vs).1, (greatest_spec v vs).1,
    fun u hu => ⟨(least_spec v vs).2 u hu, (greatest_spec v vs).2 u hu⟩⟩

/-- A number is drawn where it belongs, and inside the frame. -/
theorem place_spec {lo hi v : ℝ} (hlt : lo < hi) (h1 : lo ≤ v) (h2 : v ≤ hi) (size : ℕ)
    (hs : 1 ≤ size) : ∃ k : ℕ, place lo hi size v = k ∧ k < size ∧ Belongs lo hi size v k ∧
      ∀ k' : ℕ, Belongs lo hi size v k' → k' = k := by
  have hs' : (1 : ℝ) ≤ size := by exact_mod_cast hs
  have hf : (v - lo) / ((hi - lo) / ((size : ℝ) - 1)) = (v - lo) / (hi - lo) * ((size : ℝ) - 1) := by
    rw [div_div_eq_mul_div, mul_div_right_comm]
  have hq0 : 0 ≤ (v - lo) / (hi - lo) := div_nonneg (by linarith) (by linarith)
  have hq1 : (v - lo) / (hi - lo) ≤ 1 := (div_le_one (by linarith)).2 (by linarith)
  unfold place Belongs
  rw [hf]
  generalize (v - lo) / (hi - lo) = q at hq0 hq1
  have hg0 : 0 ≤ q * ((size : ℝ) - 1) := mul_nonneg hq0 (by linarith)
  have hg1 : q * ((size : ℝ) - 1) ≤ (size : ℝ) - 1 := by nlinarith
  generalize q * ((size : ℝ) - 1) = g at hg0 hg1
  have hr : round g = ⌊g + 1 / 2⌋ := by
    unfold round; rw [if_pos (by linarith)]
  have h0 : 0 ≤ ⌊g + 1 / 2⌋ := Int.floor_nonneg.2 (by linarith)
  obtain ⟨k, hk⟩ := Int.eq_ofNat_of_zero_le h0
  have hb1 := Int.floor_le (g + 1 / 2)
  have hb2 := Int.lt_floor_add_one (g + 1 / 2)
  rw [hk] at hb1 hb2
  simp only [Int.cast_natCast] at hb1 hb2
  refine ⟨k, by rw [hr, hk], ?_, ⟨by linarith, by linarith⟩, fun k' hk' => ?_⟩
  · have : (k : ℝ) < size := by linarith
    exact_mod_cast this
  · have a : (k' : ℝ) < k + 1 := by linarith [hk'.2]
    have b : (k : ℝ) < k' + 1 := by linarith [hk'.1]
    have a' : k' < k + 1 := by exact_mod_cast a
    have b' : k < k' + 1 := by exact_mod_cast b
    omega

/-- The positions of the points, in the order in which they are drawn. -/
noncomputable def pixels (points : List (ℝ × ℝ)) (x0 x1 y0 y1 : ℝ) (w h : ℕ) : List Pixel :=
  (points.map fun q => (place x0 x1 w q.1, place y0 y1 h q.2)).mergeSort above

theorem mem_pixels {points : List (ℝ × ℝ)} {p : ℝ × ℝ} (hp : p ∈ points) (x0 x1 y0 y1 : ℝ)
    (w h : ℕ) : (place x0 x1 w p.1, place y0 y1 h p.2) ∈ pixels points x0 x1 y0 y1 w h := by
  unfold pixels
  rw [List.mem_mergeSort, List.mem_map]
  exact ⟨p, hp, rfl⟩

theorem pixels_ahead (points : List (ℝ × ℝ)) {x0 x1 y0 y1 : ℝ} {w h : ℕ} (hw : 1 ≤ w) (hh : 1 ≤ h)
    (hx : Extent (points.map Prod.fst) x0 x1) (hy : Extent (points.map Prod.snd) y0 y1)
    (hx' : x0 < x1) (hy' : y0 < y1) :
    Ahead 0 h (pixels points x0 x1 y0 y1 w h) ∧
      (∀ q ∈ pixels points x0 x1 y0 y1 w h, q.1 < ((w + 1 : ℕ) : ℤ) ∧ (h : ℤ) < q.2 + (h + 1 : ℕ)) ∧
      (∀ x y : ℕ, ((x : ℤ), (y : ℤ)) ∈ pixels points x0 x1 y0 y1 w h ↔
        ∃ p ∈ points, Belongs x0 x1 w p.1 x ∧ Belongs y0 y1 h p.2 y) ∧
      ∀ q ∈ pixels points x0 x1 y0 y1 w h, ∃ x y : ℕ, q = ((x : ℤ), (y : ℤ)) ∧ x < w ∧ y < h := by
  have hplace : ∀ p ∈ points, ∃ x y : ℕ, place x0 x1 w p.1 = x ∧ place y0 y1 h p.2 = y ∧ x < w ∧
      y < h ∧ (∀ x' : ℕ, Belongs x0 x1 w p.1 x' ↔ x' = x) ∧
      ∀ y' : ℕ, Belongs y0 y1 h p.2 y' ↔ y' = y := by
    intro p hp
    have a := hx.2.2 _ (List.mem_map_of_mem (f := Prod.fst) hp)
    have b := hy.2.2 _ (List.mem_map_of_mem (f := Prod.snd) hp)
    obtain ⟨x, c1, c2, c3, c4⟩ := place_spec hx' a.1 a.2 w hw
    obtain ⟨y, d1, d2, d3, d4⟩ := place_spec hy' b.1 b.2 h hh
    exact ⟨x, y, c1, d1, c2, d2, fun x' => ⟨c4 x', fun e => e ▸ c3⟩,
      fun y' => ⟨d4 y', fun e => e ▸ d3⟩⟩
  have hmem : ∀ q, q ∈ pixels points x0 x1 y0 y1 w h ↔
      ∃ p ∈ points, (place x0 x1 w p.1, place y0 y1 h p.2) = q := by
    intro q
    unfold pixels
    rw [List.mem_mergeSort, List.mem_map]
  have hnat : ∀ q ∈ pixels points x0 x1 y0 y1 w h,
      ∃ x y : ℕ, q = ((x : ℤ), (y : ℤ)) ∧ x < w ∧ y < h := by
    intro q hq
    obtain ⟨p, hp, rfl⟩ := (hmem q).1 hq
    obtain ⟨x, y, a, b, c, d, _⟩ := hplace p hp
    exact ⟨x, y, by rw [a, b], c, d⟩
  refine ⟨⟨List.pairwise_mergeSort above_trans above_total _, fun q hq => ?_⟩, fun q hq => ?_,
    fun x y => ?_, hnat⟩
  · obtain ⟨x, y, rfl, c, d⟩ := hnat q hq
    simp; omega
  · obtain ⟨x, y, rfl, c, d⟩ := hnat q hq
    constructor
    · push_cast; omega
    · push_cast; omega
  · rw [hmem]
    constructor
    · rintro ⟨p, hp, e⟩
      obtain ⟨x', y', a, b, _, _, c, d⟩ := hplace p hp
      rw [a, b] at e
      simp only [Prod.mk.injEq, Nat.cast_inj] at e
      exact ⟨p, hp, (c x).2 e.1.symm, (d y).2 e.2.symm⟩
    · rintro ⟨p, hp, e, f⟩
      obtain ⟨x', y', a, b, _, _, c, d⟩ := hplace p hp
      exact ⟨p, hp, by rw [a, b, (c x).1 e, (d y).1 f]⟩

theorem graph_eq (past : Option Pixel) (points : List (ℝ × ℝ)) (w h : ℕ) {x0 x1 y0 y1 : ℝ}
    (hx : Extent (points.map Prod.fst) x0 x1) (hy : Extent (points.map Prod.snd) y0 y1)
    (hx' : x0 < x1) (hy' : y0 < y1) :
    graph past points w h =
      lines past (axisRow y0 y1 h) (w + 1) (h + 1) h (pixels points x0 x1 y0 y1 w h) := by
  cases points with
  | nil => simp [Extent] at hx
  | cons p ps =>
    obtain ⟨a, b⟩ := extent_eq p.1 (ps.map Prod.fst) x0 x1 (by simpa using hx)
    obtain ⟨c, d⟩ := extent_eq p.2 (ps.map Prod.snd) y0 y1 (by simpa using hy)
    unfold graph pixels
    simp only [a, b, c, d]
    rw [if_neg (by rintro (e | e) <;> linarith)]

/-- **C117** Every point is drawn as a star at the character nearest to it, and there are no other
stars.  Everything else is a space, the vertical axis in the first column, or the horizontal axis in
one row.  There are at most `h + 1` lines.  This needs that what lies in memory behind the points
does not look like a point of the drawing, because the code reads it. -/
theorem C117_draws_partial (j : Pixel) (points : List (ℝ × ℝ)) (w h : ℕ) (hw : 1 ≤ w) (hh : 1 ≤ h)
    (x0 x1 y0 y1 : ℝ)
    (hx : Extent (points.map Prod.fst) x0 x1) (hy : Extent (points.map Prod.snd) y0 y1)
    (hx' : x0 < x1) (hy' : y0 < y1)
    (hj : ∀ p ∈ points, ∀ x y : ℕ, Belongs x0 x1 w p.1 x → Belongs y0 y1 h p.2 y → j ≠ (↑x, ↑y)) :
    ∃ drawing, graph (some j) points w h = some drawing ∧ drawing.length ≤ h + 1 ∧
      (∀ p ∈ points, ∃ x y : ℕ, x < w ∧ y < h ∧
        Belongs x0 x1 w p.1 x ∧ Belongs y0 y1 h p.2 y ∧ charAt drawing h x y = some '*') ∧
      (∀ x y : ℕ, y ≤ h → charAt drawing h x y = some '*' →
        ∃ p ∈ points, Belongs x0 x1 w p.1 x ∧ Belongs y0 y1 h p.2 y) ∧
      ∃ axis : ℤ, (y0 ≤ 0 → -(1 / 2) < axis - (0 - y0) / (y1 - y0) * h ∧
          axis - (0 - y0) / (y1 - y0) * h ≤ 1 / 2) ∧
        ∀ (x y : ℕ) (c : Char), y ≤ h → charAt drawing h x y = some c → c ≠ '*' →
          c = if x = 0 then '|' else if (y : ℤ) = axis then '-' else ' ' := by
  obtain ⟨h1, h2, h3, h4⟩ := pixels_ahead points hw hh hx hy hx' hy'
  have hne : pixels points x0 x1 y0 y1 w h ≠ [] := by
    obtain ⟨p, hp, _⟩ := List.mem_map.1 hx.1
    exact List.ne_nil_of_mem (mem_pixels hp x0 x1 y0 y1 w h)
  rw [graph_eq (some j) points w h hx hy hx' hy']
  rcases lines_spec (some j) (axisRow y0 y1 h) (w + 1) (h + 1) h _ hne h1
      (fun q hq => (h2 q hq).1) (fun q hq => (h2 q hq).2) with ⟨ls, k1, k2, k3, _⟩ | ⟨_, k2⟩
  · have hstar : ∀ x y : ℕ, y ≤ h →
        (∃ p ∈ points, Belongs x0 x1 w p.1 x ∧ Belongs y0 y1 h p.2 y) →
        charAt ls h x y = some '*' := by
      intro x y hyh hp
      refine k2.1 (h - y) x ?_
      rw [show ((h : ℤ) - ((h - y : ℕ) : ℤ)) = y by omega]
      exact (h3 x y).2 hp
    have hback : ∀ (x y : ℕ) (c : Char), y ≤ h → charAt ls h x y = some c →
        (¬ ∃ p ∈ points, Belongs x0 x1 w p.1 x ∧ Belongs y0 y1 h p.2 y) →
        c = if x = 0 then '|' else if (y : ℤ) = axisRow y0 y1 h then '-' else ' ' := by
      intro x y c hyh hc hp
      have e : ((h : ℤ) - ((h - y : ℕ) : ℤ)) = y := by omega
      have := k2.2 (h - y) x c hc (by rw [e]; exact fun a => hp ((h3 x y).1 a))
      rw [e] at this
      simpa [background] using this
    refine ⟨ls, k1, k3, ?_, ?_, axisRow y0 y1 h, ?_, ?_⟩
    · intro p hp
      have a := hx.2.2 _ (List.mem_map_of_mem (f := Prod.fst) hp)
      have b := hy.2.2 _ (List.mem_map_of_mem (f := Prod.snd) hp)
      obtain ⟨x, _, c2, c3, _⟩ := place_spec hx' a.1 a.2 w hw
      obtain ⟨y, _, d2, d3, _⟩ := place_spec hy' b.1 b.2 h hh
      exact ⟨x, y, c2, d2, c3, d3, hstar x y d2.le ⟨p, hp, c3, d3⟩⟩
    · intro x y hyh hc
      by_contra hp
      have := hback x y '*' hyh hc hp
      split_ifs at this <;> simp at this
    · intro h0
      have hg : 0 ≤ (0 - y0) / (y1 - y0) * (h : ℝ) :=
        mul_nonneg (div_nonneg (by linarith) (by linarith)) (Nat.cast_nonneg _)
      unfold axisRow round
      rw [mul_div_right_comm]
      generalize (0 - y0) / (y1 - y0) * (h : ℝ) = g at hg
      rw [if_pos (by linarith)]
      have hb1 := Int.floor_le (g + 1 / 2)
      have hb2 := Int.lt_floor_add_one (g + 1 / 2)
      constructor <;> linarith
    · intro x y c hyh hc hcs
      refine hback x y c hyh hc ?_
      intro hp
      rw [hstar x y hyh hp] at hc
      exact hcs (Option.some.inj hc).symm
  · exfalso
    rcases k2 with k2 | ⟨q, hq, k2⟩
    · simp at k2
    · obtain ⟨x, y, rfl, _⟩ := h4 q hq
      obtain ⟨p, hp, e, f⟩ := (h3 x y).1 hq
      exact hj p hp x y e f (Option.some.inj k2)

/-- **C117**, negated: drawing any points at all reads the memory behind the last of them, or
converts 0/0 to an integer. -/
theorem C117_reads_past_the_end (points : List (ℝ × ℝ)) (hp : points ≠ []) (w h : ℕ) (hw : 1 ≤ w)
    (hh : 1 ≤ h) : graph none points w h = none := by
  obtain ⟨p, ps, rfl⟩ := List.exists_cons_of_ne_nil hp
  have ex := extent_exists p.1 (ps.map Prod.fst)
  have ey := extent_exists p.2 (ps.map Prod.snd)
  by_cases hx' : least p.1 (ps.map Prod.fst) < greatest p.1 (ps.map Prod.fst)
  · by_cases hy' : least p.2 (ps.map Prod.snd) < greatest p.2 (ps.map Prod.snd)
    · have ex' : Extent ((p :: ps).map Prod.fst) _ _ := ex
      have ey' : Extent ((p :: ps).map Prod.snd) _ _ := ey
      obtain ⟨h1, h2, h3, h4⟩ := pixels_ahead (p :: ps) hw hh ex' ey' hx' hy'
      rw [graph_eq none (p :: ps) w h ex' ey' hx' hy']
      have hne := List.ne_nil_of_mem (mem_pixels (List.mem_cons_self (a := p) (l := ps))
        (least p.1 (ps.map Prod.fst)) (greatest p.1 (ps.map Prod.fst))
        (least p.2 (ps.map Prod.snd)) (greatest p.2 (ps.map Prod.snd)) w h)
      rcases lines_spec none (axisRow _ _ h) (w + 1) (h + 1) h _ hne h1
          (fun q hq => (h2 q hq).1) (fun q hq => (h2 q hq).2) with ⟨ls, _, _, _, k⟩ | ⟨k, _⟩
      · exact absurd rfl k
      · exact k
    · unfold graph
      dsimp only
      rw [if_pos (Or.inr (by linarith [(ey.2.2 _ ey.1).2]))]
  · unfold graph
    dsimp only
    rw [if_pos (Or.inl (by linarith [(ex.2.2 _ ex.1).2]))]

/-- **C117**, negated: a curve that is constant cannot be drawn, whatever lies in memory. -/
theorem C117_constant_curve_fails (past : Option Pixel) (v start stop : ℝ) (w h : ℕ) (hw : 1 ≤ w) :
    graphCurve past (fun _ => v) start stop w h = none := by
  unfold graphCurve
  cases hs : samples (fun _ => v) start stop w with
  | nil => simp [samples] at hs; omega
  | cons p ps =>
    have hall : ∀ u ∈ (p :: ps).map Prod.snd, u = v := by
      intro u hu
      rw [← hs] at hu
      simp only [samples, List.map_map, List.mem_map, Function.comp_apply] at hu
      obtain ⟨_, _, e⟩ := hu
      exact e.symm
    have ey := extent_exists p.2 (ps.map Prod.snd)
    have a := hall _ ey.1
    have b := hall _ ey.2.1
    unfold graph
    dsimp only
    rw [if_pos (Or.inr (by rw [a, b]; ring))]

/-- **C117** The graph of a function has exactly one star in each of its `w` columns, at the height
that belongs to the value at the `x` of the column. -/
theorem C117_curve_partial (j : Pixel) (f : ℝ → ℝ) (start stop : ℝ) (w h : ℕ) (hw : 2 ≤ w)
    (hh : 1 ≤ h) (hlt : start < stop) (y0 y1 : ℝ) (hy' : y0 < y1)
    (hy : Extent ((List.range w).map fun (i : ℕ) => f (start + i / ((w : ℝ) - 1) * (stop - start)))
      y0 y1)
    (hj : j.1 < 0) :
    ∃ drawing, graphCurve (some j) f start stop w h = some drawing ∧ drawing.length ≤ h + 1 ∧
      ∀ x y : ℕ, y ≤ h → (charAt drawing h x y = some '*' ↔
        x < w ∧ Belongs y0 y1 h (f (start + x / ((w : ℝ) - 1) * (stop - start))) y) := by
  have hw1 : (0 : ℝ) < (w : ℝ) - 1 := by
    have : (2 : ℝ) ≤ w := by exact_mod_cast hw
    linarith
  have hinc : ∀ i : ℕ, start + (i : ℝ) * ((stop - start) / ((w : ℝ) - 1)) =
      start + i / ((w : ℝ) - 1) * (stop - start) := by
    intro i; ring
  have hsam : samples f start stop w = (List.range w).map fun (i : ℕ) =>
      (start + i / ((w : ℝ) - 1) * (stop - start),
        f (start + i / ((w : ℝ) - 1) * (stop - start))) := by
    unfold samples
    simp only [hinc]
  have hfrac : ∀ i : ℕ, i < w → 0 ≤ (i : ℝ) / ((w : ℝ) - 1) ∧ (i : ℝ) / ((w : ℝ) - 1) ≤ 1 := by
    intro i hi
    have : (i : ℝ) + 1 ≤ w := by exact_mod_cast hi
    exact ⟨div_nonneg (Nat.cast_nonneg _) hw1.le, (div_le_one hw1).2 (by linarith)⟩
  have hx : Extent ((samples f start stop w).map Prod.fst) start stop := by
    rw [hsam, List.map_map]
    refine ⟨List.mem_map.2 ⟨0, by simp; omega, by simp⟩,
      List.mem_map.2 ⟨w - 1, by simp; omega, ?_⟩, fun v hv => ?_⟩
    · have : ((w - 1 : ℕ) : ℝ) = (w : ℝ) - 1 := by
        rw [Nat.cast_sub (by omega)]; simp
      simp only [Function.comp_apply, this, div_self hw1.ne']
      ring
    · obtain ⟨i, hi, rfl⟩ := List.mem_map.1 hv
      have := hfrac i (List.mem_range.1 hi)
      simp only [Function.comp_apply]
      constructor <;> nlinarith [this.1, this.2]
  have hy2 : Extent ((samples f start stop w).map Prod.snd) y0 y1 := by
    rw [hsam, List.map_map]
    exact hy
  have hcol : ∀ i : ℕ, ∀ x : ℕ,
      Belongs start stop w (start + i / ((w : ℝ) - 1) * (stop - start)) x ↔ x = i := by
    intro i x
    have e : (start + (i : ℝ) / ((w : ℝ) - 1) * (stop - start) - start) / (stop - start) *
        ((w : ℝ) - 1) = i := by
      have : stop - start ≠ 0 := by linarith
      field_simp
      ring
    unfold Belongs
    rw [e]
    constructor
    · rintro ⟨a, b⟩
      have a' : (i : ℝ) < x + 1 := by linarith
      have b' : (x : ℝ) < i + 1 := by linarith
      have a'' : i < x + 1 := by exact_mod_cast a'
      have b'' : x < i + 1 := by exact_mod_cast b'
      omega
    · rintro rfl
      constructor <;> norm_num
  obtain ⟨d, d1, d2, d3, d4, _⟩ := C117_draws_partial j (samples f start stop w) w h (by omega) hh
    start stop y0 y1 hx hy2 hlt hy' (by
      rintro p _ x y _ _ rfl
      simp at hj; omega)
  refine ⟨d, d1, d2, fun x y hyh => ⟨fun hc => ?_, ?_⟩⟩
  · obtain ⟨p, hp, a, b⟩ := d4 x y hyh hc
    rw [hsam] at hp
    obtain ⟨i, hi, rfl⟩ := List.mem_map.1 hp
    have := (hcol i x).1 a
    subst this
    exact ⟨List.mem_range.1 hi, b⟩
  · rintro ⟨hxw, hb⟩
    obtain ⟨x', y', _, b1, a2, a3, a4⟩ := d3
      (start + x / ((w : ℝ) - 1) * (stop - start), f (start + x / ((w : ℝ) - 1) * (stop - start)))
      (by rw [hsam]; exact List.mem_map.2 ⟨x, List.mem_range.2 hxw, rfl⟩)
    have := (hcol x x').1 a2
    subst this
    have hyy : y = y' := by
      have c1 := hb.1; have c2 := hb.2
      have c3 := a3.1; have c4 := a3.2
      have c5 : (y : ℝ) < y' + 1 := by linarith
      have c6 : (y' : ℝ) < y + 1 := by linarith
      have c7 : y < y' + 1 := by exact_mod_cast c5
      have c8 : y' < y + 1 := by exact_mod_cast c6
      omega
    rw [hyy]; exact a4

/-- **C117**, negated: the horizontal axis is not where the value 0 is drawn.  Of the points
(1, 0) and (0, -1) the first is on the axis, but it is drawn below it. -/
theorem C117_axis_misplaced :
    graph (some (-1, -1)) [(1, 0), (0, -1)] 2 2 =
      some [['|', '-', '-'], ['|', '*'], ['*']] := by
  have hx : Extent ([((1 : ℝ), (0 : ℝ)), (0, -1)].map Prod.fst) 0 1 := by
    simp [Extent]
  have hy : Extent ([((1 : ℝ), (0 : ℝ)), (0, -1)].map Prod.snd) (-1) 0 := by
    simp [Extent]
  rw [graph_eq _ _ _ _ hx hy (by norm_num) (by norm_num)]
  have r0 : round 0 = 0 := by norm_num [round]
  have r1 : round 1 = 1 := by norm_num [round]
  have r2 : round 2 = 2 := by norm_num [round]
  have hpix : pixels [((1 : ℝ), (0 : ℝ)), (0, -1)] 0 1 (-1) 0 2 2 = [(1, 1), (0, 0)] := by
    unfold pixels place
    have e1 : ((1 : ℝ) - 0) / ((1 - 0) / (((2 : ℕ) : ℝ) - 1)) = 1 := by norm_num
    have e2 : ((0 : ℝ) - -1) / ((0 - -1) / (((2 : ℕ) : ℝ) - 1)) = 1 := by norm_num
    have e3 : ((0 : ℝ) - 0) / ((1 - 0) / (((2 : ℕ) : ℝ) - 1)) = 0 := by norm_num
    have e4 : ((-1 : ℝ) - -1) / ((0 - -1) / (((2 : ℕ) : ℝ) - 1)) = 0 := by norm_num
    simp only [List.map_cons, List.map_nil, e1, e2, e3, e4, r0, r1]
    exact List.mergeSort_of_pairwise (by decide)
  have hax : axisRow (-1) 0 2 = 2 := by
    unfold axisRow
    rw [show ((0 : ℝ) - -1) * ((2 : ℕ) : ℝ) / (0 - -1) = 2 by norm_num, r2]
  rw [hpix, hax]
  rfl

/-- The hypotheses of `C117_draws_partial` are met by three points on a parabola. -/
example : ∃ drawing, graph (some (-1, -1)) [(-1, 1), (0, 0), (1, 1)] 3 2 = some drawing ∧
    charAt drawing 2 0 1 = some '*' ∧ charAt drawing 2 1 0 = some '*' ∧
      charAt drawing 2 2 1 = some '*' ∧ charAt drawing 2 1 1 ≠ some '*' := by
  have hx : Extent ([((-1 : ℝ), (1 : ℝ)), (0, 0), (1, 1)].map Prod.fst) (-1) 1 := by
    norm_num [Extent]
  have hy : Extent ([((-1 : ℝ), (1 : ℝ)), (0, 0), (1, 1)].map Prod.snd) 0 1 := by
    norm_num [Extent]
  obtain ⟨d, d1, _, d3, d4, _⟩ := C117_draws_partial (-1, -1) [(-1, 1), (0, 0), (1, 1)] 3 2
    (by norm_num) (by norm_num) (-1) 1 0 1 hx hy (by norm_num) (by norm_num) (by
      intro p _ x y _ _ e
      simp at e)
  have nat : ∀ (k n : ℕ), (k : ℝ) - n ≤ 1 / 2 → -(1 / 2 : ℝ) < k - n → k = n := by
    intro k n a b
    have a' : (k : ℝ) < n + 1 := by linarith
    have b' : (n : ℝ) < k + 1 := by linarith
    have a'' : k < n + 1 := by exact_mod_cast a'
    have b'' : n < k + 1 := by exact_mod_cast b'
    omega
  have key : ∀ (p : ℝ × ℝ) (a b : ℕ), p ∈ [((-1 : ℝ), (1 : ℝ)), (0, 0), (1, 1)] →
      (p.1 - -1) / (1 - -1) * (((3 : ℕ) : ℝ) - 1) = a →
      (p.2 - 0) / (1 - 0) * (((2 : ℕ) : ℝ) - 1) = b → charAt d 2 a b = some '*' := by
    intro p a b hp ha hb
    obtain ⟨x, y, _, _, e, f, g⟩ := d3 p hp
    unfold Belongs at e f
    rw [ha] at e
    rw [hb] at f
    rw [← nat x a e.2 e.1, ← nat y b f.2 f.1]
    exact g
  refine ⟨d, d1, key (-1, 1) 0 1 (by simp) (by norm_num) (by norm_num),
    key (0, 0) 1 0 (by simp) (by norm_num) (by norm_num),
    key (1, 1) 2 1 (by simp) (by norm_num) (by norm_num), fun hc => ?_⟩
  obtain ⟨p, hp, e, f⟩ := d4 1 1 (by norm_num) hc
  simp only [List.mem_cons, List.not_mem_nil, or_false] at hp
  rcases hp with rfl | rfl | rfl
  · norm_num [Belongs] at e
  · norm_num [Belongs] at f
  · norm_num [Belongs] at e

/-- The hypotheses of `C117_curve_partial` are met by the identity. -/
example : ∃ drawing, graphCurve (some (-1, -1)) (fun x => x) 0 1 2 2 = some drawing := by
  obtain ⟨d, d1, _⟩ := C117_curve_partial (-1, -1) (fun x => x) 0 1 2 2 (by norm_num) (by norm_num)
    (by norm_num) 0 1 (by norm_num) (by norm_num [Extent, List.range_succ]) (by norm_num)
  exact ⟨d, d1⟩

end Motive.Graph
