import Verif.Pipeline.Channels
import Verif.Pipeline.NodesProps
/-!
# C52: the sum of two channels
-/

namespace Motive.Pipeline
open Motive.Curve Motive.Matrix4

noncomputable section
open Classical

/-! ### Specification -/

/-- The value of a curve at a time: constant before the first node and after the last, and the cubics between the nodes. -/
def curveAt : List Node → ℝ → ℝ
  | [], _ => 0
  | [a], _ => a.val
  | a :: b :: rest, t => if t < a.time then a.val else if t < b.time then curveBetween a b t else curveAt (b :: rest) t

/-- Nodes in order of time, at most two of them at the same time.  Two nodes at the same time are a corner of the curve, or a jump. -/
def Kinked (n : List Node) : Prop :=
  n.Pairwise (fun a b => a.time ≤ b.time) ∧ ∀ pa x y z r, n = pa ++ x :: y :: z :: r → x.time < z.time

theorem kinked_pair {a b : Node} : Kinked [a, b] ↔ a.time ≤ b.time := by
  refine ⟨fun h => by simpa using h.1, fun h => ⟨by simpa using h, fun pa x y z r e => ?_⟩⟩
  have := congrArg List.length e
  simp at this
  omega

theorem kinked_cons {a b c : Node} {r : List Node} :
    Kinked (a :: b :: c :: r) ↔ a.time ≤ b.time ∧ a.time < c.time ∧ Kinked (b :: c :: r) := by
  constructor
  · intro h
    refine ⟨(List.pairwise_cons.mp h.1).1 b (by simp), h.2 [] a b c r rfl, (List.pairwise_cons.mp h.1).2, fun pa x y z r' e => ?_⟩
    exact h.2 (a :: pa) x y z r' (congrArg (a :: ·) e)
  · rintro ⟨h1, h2, h3⟩
    refine ⟨List.pairwise_cons.mpr ⟨fun y hy => ?_, h3.1⟩, fun pa x y z r' e => ?_⟩
    · rcases List.mem_cons.mp hy with rfl | hy
      · exact h1
      · exact h1.trans ((List.pairwise_cons.mp h3.1).1 y hy)
    · cases pa with
      | nil =>
        obtain ⟨e1, e⟩ := List.cons.inj e
        rw [← e1, ← (List.cons.inj (List.cons.inj e).2).1]
        exact h2
      | cons b' pa => exact h3.2 pa x y z r' (List.cons.inj e).2

/-- A channel is constant, or has nodes in order of time, from `t0` to `t1`. -/
def Spans (t0 t1 : ℤ) (n : List Node) : Prop :=
  n.length = 1 ∨ 2 ≤ n.length ∧ Kinked n ∧ (n.head?.map Node.time) = some t0 ∧ (n.getLast?.map Node.time) = some t1

/-! ### Cubics -/

theorem hermite_unique (c3 c2 c1 c0 : ℝ) {u v : ℝ} (h : u ≠ v) (t : ℝ) :
    hermite (c3 * u ^ 3 + c2 * u ^ 2 + c1 * u + c0) (3 * c3 * u ^ 2 + 2 * c2 * u + c1)
      (c3 * v ^ 3 + c2 * v ^ 2 + c1 * v + c0) (3 * c3 * v ^ 2 + 2 * c2 * v + c1) (v - u) (t - u) =
      c3 * t ^ 3 + c2 * t ^ 2 + c1 * t + c0 := by
  have : v - u ≠ 0 := sub_ne_zero.mpr h.symm
  unfold hermite
  field_simp
  ring

/-- A polynomial of degree three or less. -/
structure Poly where
  c3 : ℝ
  c2 : ℝ
  c1 : ℝ
  c0 : ℝ

def Poly.eval (p : Poly) (t : ℝ) : ℝ := p.c3 * t ^ 3 + p.c2 * t ^ 2 + p.c1 * t + p.c0
def Poly.slope (p : Poly) (t : ℝ) : ℝ := 3 * p.c3 * t ^ 2 + 2 * p.c2 * t + p.c1

/-- The Hermite curve between two nodes is a polynomial. -/
theorem between_poly (a b : Node) (h : a.time < b.time) :
    ∃ p : Poly, (∀ t, curveBetween a b t = p.eval t) ∧ ∀ t, slopeBetween a b t = p.slope t := by
  have hw : ((b.time : ℝ) - a.time) ≠ 0 := by
    have : (a.time : ℝ) < b.time := by exact_mod_cast h
    linarith
  set w := (b.time : ℝ) - a.time with hwd
  set u := (a.time : ℝ)
  -- coefficients in `x = t - u`
  set k3 := 2 / w ^ 3 * (a.val - b.val) + 1 / w ^ 2 * (a.deriv + b.deriv)
  set k2 := 3 / w ^ 2 * (b.val - a.val) - 1 / w * (b.deriv + 2 * a.deriv)
  refine ⟨⟨k3, k2 - 3 * k3 * u, a.deriv - 2 * k2 * u + 3 * k3 * u ^ 2, a.val - a.deriv * u + k2 * u ^ 2 - k3 * u ^ 3⟩, fun t => ?_, fun t => ?_⟩
  · have : curveBetween a b t = k3 * (t - u) ^ 3 + k2 * (t - u) ^ 2 + a.deriv * (t - u) + a.val := by
      simp only [curveBetween, hermite, k3, k2]
      rw [← hwd]
      field_simp
      ring
    rw [this]
    simp only [Poly.eval]
    ring
  · have : slopeBetween a b t = 3 * k3 * (t - u) ^ 2 + 2 * k2 * (t - u) + a.deriv := by
      simp only [slopeBetween, hermiteSlope, k3, k2]
      rw [← hwd]
      field_simp
      ring
    rw [this]
    simp only [Poly.slope]
    ring

theorem curveBetween_start (a b : Node) : curveBetween a b a.time = a.val := by simp [curveBetween, hermite]
theorem slopeBetween_start (a b : Node) : slopeBetween a b a.time = a.deriv := by simp [slopeBetween, hermiteSlope]
theorem curveBetween_end (a b : Node) (h : a.time < b.time) : curveBetween a b b.time = b.val := by
  have hw : ((b.time : ℝ) - a.time) ≠ 0 := by
    have : (a.time : ℝ) < b.time := by exact_mod_cast h
    linarith
  unfold curveBetween hermite
  rw [div_self hw]; ring
theorem slopeBetween_end (a b : Node) (h : a.time < b.time) : slopeBetween a b b.time = b.deriv := by
  have hw : ((b.time : ℝ) - a.time) ≠ 0 := by
    have : (a.time : ℝ) < b.time := by exact_mod_cast h
    linarith
  unfold slopeBetween hermiteSlope
  rw [div_self hw]; ring

theorem between_eval {a b : Node} (h : a.time < b.time) (t : ℤ) :
    (between a b).eval ((t - a.time : ℤ) : ℝ) = curveBetween a b t ∧ (between a b).deriv ((t - a.time : ℤ) : ℝ) = slopeBetween a b t := by
  have hw : (0 : ℝ) < ((b.time - a.time : ℤ) : ℝ) := by exact_mod_cast sub_pos.mpr h
  unfold between curveBetween slopeBetween
  rw [init_eval _ _ _ _ hw, init_deriv _ _ _ _ hw]
  push_cast
  exact ⟨rfl, rfl⟩

/-! ### Evaluation inside a list -/

/-- In order of time. -/
abbrev Ordered (n : List Node) : Prop := n.Pairwise fun a b => a.time ≤ b.time

theorem curveAt_span (pa : List Node) (x y : Node) (r : List Node) (hs : Ordered (pa ++ x :: y :: r)) (t : ℝ) (h1 : (x.time : ℝ) ≤ t)
    (h2 : t < y.time) : curveAt (pa ++ x :: y :: r) t = curveBetween x y t := by
  induction pa with
  | nil =>
    simp only [List.nil_append, curveAt]
    rw [if_neg (not_lt.mpr h1), if_pos h2]
  | cons a pa ih =>
    have hs' := (List.pairwise_cons.mp hs).2
    have hax : a.time ≤ x.time := (List.pairwise_cons.mp hs).1 x (by simp)
    have hax' : (a.time : ℝ) ≤ x.time := by exact_mod_cast hax
    cases pa with
    | nil =>
      simp only [List.cons_append, List.nil_append, curveAt]
      rw [if_neg (by linarith), if_neg (by linarith)]
      exact ih hs'
    | cons b pa =>
      have hbx : b.time ≤ x.time := (List.pairwise_cons.mp hs').1 x (by simp)
      have hbx' : (b.time : ℝ) ≤ x.time := by exact_mod_cast hbx
      change (if t < a.time then a.val else if t < b.time then curveBetween a b t else curveAt ((b :: pa) ++ x :: y :: r) t) = _
      rw [if_neg (by linarith), if_neg (by linarith)]
      exact ih hs'

theorem curveAt_after (pa : List Node) (x : Node) (hs : Ordered (pa ++ [x])) (t : ℝ) (h : (x.time : ℝ) ≤ t) :
    curveAt (pa ++ [x]) t = x.val := by
  induction pa with
  | nil => rfl
  | cons a pa ih =>
    have hs' := (List.pairwise_cons.mp hs).2
    have hax : (a.time : ℝ) ≤ x.time := by exact_mod_cast (List.pairwise_cons.mp hs).1 x (by simp)
    cases pa with
    | nil =>
      simp only [List.cons_append, List.nil_append, curveAt]
      rw [if_neg (by linarith), if_neg (by linarith)]
    | cons b pa =>
      have hbx : (b.time : ℝ) ≤ x.time := by exact_mod_cast (List.pairwise_cons.mp hs').1 x (by simp)
      change (if t < a.time then a.val else if t < b.time then curveBetween a b t else curveAt ((b :: pa) ++ [x]) t) = _
      rw [if_neg (by linarith), if_neg (by linarith)]
      exact ih hs'

theorem curveAt_before (a : Node) (n : List Node) (t : ℝ) (h : t < a.time) : curveAt (a :: n) t = a.val := by
  cases n with
  | nil => rfl
  | cons b n => simp [curveAt, h]

theorem findSpan_span (pa : List Node) (x y : Node) (r : List Node) : ∀ (pre : Node) (rest : List Node), pre :: rest = pa ++ x :: y :: r →
    Ordered (pre :: rest) → ∀ t : ℤ, x.time < t → t ≤ y.time → findSpan t pre rest = some (x, y) := by
  induction pa with
  | nil =>
    intro pre rest h hs t h1 h2
    obtain ⟨rfl, rfl⟩ := List.cons.inj h
    rw [findSpan, if_pos h2, if_pos h1.le]
  | cons a pa ih =>
    intro pre rest h hs t h1 h2
    obtain ⟨rfl, rfl⟩ := List.cons.inj h
    have hs' := (List.pairwise_cons.mp hs).2
    cases pa with
    | nil =>
      change findSpan t pre (x :: y :: r) = _
      rw [findSpan, if_neg (by omega)]
      exact ih x (y :: r) rfl hs' t h1 h2
    | cons b pa =>
      have hbx : b.time ≤ x.time := (List.pairwise_cons.mp hs').1 x (by simp)
      change findSpan t pre (b :: (pa ++ x :: y :: r)) = _
      rw [findSpan, if_neg (by omega)]
      exact ih b (pa ++ x :: y :: r) rfl hs' t h1 h2

theorem evaluate_span (pa : List Node) (x y : Node) (r : List Node) (hs : Ordered (pa ++ x :: y :: r)) (t t1 : ℤ) (h1 : x.time < t)
    (h2 : t ≤ y.time) (hl : ((pa ++ x :: y :: r).getLast?.map Node.time) = some t1) (ht1 : t < t1) :
    evaluateNodes (pa ++ x :: y :: r) t = some (curveBetween x y t, slopeBetween x y t) := by
  obtain ⟨front, rest, hfr⟩ : ∃ front rest, pa ++ x :: y :: r = front :: rest := by
    cases pa with
    | nil => exact ⟨x, y :: r, rfl⟩
    | cons a pa => exact ⟨a, _, rfl⟩
  have hfx : front.time ≤ x.time := by
    cases pa with
    | nil => obtain ⟨rfl, -⟩ := List.cons.inj hfr; exact le_rfl
    | cons a pa =>
      obtain ⟨rfl, -⟩ := List.cons.inj hfr
      exact (List.pairwise_cons.mp hs).1 x (by simp)
  have hxy : x.time < y.time := by omega
  rw [hfr] at hs hl ⊢
  rw [List.getLast?_eq_getLast_of_ne_nil (by simp)] at hl
  have hl' : ((front :: rest).getLast (by simp)).time = t1 := by simpa using hl
  simp only [evaluateNodes]
  rw [if_neg (by omega), if_neg (by omega), findSpan_span pa x y r front rest hfr.symm hs t h1 h2]
  simp only
  rw [(between_eval hxy t).1, (between_eval hxy t).2]

theorem evaluate_end (n : List Node) (hne : n ≠ []) (hs : Ordered n) (t : ℤ) (h : (n.getLast hne).time ≤ t) :
    evaluateNodes n t = some ((n.getLast hne).val, 0) := by
  cases n with
  | nil => exact absurd rfl hne
  | cons f rest =>
    have hf : f.time ≤ ((f :: rest).getLast hne).time := by
      rcases List.mem_cons.mp (List.getLast_mem hne) with e | e
      · rw [e]
      · exact (List.pairwise_cons.mp hs).1 _ e
    simp only [evaluateNodes]
    rw [if_neg (by omega), if_pos h]

theorem evaluate_const (c : Node) (t : ℤ) : evaluateNodes [c] t = some (c.val, 0) := by
  simp only [evaluateNodes]
  split_ifs with h1 h2
  · rfl
  · rfl
  · exact absurd (not_lt.mp h1) h2

/-! ### The loop -/

/-- A curve in the middle of the loop: the nodes `iter` are after the time `tau`, from which on the curve has value `v` and slope `d`. -/
def Cursor (t1 : ℤ) (n iter : List Node) (tau : ℤ) (v d : ℝ) : Prop :=
  (∃ c, n = [c] ∧ iter = [] ∧ v = c.val ∧ d = 0) ∨
  (∃ pa x, n = pa ++ x :: iter ∧ Kinked n ∧ (n.getLast?.map Node.time) = some t1 ∧ x.time ≤ tau ∧ (∀ y ∈ iter, tau < y.time) ∧
    match iter with
    | [] => v = x.val
    | y :: _ => v = curveBetween x y tau ∧ d = slopeBetween x y tau)

/-- What the loop reads at time `t`; if it does not advance, or advances only to a node at the same time, it can read once more. -/
def Read (t1 : ℤ) (n iter : List Node) (t : ℤ) (v d : ℝ) : Prop :=
  getValueAtTime n iter t = some (v, d) ∧ ((∀ y ∈ advance iter t, t < y.time) → Cursor t1 n (advance iter t) t v d) ∧
    (∀ y ∈ advance iter t, t ≤ y.time) ∧
    ∃ v2 d2, getValueAtTime n (advance iter t) t = some (v2, d2) ∧ Cursor t1 n (advance (advance iter t) t) t v2 d2

theorem last_le {n : List Node} (hs : Ordered n) {t1 : ℤ} (hl : (n.getLast?.map Node.time) = some t1) : ∀ y ∈ n, y.time ≤ t1 := by
  intro y hy
  have hne : n ≠ [] := List.ne_nil_of_mem hy
  rw [List.getLast?_eq_getLast_of_ne_nil hne] at hl
  simp only [Option.map_some, Option.some.injEq] at hl
  rw [← List.dropLast_append_getLast hne] at hy hs
  rcases List.mem_append.mp hy with h | h
  · have := (List.pairwise_append.mp hs).2.2 _ h _ (List.mem_singleton_self _); omega
  · rw [List.mem_singleton.mp h]; omega

theorem advance_cons_eq {y : Node} {r : List Node} {t : ℤ} (h : y.time = t) : advance (y :: r) t = r := by rw [advance, if_pos h]
theorem advance_cons_ne {y : Node} {r : List Node} {t : ℤ} (h : y.time ≠ t) : advance (y :: r) t = y :: r := by rw [advance, if_neg h]

/-- After a node at time `t`, with what follows it. -/
theorem Cursor.at_node {t1 : ℤ} (pa : List Node) (y : Node) (r : List Node) (hk : Kinked (pa ++ y :: r))
    (hl : ((pa ++ y :: r).getLast?.map Node.time) = some t1) (hr : ∀ z ∈ r, y.time < z.time) :
    Cursor t1 (pa ++ y :: r) r y.time y.val y.deriv := by
  right
  refine ⟨pa, y, rfl, hk, hl, le_rfl, hr, ?_⟩
  cases r with
  | nil => rfl
  | cons z r => exact ⟨(curveBetween_start y z).symm, (slopeBetween_start y z).symm⟩

/-- The loop reads a node; `hmid` is what `EvaluateNodes` gives at a node that is neither the last nor one of two at its time. -/
theorem Read.at_node {t1 : ℤ} (pa : List Node) (y : Node) (r : List Node) (hk : Kinked (pa ++ y :: r))
    (hl : ((pa ++ y :: r).getLast?.map Node.time) = some t1)
    (hmid : (∀ z ∈ r, y.time < z.time) → r ≠ [] → evaluateNodes (pa ++ y :: r) y.time = some (y.val, y.deriv)) :
    Read t1 (pa ++ y :: r) (y :: r) y.time y.val y.deriv := by
  have hord : Ordered (y :: r) := (List.pairwise_append.mp hk.1).2.1
  refine ⟨?_, ?_, ?_, ?_⟩
  · simp [getValueAtTime]
  · rw [advance_cons_eq rfl]
    exact fun h => Cursor.at_node pa y r hk hl h
  · rw [advance_cons_eq rfl]
    exact (List.pairwise_cons.mp hord).1
  · rw [advance_cons_eq rfl]
    cases r with
    | nil =>
      refine ⟨y.val, 0, ?_, Or.inr ⟨pa, y, rfl, hk, hl, le_rfl, by simp [advance], rfl⟩⟩
      simp only [getValueAtTime]
      have := evaluate_end (pa ++ [y]) (by simp) hk.1 y.time (by simp)
      rw [this]; simp
    | cons z r =>
      by_cases hz : z.time = y.time
      · refine ⟨z.val, z.deriv, by simp [getValueAtTime, hz], ?_⟩
        rw [advance_cons_eq hz, ← hz]
        have e : pa ++ y :: z :: r = (pa ++ [y]) ++ z :: r := by simp
        rw [e] at hk hl ⊢
        apply Cursor.at_node _ _ _ hk hl
        intro u hu
        cases r with
        | nil => simp at hu
        | cons w r =>
          have h1 := hk.2 pa y z w r (by simp)
          have h2 : Ordered (w :: r) := (List.pairwise_cons.mp (List.pairwise_cons.mp hord).2).2
          rcases List.mem_cons.mp hu with rfl | hu
          · omega
          · have := (List.pairwise_cons.mp h2).1 u hu; omega
      · have hlt : y.time < z.time := by
          have := (List.pairwise_cons.mp hord).1 z (by simp)
          omega
        have hr : ∀ u ∈ z :: r, y.time < u.time := by
          intro u hu
          rcases List.mem_cons.mp hu with rfl | hu
          · exact hlt
          · have := (List.pairwise_cons.mp (List.pairwise_cons.mp hord).2).1 u hu; omega
        refine ⟨y.val, y.deriv, ?_, ?_⟩
        · simp only [getValueAtTime, if_neg hz]
          exact hmid hr (by simp)
        · rw [advance_cons_ne hz]
          exact Cursor.at_node pa y (z :: r) hk hl hr

/-- One step: between `tau` and the next time the curve is a polynomial, whose values and slopes are those that the loop reads. -/
theorem Cursor.step {t1 : ℤ} {n iter : List Node} {tau t : ℤ} {v d : ℝ} (h : Cursor t1 n iter tau v d) (ht : tau < t) (ht1 : t ≤ t1)
    (hi : ∀ y ∈ iter.head?, t ≤ y.time) : ∃ p : Poly,
      (∀ s : ℝ, (tau : ℝ) ≤ s → s < t → curveAt n s = p.eval s) ∧ v = p.eval tau ∧ d = p.slope tau ∧
      Read t1 n iter t (p.eval t) (p.slope t) := by
  rcases h with ⟨c, rfl, rfl, rfl, rfl⟩ | ⟨pa, x, rfl, hk, hl, hx, hy, hv⟩
  · have hc : Cursor t1 [c] [] t c.val 0 := Or.inl ⟨c, rfl, rfl, rfl, rfl⟩
    have hg : getValueAtTime [c] [] t = some (c.val, 0) := by simp only [getValueAtTime]; exact evaluate_const c t
    refine ⟨⟨0, 0, 0, c.val⟩, ?_, ?_, ?_, ?_⟩
    · intro s _ _; simp [curveAt, Poly.eval]
    · simp [Poly.eval]
    · simp [Poly.slope]
    · rw [show Poly.eval ⟨0, 0, 0, c.val⟩ t = c.val by simp [Poly.eval], show Poly.slope ⟨0, 0, 0, c.val⟩ t = 0 by simp [Poly.slope]]
      exact ⟨hg, fun _ => hc, by simp [advance], c.val, 0, hg, hc⟩
  · cases iter with
    | nil =>
      exfalso
      have hlast : x.time = t1 := by simpa using hl
      omega
    | cons y r =>
      obtain ⟨hv, hd⟩ := hv
      have hxy : x.time < y.time := by have := hy y (by simp); omega
      obtain ⟨p, p1, p2⟩ := between_poly x y hxy
      have hty : t ≤ y.time := hi y (by simp)
      have htauR : (x.time : ℝ) ≤ tau := by exact_mod_cast hx
      have htyR : (t : ℝ) ≤ y.time := by exact_mod_cast hty
      refine ⟨p, ?_, by rw [hv, p1], by rw [hd, p2], ?_⟩
      · intro s s1 s2
        rw [← p1]
        exact curveAt_span pa x y r hk.1 s (by linarith) (by linarith)
      · rw [← p1, ← p2]
        by_cases he : y.time = t
        · subst he
          rw [curveBetween_end x y hxy, slopeBetween_end x y hxy]
          have e : pa ++ x :: y :: r = (pa ++ [x]) ++ y :: r := by simp
          have hmid : (∀ z ∈ r, y.time < z.time) → r ≠ [] → evaluateNodes (pa ++ x :: y :: r) y.time = some (y.val, y.deriv) := by
            intro h1 h2
            have ht1' : y.time < t1 := by
              obtain ⟨z, r, rfl⟩ := List.exists_cons_of_ne_nil h2
              have := h1 z (by simp)
              have := last_le hk.1 hl z (by simp)
              omega
            rw [evaluate_span pa x y r hk.1 y.time t1 hxy le_rfl hl ht1', curveBetween_end x y hxy, slopeBetween_end x y hxy]
          rw [e] at hk hl hmid ⊢
          exact Read.at_node _ y r hk hl hmid
        · have hlt : t < y.time := lt_of_le_of_ne hty (Ne.symm he)
          have hg : getValueAtTime (pa ++ x :: y :: r) (y :: r) t = some (curveBetween x y t, slopeBetween x y t) := by
            simp only [getValueAtTime, if_neg he]
            have := last_le hk.1 hl y (by simp)
            exact evaluate_span pa x y r hk.1 t t1 (by omega) hty hl (by omega)
          have hr : ∀ z ∈ y :: r, t < z.time := by
            intro z hz
            rcases List.mem_cons.mp hz with rfl | hz
            · exact hlt
            · have := (List.pairwise_cons.mp (List.pairwise_cons.mp (List.pairwise_append.mp hk.1).2.1).2).1 z hz
              omega
          have hc : Cursor t1 (pa ++ x :: y :: r) (y :: r) t (curveBetween x y t) (slopeBetween x y t) :=
            Or.inr ⟨pa, x, rfl, hk, hl, by omega, hr, rfl, rfl⟩
          unfold Read
          rw [advance_cons_ne he, advance_cons_ne he]
          exact ⟨hg, fun _ => hc, fun z hz => (hr z hz).le, _, _, hg, hc⟩

/-- At the end, the curve keeps its value. -/
theorem Cursor.after {t1 : ℤ} {n : List Node} {tau : ℤ} {v d : ℝ} (h : Cursor t1 n [] tau v d) (s : ℝ) (hs : (tau : ℝ) ≤ s) :
    curveAt n s = v := by
  rcases h with ⟨c, rfl, -, rfl, -⟩ | ⟨pa, x, rfl, hst, -, hx, -, hv⟩
  · rfl
  · rw [hv]
    refine curveAt_after pa x hst.1 s ?_
    have : (x.time : ℝ) ≤ tau := by exact_mod_cast hx
    linarith

theorem Cursor.bound {t1 : ℤ} {n iter : List Node} {tau : ℤ} {v d : ℝ} (h : Cursor t1 n iter tau v d) : ∀ y ∈ iter, tau < y.time ∧ y.time ≤ t1 := by
  rcases h with ⟨c, rfl, rfl, -, -⟩ | ⟨pa, x, rfl, hst, hl, hx, hy, -⟩
  · simp
  · intro y hym
    exact ⟨hy y hym, last_le hst.1 hl y (by simp [hym])⟩

theorem Poly.sum_unique (p q : Poly) {u v : ℤ} (h : u < v) (t : ℝ) :
    curveBetween ⟨u, p.eval u + q.eval u, p.slope u + q.slope u⟩ ⟨v, p.eval v + q.eval v, p.slope v + q.slope v⟩ t = p.eval t + q.eval t := by
  have huv : (u : ℝ) ≠ v := by exact_mod_cast h.ne
  have := hermite_unique (p.c3 + q.c3) (p.c2 + q.c2) (p.c1 + q.c1) (p.c0 + q.c0) huv t
  unfold curveBetween Poly.eval Poly.slope
  simp only
  rw [show p.c3 * t ^ 3 + p.c2 * t ^ 2 + p.c1 * t + p.c0 + (q.c3 * t ^ 3 + q.c2 * t ^ 2 + q.c1 * t + q.c0) =
    (p.c3 + q.c3) * t ^ 3 + (p.c2 + q.c2) * t ^ 2 + (p.c1 + q.c1) * t + (p.c0 + q.c0) by ring, ← this]
  congr 1 <;> ring

theorem sumLoop_none {ia ib : List Node} (na nb : List Node) (h : nextTime ia ib = none) : sumLoop na nb ia ib = some [] := by
  rw [sumLoop]
  split
  · rfl
  · rename_i t ht; rw [h] at ht; cases ht

theorem sumLoop_some {na nb ia ib : List Node} {t : ℤ} {a b : ℝ × ℝ} {rest : List Node} (h : nextTime ia ib = some t)
    (h1 : getValueAtTime na ia t = some a) (h2 : getValueAtTime nb ib t = some b)
    (h3 : sumLoop na nb (advance ia t) (advance ib t) = some rest) :
    sumLoop na nb ia ib = some (⟨t, a.1 + b.1, a.2 + b.2⟩ :: rest) := by
  rw [sumLoop]
  split
  · rename_i ht; rw [h] at ht; cases ht
  · rename_i t' ht
    rw [h] at ht
    cases ht
    simp only [h1, h2, h3]

theorem nextTime_spec {ia ib : List Node} {t : ℤ} (h : nextTime ia ib = some t) :
    (∀ y ∈ ia.head?, t ≤ y.time) ∧ (∀ y ∈ ib.head?, t ≤ y.time) ∧ ((∃ y ∈ ia, y.time = t) ∨ ∃ y ∈ ib, y.time = t) := by
  rcases ia with _ | ⟨a, ia⟩ <;> rcases ib with _ | ⟨b, ib⟩ <;> simp only [nextTime, Option.some.injEq, reduceCtorEq] at h
  · subst h; exact ⟨by simp, by simp, Or.inr ⟨b, by simp, rfl⟩⟩
  · subst h; exact ⟨by simp, by simp, Or.inl ⟨a, by simp, rfl⟩⟩
  · subst h
    refine ⟨by simp, by simp, ?_⟩
    rcases min_choice a.time b.time with h | h
    · exact Or.inl ⟨a, by simp, h.symm⟩
    · exact Or.inr ⟨b, by simp, h.symm⟩

theorem mem_advance {iter : List Node} {t : ℤ} {y : Node} (h : y ∈ iter) : y ∈ advance iter t ∨ y.time = t := by
  cases iter with
  | nil => simp at h
  | cons n iter =>
    unfold advance
    simp only
    split_ifs with he
    · rcases List.mem_cons.mp h with rfl | h
      · exact Or.inr he
      · exact Or.inl h
    · exact Or.inl h

theorem Kinked.cons {a : Node} {n : List Node} (h : Kinked n) (ha : ∀ y ∈ n, a.time < y.time) : Kinked (a :: n) := by
  refine ⟨List.pairwise_cons.mpr ⟨fun y hy => (ha y hy).le, h.1⟩, fun pa x y z r e => ?_⟩
  cases pa with
  | nil =>
    obtain ⟨rfl, rfl⟩ := List.cons.inj e
    exact ha z (by simp)
  | cons b pa =>
    exact h.2 pa x y z r (List.cons.inj e).2

theorem Kinked.cons_cons {a b : Node} {n : List Node} (h : Kinked (b :: n)) (hb : ∀ y ∈ n, b.time < y.time) (hab : a.time = b.time) :
    Kinked (a :: b :: n) := by
  refine ⟨List.pairwise_cons.mpr ⟨fun y hy => ?_, h.1⟩, fun pa x y z r e => ?_⟩
  · rcases List.mem_cons.mp hy with rfl | hy
    · exact hab.le
    · exact hab.le.trans (hb y hy).le
  · cases pa with
    | nil =>
      obtain ⟨e1, e2⟩ := List.cons.inj e
      have := hb z (by rw [(List.cons.inj e2).2]; simp)
      rw [← e1]
      omega
    | cons c pa =>
      exact h.2 pa x y z r (List.cons.inj e).2

/-- What the loop makes of two curves from time `tau` on. -/
def Sums (t1 : ℤ) (na nb : List Node) (tau : ℤ) (v d : ℝ) (rest : List Node) : Prop :=
  Kinked (⟨tau, v, d⟩ :: rest) ∧ (∀ t : ℝ, (tau : ℝ) ≤ t → curveAt (⟨tau, v, d⟩ :: rest) t = curveAt na t + curveAt nb t) ∧
    ((⟨tau, v, d⟩ :: rest : List Node).getLast?.map Node.time) = some t1

/-- A node of one of the curves is at the end time, or the end time is reached. -/
def Ends (t1 : ℤ) (ia ib : List Node) (tau : ℤ) : Prop := (∃ y ∈ ia, y.time = t1) ∨ (∃ y ∈ ib, y.time = t1) ∨ tau = t1

theorem Ends.advance {t1 : ℤ} {ia ib : List Node} {tau t : ℤ} (h : Ends t1 ia ib tau) (hn : tau = t1 → t = t1) :
    Ends t1 (advance ia t) (advance ib t) t := by
  rcases h with ⟨y, hy, rfl⟩ | ⟨y, hy, rfl⟩ | h
  · rcases mem_advance (t := t) hy with h' | h'
    · exact Or.inl ⟨y, h', rfl⟩
    · exact Or.inr (Or.inr h'.symm)
  · rcases mem_advance (t := t) hy with h' | h'
    · exact Or.inr (Or.inl ⟨y, h', rfl⟩)
    · exact Or.inr (Or.inr h'.symm)
  · exact Or.inr (Or.inr (hn h))

/-- The loop from the reading of time `t` on, given what it does afterwards. -/
theorem read_both {t1 : ℤ} {na nb ia ib : List Node} {t : ℤ} {va da vb db : ℝ} (h : nextTime ia ib = some t)
    (ra : Read t1 na ia t va da) (rb : Read t1 nb ib t vb db) (hend : Ends t1 (advance ia t) (advance ib t) t)
    (ih : ∀ ja jb : List Node, ja.length + jb.length < ia.length + ib.length → ∀ (va da vb db : ℝ), Cursor t1 na ja t va da →
      Cursor t1 nb jb t vb db → Ends t1 ja jb t → ∃ rest, sumLoop na nb ja jb = some rest ∧ Sums t1 na nb t (va + vb) (da + db) rest ∧
        ∀ y ∈ rest, t < y.time) :
    ∃ rest, sumLoop na nb ia ib = some (⟨t, va + vb, da + db⟩ :: rest) ∧ Sums t1 na nb t (va + vb) (da + db) rest ∧
      (∀ y ∈ rest, t ≤ y.time) ∧ (advance ia t ≠ [] ∨ advance ib t ≠ [] → rest ≠ []) := by
  have hlen := nextTime_decreases h
  obtain ⟨a1, a2, a3, v2, d2, a4, a5⟩ := ra
  obtain ⟨b1, b2, b3, w2, e2, b4, b5⟩ := rb
  by_cases hc : (∀ y ∈ advance ia t, t < y.time) ∧ (∀ y ∈ advance ib t, t < y.time)
  · obtain ⟨rest, r1, r2, r3⟩ := ih _ _ hlen _ _ _ _ (a2 hc.1) (b2 hc.2) hend
    refine ⟨rest, sumLoop_some h a1 b1 r1, r2, fun y hy => (r3 y hy).le, fun hne hr => ?_⟩
    subst hr
    cases hn : nextTime (advance ia t) (advance ib t) with
    | none =>
      rcases hA : advance ia t with _ | ⟨a, ja⟩ <;> rcases hB : advance ib t with _ | ⟨b, jb⟩ <;> rw [hA, hB] at hn hne <;> simp [nextTime] at hn hne
    | some u =>
      rw [sumLoop] at r1
      split at r1
      · rename_i hn'; rw [hn] at hn'; cases hn'
      · split at r1 <;> simp at r1
  · -- a node is left at the same time
    have hn : nextTime (advance ia t) (advance ib t) = some t := by
      have hor : ∀ (n iter : List Node) (v d v2 d2 : ℝ), (∀ y ∈ iter, t ≤ y.time) → Cursor t1 n (advance iter t) t v2 d2 →
          ¬ (∀ y ∈ iter, t < y.time) → ∃ y r, iter = y :: r ∧ y.time = t := by
        intro n iter v d v2 d2 h1 h2 h3
        cases iter with
        | nil => simp at h3
        | cons y r =>
          refine ⟨y, r, rfl, ?_⟩
          by_contra hy
          apply h3
          intro z hz
          rw [advance_cons_ne hy] at h2
          exact (h2.bound z hz).1
      have hge : ∀ iter : List Node, (∀ y ∈ iter, t ≤ y.time) → ∀ y r, iter = y :: r → t ≤ y.time := fun iter h y r e => h y (by rw [e]; simp)
      by_cases hA : ∀ y ∈ advance ia t, t < y.time
      · obtain ⟨y, r, e, hy⟩ := hor nb _ 0 0 _ _ b3 b5 (fun hB => hc ⟨hA, hB⟩)
        rw [e]
        rcases hA' : advance ia t with _ | ⟨x, ja⟩
        · simp [nextTime, hy]
        · have := hge _ a3 x ja hA'
          simp only [nextTime]; rw [hy, min_eq_right this]
      · obtain ⟨y, r, e, hy⟩ := hor na _ 0 0 _ _ a3 a5 hA
        rw [e]
        rcases hB' : advance ib t with _ | ⟨x, jb⟩
        · simp [nextTime, hy]
        · have := hge _ b3 x jb hB'
          simp only [nextTime]; rw [hy, min_eq_left this]
    have hlen2 := nextTime_decreases hn
    obtain ⟨rest, r1, r2, r3⟩ := ih _ _ (by omega) _ _ _ _ a5 b5 (hend.advance fun h => h)
    obtain ⟨q1, q2, q3⟩ := r2
    refine ⟨⟨t, v2 + w2, d2 + e2⟩ :: rest, sumLoop_some h a1 b1 (sumLoop_some hn a4 b4 r1), ⟨?_, ?_, ?_⟩, ?_, by simp⟩
    · exact q1.cons_cons r3 rfl
    · intro s hs
      rw [curveAt, if_neg (not_lt.mpr hs), if_neg (not_lt.mpr hs)]
      exact q2 s hs
    · rw [List.getLast?_cons_cons]; exact q3
    · intro y hy
      rcases List.mem_cons.mp hy with rfl | hy
      · exact le_rfl
      · exact (r3 y hy).le

/-- The invariant of the loop. -/
theorem sumLoop_spec (t1 : ℤ) (na nb : List Node) : ∀ (N : ℕ) (ia ib : List Node), ia.length + ib.length = N →
    ∀ (tau : ℤ) (va da vb db : ℝ), Cursor t1 na ia tau va da → Cursor t1 nb ib tau vb db → Ends t1 ia ib tau →
    ∃ rest, sumLoop na nb ia ib = some rest ∧ Sums t1 na nb tau (va + vb) (da + db) rest ∧ ∀ y ∈ rest, tau < y.time := by
  intro N
  induction N using Nat.strong_induction_on with
  | _ N ih =>
  intro ia ib hN tau va da vb db ha hb hend
  cases h : nextTime ia ib with
  | none =>
    have h1 : ia = [] ∧ ib = [] := by
      rcases ia with _ | ⟨a, ia⟩ <;> rcases ib with _ | ⟨b, ib⟩ <;> simp_all [nextTime]
    obtain ⟨rfl, rfl⟩ := h1
    have htau : tau = t1 := by
      rcases hend with ⟨y, hy, -⟩ | ⟨y, hy, -⟩ | h
      · simp at hy
      · simp at hy
      · exact h
    refine ⟨[], sumLoop_none na nb h, ⟨⟨by simp, ?_⟩, fun t ht => ?_, by simp [htau]⟩, by simp⟩
    · intro pa x y z r e
      have := congrArg List.length e
      simp at this
      omega
    · rw [ha.after t ht, hb.after t ht]; rfl
  | some t =>
    obtain ⟨n1, n2, n3⟩ := nextTime_spec h
    have ht : tau < t ∧ t ≤ t1 := by
      rcases n3 with ⟨y, hy, rfl⟩ | ⟨y, hy, rfl⟩
      · exact ha.bound y hy
      · exact hb.bound y hy
    obtain ⟨p, p1, p2, p3, p4⟩ := ha.step ht.1 ht.2 n1
    obtain ⟨q, q1, q2, q3, q4⟩ := hb.step ht.1 ht.2 n2
    obtain ⟨rest, r1, ⟨s1, s2, s3⟩, r3, -⟩ := read_both h p4 q4 (hend.advance fun he => by omega) (fun ja jb hlt va da vb db ca cb ce =>
      ih _ (by omega) ja jb rfl t va da vb db ca cb ce)
    refine ⟨_, r1, ⟨?_, ?_, ?_⟩, ?_⟩
    · refine s1.cons fun y hy => ?_
      rcases List.mem_cons.mp hy with rfl | hy
      · exact ht.1
      · have := r3 y hy
        simp only at this ⊢
        omega
    · intro s hs
      rw [curveAt]
      rw [if_neg (not_lt.mpr hs)]
      split_ifs with hlt
      · rw [p2, p3, q2, q3, Poly.sum_unique p q ht.1, p1 s hs hlt, q1 s hs hlt]
      · exact s2 s (not_lt.mp hlt)
    · rw [List.getLast?_cons_cons]; exact s3
    · intro y hy
      rcases List.mem_cons.mp hy with rfl | hy
      · exact ht.1
      · have := r3 y hy; omega

/-- What the loop reads at the first time, for a constant channel or one that starts there. -/
theorem Spans.first {t0 t1 : ℤ} {n : List Node} (h : Spans t0 t1 n) : ∃ v d,
    Read t1 n (if n.length = 1 then [] else n) t0 v d ∧ (∀ t : ℝ, t < t0 → curveAt n t = v) ∧
      (n.length ≠ 1 → ∃ y ∈ advance n t0, y.time = t1) := by
  rcases h with h | ⟨h1, h2, h3, h4⟩
  · obtain ⟨c, rfl⟩ := List.length_eq_one_iff.mp h
    have hc : Cursor t1 [c] [] t0 c.val 0 := Or.inl ⟨c, rfl, rfl, rfl, rfl⟩
    have hg : getValueAtTime [c] [] t0 = some (c.val, 0) := by simp only [getValueAtTime]; exact evaluate_const c t0
    refine ⟨c.val, 0, ?_, fun _ _ => rfl, fun h' => absurd rfl h'⟩
    rw [if_pos h]
    exact ⟨hg, fun _ => hc, by simp [advance], c.val, 0, hg, hc⟩
  · match n, h1, h2, h3, h4 with
    | a :: b :: r, h1, h2, h3, h4 =>
      have ha : a.time = t0 := by simpa using h3
      subst ha
      rw [if_neg (by simp)]
      refine ⟨a.val, a.deriv, ?_, ?_, ?_⟩
      · apply Read.at_node [] a (b :: r) h2 h4
        intro hz _
        have hab : a.time < b.time := hz b (by simp)
        have hlast : ((a :: b :: r).getLast (by simp)).time = t1 := by
          rw [List.getLast?_eq_getLast_of_ne_nil (by simp)] at h4
          simpa using h4
        have hbt : b.time ≤ t1 := last_le h2.1 h4 b (by simp)
        change evaluateNodes (a :: b :: r) a.time = _
        simp only [evaluateNodes]
        rw [if_neg (lt_irrefl _), if_neg (by omega), findSpan, if_pos hab.le, if_pos le_rfl]
        simp only
        rw [(between_eval hab a.time).1, (between_eval hab a.time).2, curveBetween_start, slopeBetween_start]
      · intro t ht; exact curveAt_before a _ t ht
      · intro _
        rw [advance_cons_eq rfl]
        refine ⟨(b :: r).getLast (by simp), List.getLast_mem _, ?_⟩
        rw [List.getLast?_cons_cons, List.getLast?_eq_getLast_of_ne_nil (by simp)] at h4
        simpa using h4

/-- C52: if two channels are each constant, or cover the same time with nodes in order, at most two at a time, then `SumChannels` gives a channel of the
same kind that is their sum at every time, between nodes as well as at them. -/
theorem C52_sum {t0 t1 : ℤ} {a b : List Node} (ha : Spans t0 t1 a) (hb : Spans t0 t1 b) :
    ∃ s, sumNodes a b = some s ∧ Spans t0 t1 s ∧ (s.length = 1 ↔ a.length = 1 ∧ b.length = 1) ∧
      ∀ t : ℝ, curveAt s t = curveAt a t + curveAt b t := by
  by_cases hc : a.length = 1 ∧ b.length = 1
  · obtain ⟨x, rfl⟩ := List.length_eq_one_iff.mp hc.1
    obtain ⟨y, rfl⟩ := List.length_eq_one_iff.mp hc.2
    refine ⟨[⟨0, x.val + y.val, 0⟩], ?_, Or.inl rfl, by simp, fun t => rfl⟩
    simp only [sumNodes, List.length_singleton, if_true]
    rw [sumLoop_none _ _ rfl]
    rfl
  · obtain ⟨va, da, a1, a3, a4⟩ := ha.first
    obtain ⟨vb, db, b1, b3, b4⟩ := hb.first
    set ia := (if a.length = 1 then [] else a) with hia
    set ib := (if b.length = 1 then [] else b) with hib
    have hhead : ∀ (n : List Node), Spans t0 t1 n → n.length ≠ 1 → ∃ x r, n = x :: r ∧ x.time = t0 := by
      intro n h hn
      rcases h with h | ⟨h1, h2, h3, h4⟩
      · exact absurd h hn
      · match n, h3 with
        | x :: r, h3 => exact ⟨x, r, rfl, by simpa using h3⟩
    have hnext : nextTime ia ib = some t0 := by
      by_cases h1 : a.length = 1
      · have h2 : b.length ≠ 1 := fun h2 => hc ⟨h1, h2⟩
        obtain ⟨y, r, e, ht⟩ := hhead b hb h2
        rw [hia, hib, if_pos h1, if_neg h2, e]; simp [nextTime, ht]
      · obtain ⟨x, r, e, ht⟩ := hhead a ha h1
        by_cases h2 : b.length = 1
        · rw [hia, hib, if_neg h1, if_pos h2, e]; simp [nextTime, ht]
        · obtain ⟨y, r', e', ht'⟩ := hhead b hb h2
          rw [hia, hib, if_neg h1, if_neg h2, e, e']; simp [nextTime, ht, ht']
    have hends : Ends t1 (advance ia t0) (advance ib t0) t0 ∧ (advance ia t0 ≠ [] ∨ advance ib t0 ≠ []) := by
      by_cases h1 : a.length = 1
      · have h2 : b.length ≠ 1 := fun h2 => hc ⟨h1, h2⟩
        obtain ⟨y, hy, hyt⟩ := b4 h2
        have hy' : y ∈ advance ib t0 := by rw [hib, if_neg h2]; exact hy
        exact ⟨Or.inr (Or.inl ⟨y, hy', hyt⟩), Or.inr (List.ne_nil_of_mem hy')⟩
      · obtain ⟨y, hy, hyt⟩ := a4 h1
        have hy' : y ∈ advance ia t0 := by rw [hia, if_neg h1]; exact hy
        exact ⟨Or.inl ⟨y, hy', hyt⟩, Or.inl (List.ne_nil_of_mem hy')⟩
    obtain ⟨rest, r1, ⟨s1, s2, s3⟩, -, r4⟩ := read_both hnext a1 b1 hends.1 (fun ja jb _ va da vb db ca cb ce =>
      sumLoop_spec t1 a b _ ja jb rfl t0 va da vb db ca cb ce)
    have hlen : 2 ≤ (⟨t0, va + vb, da + db⟩ :: rest : List Node).length := by
      have := List.length_pos_iff.mpr (r4 hends.2)
      simp only [List.length_cons]; omega
    have hsum : sumNodes a b = some (⟨t0, va + vb, da + db⟩ :: rest) := by
      unfold sumNodes
      simp only
      rw [← hia, ← hib, r1]
      simp only
      rcases a with _ | ⟨x, _ | ⟨x', a⟩⟩ <;> rcases b with _ | ⟨y, _ | ⟨y', b⟩⟩ <;> first | rfl | (exfalso; exact hc ⟨rfl, rfl⟩)
    refine ⟨_, hsum, Or.inr ⟨hlen, s1, rfl, s3⟩, ⟨fun h => by omega, fun h => absurd h hc⟩, fun t => ?_⟩
    rcases lt_or_ge t (t0 : ℝ) with h | h
    · rw [curveAt_before _ _ _ h, a3 t h, b3 t h]
    · exact s2 t h

/-- Two curves with different nodes over the same time, one of them with a corner. -/
example : Spans 0 20 [⟨0, 0, 1⟩, ⟨10, 5, 0⟩, ⟨10, 5, 2⟩, ⟨20, 0, -1⟩] ∧ Spans 0 20 [⟨0, 1, 0⟩, ⟨20, 7, 2⟩] := by
  constructor <;> (right; simp [kinked_pair, kinked_cons])

/-- C52: if one of two summed curves ends before the other with a slope that is not zero, the sum goes wrong after its end.  Here the first
curve rises to 10 in ten ticks and stays there, and the second is zero, but the sum is 11.25 after fifteen ticks. -/
theorem C52_sum_of_unequal_spans_fails : ∃ a b s, sumNodes a b = some s ∧ curveAt a 15 = 10 ∧ curveAt b 15 = 0 ∧ curveAt s 15 = 1125 / 100 := by
  refine ⟨[⟨0, 0, 1⟩, ⟨10, 10, 1⟩], [⟨0, 0, 0⟩, ⟨20, 0, 0⟩], [⟨0, 0, 1⟩, ⟨10, 10, 1⟩, ⟨20, 10, 0⟩], ?_, ?_, ?_, ?_⟩
  · simp only [sumNodes, List.length_cons, List.length_nil]
    rw [if_neg (by omega), if_neg (by omega)]
    rw [sumLoop_some (t := 0) (a := (0, 1)) (b := (0, 0)) (rest := [⟨10, 10, 1⟩, ⟨20, 10, 0⟩]) (by simp [nextTime])
      (by simp [getValueAtTime]) (by simp [getValueAtTime])]
    · simp
    · rw [sumLoop_some (t := 10) (a := (10, 1)) (b := (0, 0)) (rest := [⟨20, 10, 0⟩])]
      · simp
      · simp [nextTime, advance]
      · simp [getValueAtTime, advance]
      · norm_num [getValueAtTime, advance, evaluateNodes, findSpan, between, Cubic.init, Cubic.eval, Cubic.deriv]
      · rw [sumLoop_some (t := 20) (a := (10, 0)) (b := (0, 0)) (rest := [])]
        · simp
        · simp [nextTime, advance]
        · simp [getValueAtTime, advance, evaluateNodes]
        · simp [getValueAtTime, advance]
        · exact sumLoop_none _ _ (by simp [nextTime, advance])
  · norm_num [curveAt]
  · norm_num [curveAt, curveBetween, hermite]
  · norm_num [curveAt, curveBetween, hermite]

end
end Motive.Pipeline
