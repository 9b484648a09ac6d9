import Verif.Pipeline.SumProps
/-!
# C68: the times of an imported animation

Model of `ShiftTime`, `ExtendChannelsToTime`, `MinAnimatedTime` and `MaxAnimatedTime` (src/anim_pipeline/anim_data.cpp), and of their use in
`RunAnimPipeline` (src/anim_pipeline/anim_pipeline.cpp).

Idealisation: `float` is `ℝ`.  Times are `ℤ`; an overflow of `int` is `none`.
-/

namespace Motive.Pipeline
open Motive.Curve Motive.Matrix4

noncomputable section
open Classical

/-! ### Model -/

/-- `AnimData::Bone` (anim_data.h:122-137). -/
@[ext] structure Bone where
  name : String
  parent : ℤ
  channels : List Channel

/-- `std::numeric_limits<FlatTime>::min()` and `max()`; `FlatTime` is `int` (anim_data.h:21). -/
def intMin : ℤ := -2147483648
def intMax : ℤ := 2147483647

/-- The result of an operation on `int`s. -/
def inInt (x : ℤ) : Option ℤ := if intMin ≤ x ∧ x ≤ intMax then some x else none

/-- The body of the loops of `ShiftTime` (anim_data.cpp:247). -/
def Node.shift (off : ℤ) (n : Node) : Option Node := (inInt (n.time + off)).map fun t => { n with time := t }
/-- The loop over nodes of `ShiftTime` (anim_data.cpp:246-248). -/
def Channel.shift (off : ℤ) (c : Channel) : Option Channel := (c.nodes.mapM (Node.shift off)).map fun ns => { c with nodes := ns }
/-- The loop over channels of `ShiftTime` (anim_data.cpp:245-249). -/
def Bone.shift (off : ℤ) (b : Bone) : Option Bone := (b.channels.mapM (Channel.shift off)).map fun cs => { b with channels := cs }
/-- `ShiftTime` (anim_data.cpp:239-251). -/
def shiftTime (off : ℤ) (bones : List Bone) : Option (List Bone) := if off = 0 then some bones else bones.mapM (Bone.shift off)

/-- The body of `ExtendChannelsToTime` (anim_data.cpp:257-273). -/
def extendNodes (stop : ℤ) (n : List Node) : List Node :=
  if n.length ≤ 1 then n
  else match n.getLast? with
    | none => n
    | some back =>
      if stop ≤ back.time then n
      else (if back.deriv ≠ 0 then n ++ [⟨back.time, back.val, 0⟩] else n) ++ [⟨stop, back.val, 0⟩]
/-- `ExtendChannelsToTime` (anim_data.cpp:253-276). -/
def extendChannels (stop : ℤ) (bones : List Bone) : List Bone :=
  bones.map fun b => { b with channels := b.channels.map fun c => { c with nodes := extendNodes stop c.nodes } }

/-- The body of the loops of `MaxAnimatedTime` (anim_data.cpp:315-318). -/
def laterEnd (m : ℤ) (c : Channel) : ℤ :=
  if 1 < c.nodes.length then (match c.nodes.getLast? with | some n => max m n.time | none => m) else m
/-- `MaxAnimatedTime` (anim_data.cpp:311-322). -/
def maxAnimatedTime (bones : List Bone) : ℤ :=
  let m := bones.foldl (fun m b => b.channels.foldl laterEnd m) intMin
  if m = intMin then 0 else m

/-- The body of the loops of `MinAnimatedTime` (anim_data.cpp:328-331). -/
def earlierStart (m : ℤ) (c : Channel) : ℤ :=
  if 1 < c.nodes.length then (match c.nodes.head? with | some n => min m n.time | none => m) else m
/-- `MinAnimatedTime` (anim_data.cpp:324-335). -/
def minAnimatedTime (bones : List Bone) : ℤ :=
  let m := bones.foldl (fun m b => b.channels.foldl earlierStart m) intMax
  if m = intMax then 0 else m

/-- What `RunAnimPipeline` does to the times of the animation (anim_pipeline.cpp:598-606). -/
def adjustTimes (preserveStart staggerEnd : Bool) (bones : List Bone) : Option (List Bone) :=
  let shifted := if preserveStart then some bones else
    match inInt (-(minAnimatedTime bones)) with
    | none => none
    | some off => shiftTime off bones
  match shifted with
  | none => none
  | some bs => some (if staggerEnd then bs else extendChannels (maxAnimatedTime bs) bs)

/-! ### Specification -/

/-- A channel that is not constant. -/
def Channel.Animated (c : Channel) : Prop := 2 ≤ c.nodes.length
/-- The times of the first and of the last node. -/
def Channel.first (c : Channel) : Option ℤ := c.nodes.head?.map Node.time
def Channel.last (c : Channel) : Option ℤ := c.nodes.getLast?.map Node.time

/-- The times at which channels that are not constant start. -/
def starts (bones : List Bone) : Set ℤ := {t | ∃ b ∈ bones, ∃ c ∈ b.channels, c.Animated ∧ c.first = some t}
/-- The times at which channels that are not constant end. -/
def ends (bones : List Bone) : Set ℤ := {t | ∃ b ∈ bones, ∃ c ∈ b.channels, c.Animated ∧ c.last = some t}

/-- The bone `b'` has the name and parent of `b`, and channels that are related to those of `b` by `R`. -/
def Bone.Rel (R : Channel → Channel → Prop) (b b' : Bone) : Prop :=
  b'.name = b.name ∧ b'.parent = b.parent ∧ List.Forall₂ R b.channels b'.channels

/-! ### Lemmas -/

theorem curveAt_append {x : Node} {ext : List Node} (h : ∀ t, curveAt (x :: ext) t = x.val) (pa : List Node) (t : ℝ) :
    curveAt (pa ++ x :: ext) t = curveAt (pa ++ [x]) t := by
  induction pa with
  | nil => exact h t
  | cons a pa ih =>
    cases pa with
    | nil =>
      change (if t < a.time then a.val else if t < x.time then curveBetween a x t else curveAt ([] ++ x :: ext) t) =
        (if t < a.time then a.val else if t < x.time then curveBetween a x t else curveAt ([] ++ [x]) t)
      rw [ih]
    | cons b pa =>
      change (if t < a.time then a.val else if t < b.time then curveBetween a b t else curveAt ((b :: pa) ++ x :: ext) t) =
        (if t < a.time then a.val else if t < b.time then curveBetween a b t else curveAt ((b :: pa) ++ [x]) t)
      rw [ih]

theorem curveBetween_flat (a b : Node) (h : b.val = a.val) (ha : a.deriv = 0) (hb : b.deriv = 0) (t : ℝ) : curveBetween a b t = a.val := by
  unfold curveBetween hermite
  rw [h, ha, hb]
  ring

/-- Extending a curve does not change it. -/
theorem extendNodes_spec (stop : ℤ) (n : List Node) : (∀ t, curveAt (extendNodes stop n) t = curveAt n t) ∧
    (extendNodes stop n).head? = n.head? ∧ (n.length ≤ 1 → extendNodes stop n = n) ∧
    (2 ≤ n.length → 2 ≤ (extendNodes stop n).length ∧ ∀ e, n.getLast?.map Node.time = some e →
      (extendNodes stop n).getLast?.map Node.time = some (max e stop)) := by
  unfold extendNodes
  by_cases hl : n.length ≤ 1
  · rw [if_pos hl]
    exact ⟨fun _ => rfl, rfl, fun _ => rfl, fun h => by omega⟩
  rw [if_neg hl]
  have hne : n ≠ [] := by rintro rfl; simp at hl
  obtain ⟨pa, back, rfl⟩ : ∃ pa back, n = pa ++ [back] := ⟨n.dropLast, n.getLast hne, (List.dropLast_append_getLast hne).symm⟩
  rw [List.getLast?_append]
  simp only [List.getLast?_singleton, Option.some_or]
  obtain ⟨a, pa, rfl⟩ : ∃ a pa', pa = a :: pa' := by
    cases pa with
    | nil => simp at hl
    | cons a pa => exact ⟨a, pa, rfl⟩
  split_ifs with h1 h2
  · refine ⟨fun _ => rfl, rfl, fun _ => rfl, fun h => ⟨h, fun e he => ?_⟩⟩
    simp only [Option.map_some, Option.some.injEq] at he
    rw [List.getLast?_append, ← he]
    simp [h1]
  · refine ⟨fun t => ?_, by simp, fun h => absurd h hl, fun h => ⟨by simp, fun e he => ?_⟩⟩
    · rw [List.append_assoc, List.append_assoc]
      refine curveAt_append (fun t => ?_) _ t
      change curveAt [back, ⟨back.time, back.val, 0⟩, ⟨stop, back.val, 0⟩] t = _
      simp only [curveAt]
      split_ifs
      · rfl
      · exact curveBetween_flat ⟨back.time, back.val, 0⟩ ⟨stop, back.val, 0⟩ rfl rfl rfl t
      · rfl
    · simp only [Option.map_some, Option.some.injEq] at he
      rw [List.getLast?_append, ← he]
      simp [(not_le.mp h1).le]
  · refine ⟨fun t => ?_, by simp, fun h => absurd h hl, fun h => ⟨by simp, fun e he => ?_⟩⟩
    · rw [List.append_assoc]
      refine curveAt_append (fun t => ?_) _ t
      change curveAt [back, ⟨stop, back.val, 0⟩] t = _
      simp only [curveAt]
      split_ifs
      · rfl
      · exact curveBetween_flat back ⟨stop, back.val, 0⟩ rfl (not_not.mp h2) rfl t
      · rfl
    · simp only [Option.map_some, Option.some.injEq] at he
      rw [List.getLast?_append, ← he]
      simp [(not_le.mp h1).le]

theorem curveAt_shift (off : ℤ) : ∀ (n : List Node) (t : ℝ),
    curveAt (n.map fun x => { x with time := x.time + off }) t = curveAt n (t - off)
  | [], t => rfl
  | [a], t => rfl
  | a :: b :: r, t => by
    have e1 : (t < ((a.time + off : ℤ) : ℝ)) ↔ t - off < a.time := by push_cast; constructor <;> intro h <;> linarith
    have e2 : (t < ((b.time + off : ℤ) : ℝ)) ↔ t - off < b.time := by push_cast; constructor <;> intro h <;> linarith
    have e3 : curveBetween { a with time := a.time + off } { b with time := b.time + off } t = curveBetween a b (t - off) := by
      unfold curveBetween
      simp only
      congr 1
      · push_cast; ring
      · push_cast; ring
    have ih := curveAt_shift off (b :: r) t
    rw [List.map_cons] at ih
    simp only [List.map_cons, curveAt, e1, e2, e3, ih]

theorem mapM_some {α β : Type} {f : α → Option β} {g : α → β} : ∀ {l : List α}, (∀ x ∈ l, f x = some (g x)) → l.mapM f = some (l.map g)
  | [], _ => rfl
  | x :: l, h => by
    rw [List.mapM_cons, h x (by simp), mapM_some fun y hy => h y (by simp [hy])]
    rfl

theorem shiftTime_eq (off : ℤ) (bones : List Bone)
    (h : ∀ b ∈ bones, ∀ c ∈ b.channels, ∀ n ∈ c.nodes, intMin ≤ n.time + off ∧ n.time + off ≤ intMax) :
    shiftTime off bones = some (bones.map fun b => { b with channels := b.channels.map fun c =>
      { c with nodes := c.nodes.map fun x => { x with time := x.time + off } } }) := by
  unfold shiftTime
  split_ifs with h0
  · subst h0
    simp
  · apply mapM_some
    intro b hb
    unfold Bone.shift
    rw [mapM_some (g := fun c => { c with nodes := c.nodes.map fun x => { x with time := x.time + off } })]
    · rfl
    intro c hc
    unfold Channel.shift
    rw [mapM_some (g := fun x => { x with time := x.time + off })]
    · rfl
    intro n hn
    unfold Node.shift inInt
    rw [if_pos (h b hb c hc n hn)]
    rfl

theorem foldl_bones {α : Type} (f : α → Channel → α) (bones : List Bone) (m : α) :
    bones.foldl (fun m b => b.channels.foldl f m) m = (bones.flatMap Bone.channels).foldl f m := by
  induction bones generalizing m with
  | nil => rfl
  | cons b bs ih => rw [List.foldl_cons, List.flatMap_cons, List.foldl_append, ih]

theorem earlierStart_eq (m : ℤ) (c : Channel) : (c.Animated → ∃ t, c.first = some t ∧ earlierStart m c = min m t) ∧
    (¬ c.Animated → earlierStart m c = m) := by
  unfold Channel.Animated earlierStart Channel.first
  constructor
  · intro h
    rw [if_pos (by omega)]
    cases hn : c.nodes with
    | nil => rw [hn] at h; simp at h
    | cons a n => exact ⟨a.time, rfl, rfl⟩
  · intro h
    rw [if_neg (by omega)]

theorem laterEnd_eq (m : ℤ) (c : Channel) : (c.Animated → ∃ t, c.last = some t ∧ laterEnd m c = max m t) ∧
    (¬ c.Animated → laterEnd m c = m) := by
  unfold Channel.Animated laterEnd Channel.last
  constructor
  · intro h
    rw [if_pos (by omega)]
    have hne : c.nodes ≠ [] := by intro hn; rw [hn] at h; simp at h
    rw [List.getLast?_eq_getLast_of_ne_nil hne]
    exact ⟨_, rfl, rfl⟩
  · intro h
    rw [if_neg (by omega)]

theorem foldl_start (m : ℤ) : ∀ (cs : List Channel) (k : ℤ), m ≤ k → (∀ c ∈ cs, c.Animated → ∀ t, c.first = some t → m ≤ t) →
    (m = k ∨ ∃ c ∈ cs, c.Animated ∧ c.first = some m) → cs.foldl earlierStart k = m
  | [], k, _, _, h3 => by
    rcases h3 with h | ⟨c, hc, -⟩
    · exact h.symm
    · simp at hc
  | c :: cs, k, h1, h2, h3 => by
    rw [List.foldl_cons]
    by_cases hc : c.Animated
    · obtain ⟨t, ht, e⟩ := (earlierStart_eq k c).1 hc
      rw [e]
      have hmt : m ≤ t := h2 c (by simp) hc t ht
      refine foldl_start m cs _ (le_min h1 hmt) (fun d hd => h2 d (by simp [hd])) ?_
      rcases h3 with h | ⟨d, hd, h4, h5⟩
      · left; rw [h, min_eq_left (h ▸ hmt)]
      · rcases List.mem_cons.mp hd with rfl | hd
        · left
          rw [ht] at h5
          obtain rfl : t = m := by simpa using h5
          rw [min_eq_right h1]
        · right; exact ⟨d, hd, h4, h5⟩
    · rw [(earlierStart_eq k c).2 hc]
      refine foldl_start m cs _ h1 (fun d hd => h2 d (by simp [hd])) ?_
      rcases h3 with h | ⟨d, hd, h4, h5⟩
      · exact Or.inl h
      · rcases List.mem_cons.mp hd with rfl | hd
        · exact absurd h4 hc
        · right; exact ⟨d, hd, h4, h5⟩

theorem foldl_end (m : ℤ) : ∀ (cs : List Channel) (k : ℤ), k ≤ m → (∀ c ∈ cs, c.Animated → ∀ t, c.last = some t → t ≤ m) →
    (m = k ∨ ∃ c ∈ cs, c.Animated ∧ c.last = some m) → cs.foldl laterEnd k = m
  | [], k, _, _, h3 => by
    rcases h3 with h | ⟨c, hc, -⟩
    · exact h.symm
    · simp at hc
  | c :: cs, k, h1, h2, h3 => by
    rw [List.foldl_cons]
    by_cases hc : c.Animated
    · obtain ⟨t, ht, e⟩ := (laterEnd_eq k c).1 hc
      rw [e]
      have hmt : t ≤ m := h2 c (by simp) hc t ht
      refine foldl_end m cs _ (max_le h1 hmt) (fun d hd => h2 d (by simp [hd])) ?_
      rcases h3 with h | ⟨d, hd, h4, h5⟩
      · left; rw [h, max_eq_left (h ▸ hmt)]
      · rcases List.mem_cons.mp hd with rfl | hd
        · left
          rw [ht] at h5
          obtain rfl : t = m := by simpa using h5
          rw [max_eq_right h1]
        · right; exact ⟨d, hd, h4, h5⟩
    · rw [(laterEnd_eq k c).2 hc]
      refine foldl_end m cs _ h1 (fun d hd => h2 d (by simp [hd])) ?_
      rcases h3 with h | ⟨d, hd, h4, h5⟩
      · exact Or.inl h
      · rcases List.mem_cons.mp hd with rfl | hd
        · exact absurd h4 hc
        · right; exact ⟨d, hd, h4, h5⟩

/-- C68: `MinAnimatedTime` is the earliest start. -/
theorem C68_min {bones : List Bone} {m : ℤ} (h : IsLeast (starts bones) m) (hi : m < intMax) : minAnimatedTime bones = m := by
  unfold minAnimatedTime
  rw [foldl_bones, foldl_start m _ _ hi.le]
  · simp only; rw [if_neg hi.ne]
  · intro c hc ha t ht
    obtain ⟨b, hb, hcb⟩ := List.mem_flatMap.mp hc
    exact h.2 ⟨b, hb, c, hcb, ha, ht⟩
  · obtain ⟨b, hb, c, hcb, ha, ht⟩ := h.1
    exact Or.inr ⟨c, List.mem_flatMap.mpr ⟨b, hb, hcb⟩, ha, ht⟩

/-- C68: `MaxAnimatedTime` is the latest end. -/
theorem C68_max {bones : List Bone} {m : ℤ} (h : IsGreatest (ends bones) m) (hi : intMin < m) : maxAnimatedTime bones = m := by
  unfold maxAnimatedTime
  rw [foldl_bones, foldl_end m _ _ hi.le]
  · simp only; rw [if_neg hi.ne']
  · intro c hc ha t ht
    obtain ⟨b, hb, hcb⟩ := List.mem_flatMap.mp hc
    exact h.2 ⟨b, hb, c, hcb, ha, ht⟩
  · obtain ⟨b, hb, c, hcb, ha, ht⟩ := h.1
    exact Or.inr ⟨c, List.mem_flatMap.mpr ⟨b, hb, hcb⟩, ha, ht⟩

/-- The channel of an animation of which all times are shifted by `-off`. -/
def Channel.back (off : ℤ) (c : Channel) : Channel := { c with nodes := c.nodes.map fun x => { x with time := x.time - off } }

theorem Channel.back_first (off : ℤ) (c : Channel) : (c.back off).first = c.first.map (· - off) := by
  unfold Channel.back Channel.first
  cases c.nodes <;> simp
theorem Channel.back_last (off : ℤ) (c : Channel) : (c.back off).last = c.last.map (· - off) := by
  unfold Channel.back Channel.last
  simp only [List.getLast?_map, Option.map_map]
  rfl
theorem Channel.back_animated (off : ℤ) (c : Channel) : (c.back off).Animated ↔ c.Animated := by simp [Channel.back, Channel.Animated]
theorem Channel.back_curve (off : ℤ) (c : Channel) (t : ℝ) : curveAt (c.back off).nodes t = curveAt c.nodes (t + off) := by
  have := curveAt_shift (-off) c.nodes t
  unfold Channel.back
  simp only [sub_eq_add_neg]
  rw [this]
  push_cast
  rw [sub_neg_eq_add]

/-! ### C68 -/

/-- C68: let `m` be the time at which the first channel of an animation starts, and `M` the time at which the last one ends.  Unless the user asks
for the start time to be preserved, the pipeline moves the whole animation by `m`, so that it starts at zero; and unless they ask for staggered
end times, all channels that are not constant end at the same time.  The bones, and the values of every channel, are otherwise unchanged at
every time. -/
theorem C68_times (preserveStart staggerEnd : Bool) (bones : List Bone) {m M off : ℤ} (hm : IsLeast (starts bones) m)
    (hM : IsGreatest (ends bones) M) (ho : off = if preserveStart then 0 else m) (h1 : m < intMax) (h2 : intMin < M - off) (h3 : intMin < m)
    (hr : ∀ b ∈ bones, ∀ c ∈ b.channels, ∀ n ∈ c.nodes, intMin ≤ n.time - off ∧ n.time - off ≤ intMax) :
    ∃ out, adjustTimes preserveStart staggerEnd bones = some out ∧
      List.Forall₂ (Bone.Rel fun c c' => c'.op = c.op ∧ c'.id = c.id ∧ (∀ t, curveAt c'.nodes t = curveAt c.nodes (t + off)) ∧
        (c'.Animated ↔ c.Animated) ∧ c'.first = c.first.map (· - off) ∧
        (c.Animated → c'.last = if staggerEnd then c.last.map (· - off) else some (M - off))) bones out ∧
      (preserveStart = false → IsLeast (starts out) 0) := by
  set bs : List Bone := bones.map fun b => { b with channels := b.channels.map (Channel.back off) } with hbs
  have hshift : (if preserveStart then some bones else
      match inInt (-(minAnimatedTime bones)) with
      | none => none
      | some off => shiftTime off bones) = some bs := by
    cases preserveStart with
    | true =>
      simp only [if_true] at ho ⊢
      subst ho
      have e : Channel.back 0 = id := by funext c; simp [Channel.back]
      simp [hbs, e]
    | false =>
      simp only [Bool.false_eq_true, if_false] at ho ⊢
      subst ho
      have : inInt (-(minAnimatedTime bones)) = some (-off) := by
        rw [C68_min hm h1]
        unfold inInt intMin intMax at *
        rw [if_pos (by omega)]
      rw [this]
      change shiftTime (-off) bones = _
      rw [shiftTime_eq]
      · rfl
      · simpa only [← sub_eq_add_neg] using hr
  have hmax : maxAnimatedTime bs = M - off := by
    refine C68_max ⟨?_, ?_⟩ h2
    · obtain ⟨b, hb, c, hc, ha, ht⟩ := hM.1
      refine ⟨_, List.mem_map.mpr ⟨b, hb, rfl⟩, c.back off, List.mem_map.mpr ⟨c, hc, rfl⟩, (c.back_animated off).mpr ha, ?_⟩
      rw [c.back_last, ht]; rfl
    · rintro t ⟨b', hb', c', hc', ha, ht⟩
      obtain ⟨b, hb, rfl⟩ := List.mem_map.mp hb'
      obtain ⟨c, hc, rfl⟩ := List.mem_map.mp hc'
      rw [c.back_last] at ht
      obtain ⟨u, hu, rfl⟩ := Option.map_eq_some_iff.mp ht
      have := hM.2 ⟨b, hb, c, hc, (c.back_animated off).mp ha, hu⟩
      omega
  have hout : adjustTimes preserveStart staggerEnd bones = some (if staggerEnd then bs else extendChannels (M - off) bs) := by
    unfold adjustTimes
    simp only
    rw [hshift]
    simp only
    rw [hmax]
  have hfor : ∀ {α : Type} (R : α → α → Prop) (f : α → α) (l : List α), (∀ x ∈ l, R x (f x)) → List.Forall₂ R l (l.map f) := by
    intro α R f l
    induction l with
    | nil => intro _; exact .nil
    | cons x l ih => intro h; exact .cons (h x (by simp)) (ih fun y hy => h y (by simp [hy]))
  have hlast : ∀ b ∈ bones, ∀ c ∈ b.channels, c.Animated → ∃ e, c.last = some e ∧ e ≤ M := by
    intro b hb c hc ha
    obtain ⟨e, he, -⟩ := (laterEnd_eq 0 c).1 ha
    exact ⟨e, he, hM.2 ⟨b, hb, c, hc, ha, he⟩⟩
  -- the relation between the channels, and the conclusion about the first start from it
  have hrel : List.Forall₂ (Bone.Rel fun c c' => c'.op = c.op ∧ c'.id = c.id ∧ (∀ t, curveAt c'.nodes t = curveAt c.nodes (t + off)) ∧
        (c'.Animated ↔ c.Animated) ∧ c'.first = c.first.map (· - off) ∧
        (c.Animated → c'.last = if staggerEnd then c.last.map (· - off) else some (M - off))) bones
      (if staggerEnd then bs else extendChannels (M - off) bs) := by
    cases staggerEnd with
    | true =>
      simp only [if_true]
      refine hfor _ _ _ fun b hb => ⟨rfl, rfl, hfor _ _ _ fun c hc => ⟨rfl, rfl, c.back_curve off, c.back_animated off, c.back_first off, fun _ => c.back_last off⟩⟩
    | false =>
      simp only [Bool.false_eq_true, if_false]
      unfold extendChannels
      rw [hbs, List.map_map]
      refine hfor _ _ _ fun b hb => ⟨rfl, rfl, ?_⟩
      simp only [Function.comp_apply, List.map_map]
      refine hfor _ _ _ fun c hc => ?_
      obtain ⟨e1, e2, e3, e4⟩ := extendNodes_spec (M - off) (c.back off).nodes
      refine ⟨rfl, rfl, fun t => (e1 t).trans (c.back_curve off t), ?_, ?_, fun ha => ?_⟩
      · rw [← c.back_animated off]
        constructor
        · intro h
          by_contra h'
          have h'' : (c.back off).nodes.length ≤ 1 := by unfold Channel.Animated at h'; omega
          apply h'
          have : (extendNodes (M - off) (c.back off).nodes) = (c.back off).nodes := e3 h''
          unfold Channel.Animated at h ⊢
          simp only [Function.comp_apply] at h
          rw [this] at h
          exact h
        · intro h; exact (e4 h).1
      · rw [← c.back_first off]
        unfold Channel.first
        simp only [Function.comp_apply]
        rw [e2]
      · obtain ⟨e, he, hle⟩ := hlast b hb c hc ha
        have h5 : (c.back off).last = some (e - off) := by rw [c.back_last, he]; rfl
        have := (e4 ((c.back_animated off).mpr ha)).2 _ h5
        rw [max_eq_right (by omega)] at this
        exact this
  refine ⟨_, hout, hrel, fun hp => ?_⟩
  rw [hp] at ho
  simp only [Bool.false_eq_true, if_false] at ho
  subst ho
  -- from the relation
  set out := (if staggerEnd then bs else extendChannels (M - off) bs)
  constructor
  · obtain ⟨b, hb, c, hc, ha, ht⟩ := hm.1
    obtain ⟨i, hi, rfl⟩ := List.getElem_of_mem hb
    have hi' : i < out.length := hrel.length_eq ▸ hi
    obtain ⟨-, -, hcs⟩ := hrel.get hi hi'
    obtain ⟨j, hj, rfl⟩ := List.getElem_of_mem hc
    have hj' : j < (out.get ⟨i, hi'⟩).channels.length := hcs.length_eq ▸ hj
    obtain ⟨-, -, -, h5, h6, -⟩ := hcs.get hj hj'
    refine ⟨_, List.getElem_mem hi', _, List.getElem_mem hj', h5.mpr ha, ?_⟩
    refine h6.trans ?_
    have ht' : (((bones.get ⟨i, hi⟩).channels.get ⟨j, hj⟩)).first = some off := ht
    rw [ht']
    simp
  · rintro t ⟨b', hb', c', hc', ha, ht⟩
    obtain ⟨i, hi', rfl⟩ := List.getElem_of_mem hb'
    have hi : i < bones.length := hrel.length_eq ▸ hi'
    obtain ⟨-, -, hcs⟩ := hrel.get hi hi'
    obtain ⟨j, hj', rfl⟩ := List.getElem_of_mem hc'
    have hj : j < (bones.get ⟨i, hi⟩).channels.length := hcs.length_eq ▸ hj'
    obtain ⟨-, -, -, h5, h6, -⟩ := hcs.get hj hj'
    have h7 := h6.symm.trans ht
    obtain ⟨u, hu, rfl⟩ := Option.map_eq_some_iff.mp h7
    have := hm.2 ⟨_, List.getElem_mem hi, _, List.getElem_mem hj, h5.mp ha, hu⟩
    omega

/-- C68: an animation of which all channels are constant is left as it is. -/
theorem C68_constant (preserveStart staggerEnd : Bool) (bones : List Bone) (h : ∀ b ∈ bones, ∀ c ∈ b.channels, ¬ c.Animated) :
    adjustTimes preserveStart staggerEnd bones = some bones := by
  have hfold : ∀ (f : ℤ → Channel → ℤ), (∀ k c, ¬ c.Animated → f k c = k) → ∀ (cs : List Channel), (∀ c ∈ cs, ¬ c.Animated) → ∀ k, cs.foldl f k = k := by
    intro f hf cs
    induction cs with
    | nil => intro _ k; rfl
    | cons c cs ih => intro hc k; rw [List.foldl_cons, hf k c (hc c (by simp))]; exact ih (fun d hd => hc d (by simp [hd])) k
  have hall : ∀ c ∈ bones.flatMap Bone.channels, ¬ c.Animated := by
    intro c hc
    obtain ⟨b, hb, hcb⟩ := List.mem_flatMap.mp hc
    exact h b hb c hcb
  have hmin : minAnimatedTime bones = 0 := by
    unfold minAnimatedTime
    rw [foldl_bones, hfold _ (fun k c hc => (earlierStart_eq k c).2 hc) _ hall]
    simp
  have hmax : maxAnimatedTime bones = 0 := by
    unfold maxAnimatedTime
    rw [foldl_bones, hfold _ (fun k c hc => (laterEnd_eq k c).2 hc) _ hall]
    simp
  have hext : extendChannels 0 bones = bones := by
    unfold extendChannels
    conv_rhs => rw [← List.map_id bones]
    apply List.map_congr_left
    intro b hb
    have : b.channels.map (fun c => { c with nodes := extendNodes 0 c.nodes }) = b.channels := by
      conv_rhs => rw [← List.map_id b.channels]
      apply List.map_congr_left
      intro c hc
      have hn : c.nodes.length ≤ 1 := by have := h b hb c hc; unfold Channel.Animated at this; omega
      rw [(extendNodes_spec 0 c.nodes).2.2.1 hn]
      rfl
    rw [this]
    rfl
  unfold adjustTimes
  rw [hmin]
  have : inInt (-0) = some 0 := by norm_num [inInt, intMin, intMax]
  rw [this]
  simp only [shiftTime, if_true, ite_self]
  rw [hmax, hext, ite_self]

/-- The hypotheses of `C68_times` are met by an animation with a channel from 10 to 40, one from 20 to 30 that ends with a slope, and a
constant one. -/
example : ∃ bones : List Bone, IsLeast (starts bones) 10 ∧ IsGreatest (ends bones) 40 ∧
    (∀ b ∈ bones, ∀ c ∈ b.channels, ∀ n ∈ c.nodes, intMin ≤ n.time - 10 ∧ n.time - 10 ≤ intMax) := by
  refine ⟨[⟨"a", -1, [⟨.translateX, 1, [⟨10, 1, 0⟩, ⟨40, 2, 0⟩]⟩, ⟨.rotateX, 2, [⟨20, 1, 0⟩, ⟨30, 2, 3⟩]⟩]⟩,
    ⟨"b", 0, [⟨.translateX, 1, [⟨0, 1, 0⟩]⟩]⟩], ⟨?_, ?_⟩, ⟨?_, ?_⟩, ?_⟩
  · simp [starts, Channel.Animated, Channel.first]
  · rintro t ht
    simp [starts, Channel.Animated, Channel.first] at ht
    omega
  · simp [ends, Channel.Animated, Channel.last]
  · rintro t ht
    simp [ends, Channel.Animated, Channel.last] at ht
    omega
  · simp [intMin, intMax]

end
end Motive.Pipeline
