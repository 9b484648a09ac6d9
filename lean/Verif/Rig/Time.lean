import Verif.Rig.Props
/-!
# Properties of rig motivators, continued: C66 (time remaining), C67 (which animation drives what)
-/

namespace Motive.Rig
open Motive.Matrix4

noncomputable section
variable {J : Joint}

/-! ### C66: the time remaining -/

theorem longest_spec (ms : List (Option J.M)) : ∀ t, 0 ≤ t → t ≤ longest t ms ∧
    (∀ m, some m ∈ ms → J.timeRemaining m ≤ longest t ms) ∧ (longest t ms = t ∨ ∃ m, some m ∈ ms ∧ longest t ms = J.timeRemaining m) := by
  induction ms with
  | nil => intro t _; exact ⟨le_refl _, by simp, Or.inl rfl⟩
  | cons m ms ih =>
    intro t h
    cases m with
    | none =>
      rw [longest, max_eq_left h]
      obtain ⟨h2, h3, h4⟩ := ih t h
      exact ⟨h2, by simpa using h3, by simpa using h4⟩
    | some m =>
      rw [longest]
      obtain ⟨h2, h3, h4⟩ := ih (max t (J.timeRemaining m)) (h.trans (le_max_left _ _))
      refine ⟨(le_max_left _ _).trans h2, ?_, ?_⟩
      · intro x hx
        rcases List.mem_cons.mp hx with hx | hx
        · cases hx; exact (le_max_right _ _).trans h2
        · exact h3 x hx
      · rcases h4 with h4 | ⟨x, hx, e⟩
        · rcases max_choice t (J.timeRemaining m) with hm | hm
          · left; rw [h4, hm]
          · right; exact ⟨m, by simp, by rw [h4, hm]⟩
        · right; exact ⟨x, by simp [hx], e⟩

/-- C66: the time that remains of an animation in a blend is the longest that remains of any bone. -/
theorem C66_child {r : RigData J} (h : Reach r) (i : ℕ) (hi : i < r.weights.length) :
    ∃ T, r.childTimeRemaining i = some T ∧ 0 ≤ T ∧
      (∀ k < r.numBones, ∃ m, r.motivators[i * r.numBones + k]? = some (some m) ∧ J.timeRemaining m ≤ T) ∧
      (T = 0 ∨ ∃ k < r.numBones, ∃ m, r.motivators[i * r.numBones + k]? = some (some m) ∧ T = J.timeRemaining m) := by
  have hs := h.shaped
  have hne : r.weights ≠ [] := by intro h0; rw [h0] at hi; simp at hi
  have hc : r.motivators.length = r.numBones * r.weights.length := by rw [hs.count, Nat.max_eq_right (by omega)]
  have hin : i * r.numBones + r.numBones ≤ r.motivators.length := by
    rw [hc]
    calc i * r.numBones + r.numBones = r.numBones * (i + 1) := by ring
      _ ≤ r.numBones * r.weights.length := Nat.mul_le_mul_left _ hi
  have hslice : ∀ k < r.numBones, ((r.motivators.drop (i * r.numBones)).take r.numBones)[k]? = r.motivators[i * r.numBones + k]? := by
    intro k hk
    rw [List.getElem?_take_of_lt hk, List.getElem?_drop]
  have hlen : ((r.motivators.drop (i * r.numBones)).take r.numBones).length = r.numBones := by simp; omega
  obtain ⟨h2, h3, h4⟩ := longest_spec ((r.motivators.drop (i * r.numBones)).take r.numBones) 0 le_rfl
  refine ⟨_, ?_, h2, ?_, ?_⟩
  · unfold RigData.childTimeRemaining
    rw [if_neg (by omega), if_pos hin]
  · intro k hk
    have hk' : i * r.numBones + k < r.motivators.length := by omega
    obtain ⟨m, hm⟩ := Option.isSome_iff_exists.mp (hs.valid hne _ (List.getElem_mem hk'))
    have he : r.motivators[i * r.numBones + k]? = some (some m) := by rw [List.getElem?_eq_getElem hk', hm]
    exact ⟨m, he, h3 m (List.mem_of_getElem? ((hslice k hk).trans he))⟩
  · rcases h4 with h4 | ⟨m, hm, e⟩
    · exact Or.inl h4
    · right
      obtain ⟨k, hk, hkm⟩ := List.getElem_of_mem hm
      rw [hlen] at hk
      refine ⟨k, hk, m, ?_, e⟩
      rw [← hslice k hk, List.getElem?_eq_getElem (by rw [hlen]; exact hk), hkm]

/-- C66: the time that remains of a rig is the longest that remains of its animations, in every history with an animation, unless the rig
is endless. -/
theorem C66_time_remaining {r : RigData J} (h : Reach r) (hw : r.weights ≠ []) (hn : 0 < r.numBones) (he : r.endTime ≠ kMotiveTimeEndless) :
    (∀ i < r.weights.length, ∃ c, r.childTimeRemaining i = some c ∧ c ≤ r.timeRemaining) ∧
      ∃ i < r.weights.length, r.childTimeRemaining i = some r.timeRemaining := by
  have hs := h.shaped
  have hpos : 0 < r.weights.length := List.length_pos_iff.mpr hw
  have hc : r.motivators.length = r.numBones * r.weights.length := by rw [hs.count, Nat.max_eq_right (by omega)]
  obtain ⟨h2, h3, h4⟩ := longest_spec r.motivators 0 le_rfl
  have ht : r.timeRemaining = longest 0 r.motivators := by unfold RigData.timeRemaining; rw [if_neg he]
  rw [← ht] at h2 h3 h4
  have hle : ∀ i < r.weights.length, ∃ c, r.childTimeRemaining i = some c ∧ 0 ≤ c ∧ c ≤ r.timeRemaining := by
    intro i hi
    obtain ⟨c, c1, c2, -, c4⟩ := C66_child h i hi
    refine ⟨c, c1, c2, ?_⟩
    rcases c4 with rfl | ⟨k, -, m, hm, rfl⟩
    · exact h2
    · exact h3 m (List.mem_of_getElem? hm)
  refine ⟨fun i hi => ?_, ?_⟩
  · obtain ⟨c, c1, -, c3⟩ := hle i hi
    exact ⟨c, c1, c3⟩
  · rcases h4 with h4 | ⟨m, hm, h4⟩
    · obtain ⟨c, c1, c2, c3⟩ := hle 0 hpos
      rw [h4] at c3 ⊢
      exact ⟨0, hpos, by rw [c1, le_antisymm c3 c2]⟩
    · rw [h4] at hle ⊢
      obtain ⟨idx, hidx, e⟩ := List.getElem_of_mem hm
      have hdiv : idx / r.numBones < r.weights.length := Nat.div_lt_of_lt_mul (by omega)
      obtain ⟨c, c1, -, c3, -⟩ := C66_child h _ hdiv
      obtain ⟨m', hm', hle'⟩ := c3 (idx % r.numBones) (Nat.mod_lt _ hn)
      have hi' : idx / r.numBones * r.numBones + idx % r.numBones = idx := by
        rw [Nat.mul_comm]; exact Nat.div_add_mod idx r.numBones
      rw [hi', List.getElem?_eq_getElem hidx, e] at hm'
      cases hm'
      obtain ⟨c', d1, -, d3⟩ := hle _ hdiv
      rw [c1] at d1
      cases d1
      exact ⟨_, hdiv, by rw [c1, le_antisymm d3 hle']⟩

/-- C66: before a rig is animated no time remains. -/
theorem C66_before_animation (a : Anim J) (root : ℕ) (time : ℤ) (r : RigData J) (h : RigData.new a root time = some r)
    (ht : time ≠ kMotiveTimeEndless) : r.timeRemaining = 0 ∧ ∀ i, r.childTimeRemaining i = some 0 := by
  obtain ⟨e1, e2, -, -, e3⟩ := update_fields h
  refine ⟨?_, ?_⟩
  · have : ∀ n, longest (J := J) 0 (List.replicate n none) = 0 := by
      intro n
      induction n with
      | zero => rfl
      | succ n ih => rw [List.replicate_succ, longest]; exact ih
    unfold RigData.timeRemaining
    rw [if_neg (by rw [e3]; exact ht), e1, this]
  · intro i; unfold RigData.childTimeRemaining; rw [if_pos (by rw [e2]; simp)]

/-- C66: the end time of a repeating animation is the largest `MotiveTime` (src/motive/io/flatbuffers.cpp:239-240), so to play it at any time
but zero overflows. -/
theorem C66_repeating_overflows (r : RigData J) (a : Anim J) (pb : Playback) (time : ℤ) (h : a.endTime = kMotiveTimeEndless) (ht : 0 < time) :
    r.blendToAnim a pb time = none := by
  have : addTime time a.endTime = none := by
    unfold addTime
    rw [h, kMotiveTimeEndless, if_neg]
    omega
  unfold RigData.blendToAnim
  rw [this]

/-! ### C67: which animation drives what -/

/-- C67: `BlendToAnim` blends the motivator of each bone, from the state that it has in the first of the animations that were playing, to
the operations of that bone. -/
theorem C67_blendToAnim {r r' : RigData J} {a : Anim J} {pb : Playback} {time : ℤ} (h : Reach r) (hb : r.blendToAnim a pb time = some r') :
    r'.weights.length = 1 ∧ r'.motivators.length = r.numBones ∧ ∀ k < r.numBones, ∃ b m m', a.bones[k]? = some b ∧
      J.blend m b.ops pb = some m' ∧ r'.motivators[k]? = some (some m') ∧
      (r.weights ≠ [] → r.motivators[k]? = some (some m)) ∧ (r.weights = [] → r.motivators[k]? = some none → m = J.create b.sqt) := by
  have hs := h.shaped
  obtain ⟨e, ms, -, h2, rfl⟩ := blendToAnim_fields hb
  obtain ⟨l1, -, l3⟩ := animLoop_some a pb _ _ 0 _ _ rfl h2
  refine ⟨resize_length _ _ _, by change ms.length = _; rw [l1, resize_length], ?_⟩
  intro k hk
  obtain ⟨b, m, m', e1, e2, e3, e4⟩ := l3 k (Nat.zero_le _) hk
  have hk' : k < r.motivators.length := by
    rw [hs.count]
    exact lt_of_lt_of_le hk (Nat.le_mul_of_pos_right _ (by omega))
  rw [resize_get _ _ _ _ hk, List.getElem?_eq_getElem hk'] at e2
  have e2' : r.motivators[k] = m := Option.some.inj e2
  refine ⟨b, _, m', e1, e4, e3, ?_, ?_⟩
  · intro hne
    have := hs.valid hne _ (List.getElem_mem hk')
    rw [e2'] at this
    obtain ⟨x, rfl⟩ := Option.isSome_iff_exists.mp this
    rw [List.getElem?_eq_getElem hk', e2']; rfl
  · intro _ hn
    rw [List.getElem?_eq_getElem hk', e2'] at hn
    rw [Option.some.inj hn]; rfl

/-- C67: `BlendToAnims` gives every animation its own motivator of each bone, and blends it to the operations of that bone. It starts from the
state of the animation at the same position before; where there was none, from what has become of the bone in the first animation if
there was exactly one before, and from scratch otherwise. -/
theorem C67_blendToAnims {r r' : RigData J} {as : List (Anim J × Playback × ℝ)} {time : ℤ} (h : Reach r)
    (hb : r.blendToAnims as time = some r') :
    r'.motivators.length = r.numBones * as.length ∧ ∀ i (hi : i < as.length), ∀ k < r.numBones, ∃ b m m',
      as[i].1.bones[k]? = some b ∧ J.blend m b.ops as[i].2.1 = some m' ∧ r'.motivators[i * r.numBones + k]? = some (some m') ∧
      (i < r.weights.length → r.motivators[i * r.numBones + k]? = some (some m)) ∧
      (r.weights.length ≤ i → r.weights.length = 1 → r'.motivators[k]? = some (some m)) ∧
      (r.weights.length ≤ i → r.weights.length ≠ 1 → m = J.create b.sqt) := by
  have hs := h.shaped
  have hs' := shaped_blendToAnims hs hb
  obtain ⟨e, ms, total, -, h2, h3, rfl⟩ := blendToAnims_fields hb
  obtain ⟨l1, -, -, l3⟩ := animsLoop_some r _ _ 0 _ _ h3
  refine ⟨by change ms.length = _; rw [l1, resize_length], ?_⟩
  intro i hi k hk
  obtain ⟨b, src, m', e1, e2, e3, e4⟩ := l3 i k (by simpa using hi) hk
  rw [Nat.zero_add] at e2 e4
  have hik : i * r.numBones + k < r.numBones * as.length := by
    calc i * r.numBones + k < i * r.numBones + r.numBones := by omega
      _ = r.numBones * (i + 1) := by ring
      _ ≤ r.numBones * as.length := Nat.mul_le_mul_left _ hi
  have hmslen : ms.length = r.numBones * as.length := by rw [l1, resize_length]
  have hwne : (as.map fun a => a.2.2).map (· / total) ≠ [] := by
    intro h0
    have := congrArg List.length h0
    simp at this
    rw [this] at hi
    simp at hi
  refine ⟨b, _, m', by simpa using e1, by simpa using e3, e2, ?_, ?_, ?_⟩
  · intro hlt
    unfold Origin at e4
    rw [if_neg (by omega)] at e4
    have hik' : i * r.numBones + k < r.motivators.length := by
      rw [hs.count, Nat.max_eq_right (by omega)]
      calc i * r.numBones + k < i * r.numBones + r.numBones := by omega
        _ = r.numBones * (i + 1) := by ring
        _ ≤ r.numBones * r.weights.length := Nat.mul_le_mul_left _ hlt
    rw [resize_get _ _ _ _ hik, List.getElem?_eq_getElem hik'] at e4
    have e5 : r.motivators[i * r.numBones + k] = src := Option.some.inj e4
    have := hs.valid (by intro h0; rw [h0] at hlt; simp at hlt) _ (List.getElem_mem hik')
    rw [e5] at this
    obtain ⟨x, rfl⟩ := Option.isSome_iff_exists.mp this
    rw [List.getElem?_eq_getElem hik', e5]; rfl
  · intro hle h1
    unfold Origin at e4
    rw [if_pos hle, if_pos h1] at e4
    have hmem : src ∈ ms := List.mem_of_getElem? e4
    obtain ⟨x, rfl⟩ := Option.isSome_iff_exists.mp (hs'.valid hwne src hmem)
    exact e4
  · intro hle h1
    unfold Origin at e4
    rw [if_pos hle, if_neg h1] at e4
    rw [e4]; rfl

theorem boneLoop_succeeds (old : ℕ) (a : Anim J) (pb : Playback) (n i : ℕ) (hn : n ≤ a.bones.length)
    (hblend : ∀ b ∈ a.bones, ∀ m, (J.blend m b.ops pb).isSome) : ∀ (d j : ℕ) (ms : List (Option J.M)), n - j = d →
    i * n + n ≤ ms.length → (boneLoop old a pb n i j ms).isSome := by
  intro d
  induction d with
  | zero => intro j ms hd hms; rw [boneLoop, if_neg (by omega)]; rfl
  | succ d ih =>
    intro j ms hd hms
    have hj : j < a.bones.length := by omega
    have hidx : i * n + j < ms.length := by omega
    have hj' : j < ms.length := by have := Nat.zero_le (i * n); omega
    rw [boneLoop, if_pos (by omega), List.getElem?_eq_getElem hj, List.getElem?_eq_getElem hidx]
    simp only
    have hsrc : ∃ src, (if old ≤ i then if old = 1 then ms[j]? else some (some (J.create a.bones[j].sqt)) else some ms[i * n + j]) = some src := by
      split_ifs
      · exact ⟨_, List.getElem?_eq_getElem hj'⟩
      · exact ⟨_, rfl⟩
      · exact ⟨_, rfl⟩
    obtain ⟨src, hsrc⟩ := hsrc
    rw [hsrc]
    simp only
    obtain ⟨m', hm'⟩ := Option.isSome_iff_exists.mp (hblend _ (List.getElem_mem hj) (src.getD (J.create a.bones[j].sqt)))
    simp only [drive, hm']
    exact ih (j + 1) _ (by omega) (by rw [List.length_set]; exact hms)

theorem animsLoop_succeeds (r : RigData J) (old : ℕ) (as : List (Anim J × Playback)) (hacc : ∀ x ∈ as, r.accepts x.1 ∧ r.numBones ≤ x.1.bones.length)
    (hblend : ∀ x ∈ as, ∀ b ∈ x.1.bones, ∀ m, (J.blend m b.ops x.2).isSome) : ∀ (i : ℕ) (ms : List (Option J.M)),
    (i + as.length) * r.numBones ≤ ms.length → (r.animsLoop old i as ms).isSome := by
  induction as with
  | nil => intro i ms _; rfl
  | cons x as ih =>
    obtain ⟨a, pb⟩ := x
    intro i ms hms
    rw [List.length_cons] at hms
    have e : (i + (as.length + 1)) * r.numBones = i * r.numBones + r.numBones + as.length * r.numBones := by ring
    have e0 := Nat.zero_le (as.length * r.numBones)
    obtain ⟨h1, h2⟩ := hacc (a, pb) (by simp)
    obtain ⟨ms1, hb⟩ := Option.isSome_iff_exists.mp (boneLoop_succeeds old a pb r.numBones i h2 (hblend (a, pb) (by simp)) _ 0 ms rfl (by omega))
    rw [RigData.animsLoop, if_pos h1, hb]
    refine ih (fun x hx => hacc x (by simp [hx])) (fun x hx => hblend x (by simp [hx])) (i + 1) ms1 ?_
    rw [(boneLoop_some old a pb r.numBones i _ 0 ms ms1 rfl hb).1]
    have e1 : (i + 1 + as.length) * r.numBones = (i + (as.length + 1)) * r.numBones := by ring
    omega

/-- C67: animations of the hierarchy of the rig can be blended with any weights that are not negative and not all zero. -/
theorem C67_succeeds (r : RigData J) (as : List (Anim J × Playback × ℝ)) (time : ℤ) (hm : ∀ a ∈ as, a.1.matches r.defining)
    (hblend : ∀ a ∈ as, ∀ b ∈ a.1.bones, ∀ m, (J.blend m b.ops a.2.1).isSome)
    (hw : ∀ a ∈ as, 0 ≤ a.2.2) (hpos : ∃ a ∈ as, 0 < a.2.2) (ht : 0 ≤ time)
    (he : ∀ a ∈ as, 0 ≤ a.1.endTime ∧ time + a.1.endTime ≤ 2 ^ 31 - 1) (ht' : time ≤ 2 ^ 31 - 1) : ∃ r', r.blendToAnims as time = some r' := by
  have hsum : 0 < (as.map fun a => a.2.2).sum := by
    have hnn : ∀ l : List ℝ, (∀ w ∈ l, 0 ≤ w) → 0 ≤ l.sum := by
      intro l hl
      induction l with
      | nil => simp
      | cons x l ih => rw [List.sum_cons]; exact add_nonneg (hl x (by simp)) (ih fun w hw => hl w (by simp [hw]))
    obtain ⟨a, ha, hap⟩ := hpos
    obtain ⟨l1, l2, e⟩ := List.append_of_mem ha
    subst e
    rw [List.map_append, List.sum_append, List.map_cons, List.sum_cons]
    have n1 := hnn (l1.map fun a => a.2.2) (by
      intro w hw'
      obtain ⟨x, hx, rfl⟩ := List.mem_map.mp hw'
      exact hw x (by simp [hx]))
    have n2 := hnn (l2.map fun a => a.2.2) (by
      intro w hw'
      obtain ⟨x, hx, rfl⟩ := List.mem_map.mp hw'
      exact hw x (by simp [hx]))
    linarith
  have htot : totalWeight (as.map fun a => a.2.2) = some (as.map fun a => a.2.2).sum := by
    have h0 : ∀ w ∈ as.map fun a => a.2.2, 0 ≤ w := by
      intro w hw'
      obtain ⟨x, hx, rfl⟩ := List.mem_map.mp hw'
      exact hw x hx
    exact if_pos ⟨h0, hsum⟩
  have hfold : ∀ (l : List (Anim J × Playback × ℝ)) (t : ℤ), 0 ≤ t → time + t ≤ 2 ^ 31 - 1 → (∀ a ∈ l, time + a.1.endTime ≤ 2 ^ 31 - 1) →
      0 ≤ l.foldl (fun t a => max t a.1.endTime) t ∧ time + l.foldl (fun t a => max t a.1.endTime) t ≤ 2 ^ 31 - 1 := by
    intro l
    induction l with
    | nil => intro t h1 h2 _; exact ⟨h1, h2⟩
    | cons x l ih =>
      intro t h1 h2 h3
      have hx := h3 x (by simp)
      refine ih _ (h1.trans (le_max_left _ _)) ?_ (fun a ha => h3 a (by simp [ha]))
      change time + max t x.1.endTime ≤ _
      rcases max_choice t x.1.endTime with hm | hm <;> rw [hm] <;> assumption
  obtain ⟨f1, f2⟩ := hfold as 0 (le_refl _) (by omega) (fun a ha => (he a ha).2)
  have htime : addTime time (as.foldl (fun t a => max t a.1.endTime) 0) = some (time + as.foldl (fun t a => max t a.1.endTime) 0) := by
    unfold addTime
    rw [if_pos ⟨by omega, f2⟩]
  obtain ⟨ms, hms⟩ := Option.isSome_iff_exists.mp (animsLoop_succeeds r r.weights.length (as.map fun a => (a.1, a.2.1))
    (by
      intro x hx
      obtain ⟨a, ha, rfl⟩ := List.mem_map.mp hx
      exact ⟨Or.inr (Or.inr (hm a ha)), (hm a ha).1.ge⟩)
    (by
      intro x hx
      obtain ⟨a, ha, rfl⟩ := List.mem_map.mp hx
      exact hblend a ha)
    0 (resize r.motivators (r.numBones * as.length) none) (by rw [resize_length, List.length_map, Nat.zero_add, Nat.mul_comm]))
  have : (r.blendToAnims as time).isSome := by
    unfold RigData.blendToAnims
    simp only [htot, htime, hms]
    rfl
  exact Option.isSome_iff_exists.mp this

/-- C67: an animation with one bone passes the assertion on the hierarchy (and the comment says that it animates the root only), but on a
rig with more bones it fails: the second bone of the animation does not exist. -/
theorem C67_one_bone_fails (r : RigData J) (a : Anim J) (pb : Playback) (time : ℤ) (hn : 2 ≤ r.numBones) (ha : a.bones.length = 1) :
    r.accepts a ∧ r.blendToAnim a pb time = none := by
  refine ⟨Or.inr (Or.inl ha), ?_⟩
  cases hr : r.blendToAnim a pb time with
  | none => rfl
  | some r' =>
    obtain ⟨e, ms, -, h2, -⟩ := blendToAnim_fields hr
    obtain ⟨-, -, l3⟩ := animLoop_some a pb _ _ 0 _ _ rfl h2
    obtain ⟨b, -, -, e1, -⟩ := l3 1 (by omega) (by omega)
    have := (List.getElem?_eq_some_iff.mp e1).1
    omega

/-! ### A simple joint, for examples -/

open Classical in
/-- A joint that shows a pose and has another as its goal. A blend that takes no time shows its goal at once. -/
def simpleJoint : Joint where
  M := Pose × Pose
  Ops := Pose
  create := fun _ => (.rest, .rest)
  blend := fun m p pb => some (if pb.blendX = 0 then p else m.1, p)
  matrix := fun m => m.1.matrix.getD 1
  pose := fun m => m.1
  timeRemaining := fun _ => 0
  setRate := fun m _ => m
  setRepeating := fun m _ => m

/-- The pose of the examples. -/
def samplePose (x : ℝ) : Pose := ⟨![x, 0, 0], .one, 1⟩

/-- An animation of one bone. -/
def sampleAnim (x : ℝ) : Anim simpleJoint := ⟨[⟨true, samplePose x⟩], [255], 0⟩

/-- A rig of one bone that plays animations `x` and `y`. -/
def sampleRig (goals : List (Pose × Pose)) (ws : List ℝ) : RigData simpleJoint :=
  ⟨goals.map some, [toAffine 1], ws, sampleAnim 0, 255, toAffine 1, 0⟩

theorem sample_new : RigData.new (sampleAnim 0) 255 0 = some (⟨[none], [toAffine 1], [], sampleAnim 0, 255, toAffine 1, 0⟩ : RigData simpleJoint) := by
  simp [RigData.new, RigData.update, sampleAnim, RigData.singleLocals, RigData.numBones, globals, Globals.run, Globals.step, kInvalidBoneIdx]

theorem sample_reach (x : ℝ) : Reach (sampleRig [(samplePose x, samplePose x)] [1]) := by
  refine Reach.blendToAnim (r := ⟨[none], [toAffine 1], [], sampleAnim 0, 255, toAffine 1, 0⟩) (a := sampleAnim x) (pb := {}) (time := 0)
    (Reach.new (a := sampleAnim 0) rfl ?_ sample_new) ?_
  · intro i hi
    left
    have : i = 0 := by change i < 1 at hi; omega
    subst this; rfl
  · simp [RigData.blendToAnim, addTime, sampleAnim, RigData.accepts, RigData.numBones, animLoop, resize, drive, sampleRig, simpleJoint]
    rfl

theorem sample_two (x y b : ℝ) (w1 w2 : ℝ) (h1 : 0 ≤ w1) (h2 : 0 ≤ w2) (h : 0 < w1 + w2) :
    (sampleRig [(samplePose x, samplePose x)] [1]).blendToAnims [(sampleAnim y, {}, w1), (sampleAnim x, { blendX := b }, w2)] 0 =
      some (sampleRig [(samplePose y, samplePose y), (if b = 0 then samplePose x else samplePose y, samplePose x)] [w1 / (w1 + w2), w2 / (w1 + w2)]) := by
  simp [RigData.blendToAnims, totalWeight, addTime, sampleRig, RigData.animsLoop, RigData.accepts, RigData.numBones, sampleAnim, boneLoop, resize,
    drive, simpleJoint, h1, h2, h]
  rfl

/-- C67: the copy for a second animation is made after the first has been blended. So, if the first animation takes over at once and the second
blends slowly, then the second starts from the first, and not from the animation that was playing: the bone jumps. -/
theorem C67_copies_too_late : ∃ (r r' : RigData simpleJoint), Reach r ∧ r.weights.length = 1 ∧
    (∀ m, some m ∈ r.motivators → simpleJoint.pose m = samplePose 0) ∧
    r.blendToAnims [(sampleAnim 1, {}, 0), (sampleAnim 0, { blendX := 10 }, 1)] 0 = some r' ∧
    ∀ m, some m ∈ r'.motivators → simpleJoint.pose m = samplePose 1 := by
  refine ⟨_, _, sample_reach 0, rfl, ?_, sample_two 0 1 10 0 1 (by norm_num) (by norm_num) (by norm_num), ?_⟩
  · intro m hm
    obtain ⟨x, hx, e⟩ := List.mem_map.mp hm
    cases e
    rw [List.mem_singleton.mp hx]; rfl
  · intro m hm
    obtain ⟨x, hx, e⟩ := List.mem_map.mp hm
    cases e
    rw [if_neg (by norm_num)] at hx
    rcases List.mem_cons.mp hx with hx | hx
    · rw [hx]; rfl
    · rw [List.mem_singleton.mp hx]; rfl

/-- C46: `SetWeights` with more weights than there are animations divides by the sum of all of them, so the weights that remain do not
sum to 1. -/
theorem C46_extra_weights {r r' : RigData J} {ws : List ℝ} (h : r.setWeights ws = some r') (hlen : r.weights.length ≤ ws.length) :
    r'.weights.sum * ws.sum = (ws.take r.weights.length).sum := by
  obtain ⟨total, h1, rfl⟩ := setWeights_eq h
  obtain ⟨t1, t2, t3⟩ := totalWeight_some h1
  change (resize _ _ _).sum * _ = _
  unfold resize
  rw [List.length_map, Nat.sub_eq_zero_of_le hlen, List.replicate_zero, List.append_nil, ← List.map_take, sum_div, ← t3, div_mul_cancel₀ _ t2.ne']

/-- C46: as a result two animations that show the same pose blend to another pose, half way to the origin. -/
theorem C46_extra_weights_wrong_pose : ∃ (r r' : RigData simpleJoint), Reach r ∧ r.weights.length = 2 ∧
    (∀ m, some m ∈ r.motivators → simpleJoint.pose m = samplePose 2) ∧ r.setWeights [1, 1, 2] = some r' ∧ r'.weights = [1 / 4, 1 / 4] ∧
    average (r'.bonePoses 0) = (Pose.mk ![1, 0, 0] .one (fun _ => 1 / 2)).matrix ∧ (Pose.mk ![1, 0, 0] .one (fun _ => 1 / 2)).matrix ≠ (samplePose 2).matrix := by
  refine ⟨_, sampleRig [(samplePose 2, samplePose 2), (samplePose 2, samplePose 2)] [1 / 4, 1 / 4],
    Reach.blendToAnims (sample_reach 2) (sample_two 2 2 0 1 1 (by norm_num) (by norm_num) (by norm_num)), rfl, ?_, ?_, rfl, ?_, ?_⟩
  · intro m hm
    obtain ⟨x, hx, e⟩ := List.mem_map.mp hm
    cases e
    rw [if_pos rfl] at hx
    rcases List.mem_cons.mp hx with hx | hx
    · rw [hx]; rfl
    · rw [List.mem_singleton.mp hx]; rfl
  · simp [RigData.setWeights, totalWeight, sampleRig, List.range_succ]
    norm_num
  · have : (sampleRig [(samplePose 2, samplePose 2), (samplePose 2, samplePose 2)] [1 / 4, 1 / 4]).bonePoses 0 =
        [(1 / 4, samplePose 2), (1 / 4, samplePose 2)] := by
      simp [RigData.bonePoses, sampleRig, RigData.numBones, sampleAnim, simpleJoint, List.range_succ]
    rw [this, C46_average]
    have hsqrt : Real.sqrt (1 / 4) = 1 / 2 := by
      rw [show (1 / 4 : ℝ) = (1 / 2) ^ 2 by norm_num, Real.sqrt_sq (by norm_num)]
    have hq : (quatSum ([(1 / 4, samplePose 2), (1 / 4, samplePose 2)].map fun x => (toward (samplePose 2).rotation x.2.rotation).smul x.1)).normalize =
        Quat.one.normalize := by
      have e : quatSum ([(1 / 4, samplePose 2), (1 / 4, samplePose 2)].map fun x => (toward (samplePose 2).rotation x.2.rotation).smul x.1) =
          ⟨1 / 2, 0, 0, 0⟩ := by
        simp [quatSum, samplePose, toward, Quat.one, Quat.dot, Quat.smul, Quat.add]
        norm_num
      rw [e]
      unfold Quat.normalize
      have d1 : Quat.dot ⟨1 / 2, 0, 0, 0⟩ ⟨1 / 2, 0, 0, 0⟩ = 1 / 4 := by simp [Quat.dot]; norm_num
      have d2 : Quat.dot .one .one = 1 := by simp [Quat.dot, Quat.one]
      rw [d1, d2, if_neg (by norm_num), if_neg (by norm_num), hsqrt, Real.sqrt_one]
      simp [Quat.smul, Quat.one]
    rw [hq, Pose.matrix]
    congr 1
    funext q
    have p1 : ([((1 : ℝ) / 4, samplePose 2), (1 / 4, samplePose 2)].map fun x => x.1 • x.2.position).sum = ![1, 0, 0] := by
      ext i; fin_cases i <;> simp [samplePose]; norm_num
    have p2 : ([((1 : ℝ) / 4, samplePose 2), (1 / 4, samplePose 2)].map fun x => x.1 • x.2.scale).sum = fun _ => 1 / 2 := by
      ext i; simp [samplePose]; norm_num
    rw [p1, p2]
  · intro h
    have hn : Quat.one.normalize = some .one := by simp [Quat.normalize, Quat.one, Quat.dot, Quat.smul]
    unfold Pose.matrix samplePose at h
    rw [hn, Option.map_some, Option.map_some] at h
    have := congrFun (congrFun (Option.some.inj h) 0) 3
    simp [transform] at this

/-- A rig that blends two animations meets the hypotheses of C46 and C66. -/
example : ∃ r : RigData simpleJoint, Reach r ∧ 2 ≤ r.weights.length ∧ 0 < r.numBones ∧ r.endTime ≠ kMotiveTimeEndless ∧ r.weights = [1 / 4, 3 / 4] := by
  refine ⟨_, Reach.blendToAnims (sample_reach 2) (sample_two 2 5 7 1 3 (by norm_num) (by norm_num) (by norm_num)), by simp [sampleRig],
    by simp [sampleRig, RigData.numBones, sampleAnim], by simp [sampleRig, kMotiveTimeEndless], ?_⟩
  simp only [sampleRig]
  norm_num

end
end Motive.Rig
