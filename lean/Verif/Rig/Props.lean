import Verif.Rig.Data
/-!
# Properties of rig motivators: C45, C46, C66, C67
-/

namespace Motive.Rig
open Motive.Matrix4

noncomputable section
variable {J : Joint}

/-! ### The loops -/

theorem drive_some {ms ms' : List (Option J.M)} {k : ℕ} {m : Option J.M} {b : BoneAnim J} {pb : Playback}
    (h : drive ms k m b pb = some ms') : ∃ m', J.blend (m.getD (J.create b.sqt)) b.ops pb = some m' ∧ ms' = ms.set k (some m') := by
  unfold drive at h
  cases hb : J.blend (m.getD (J.create b.sqt)) b.ops pb with
  | none => rw [hb] at h; simp at h
  | some m' => rw [hb] at h; exact ⟨m', rfl, (Option.some.inj h).symm⟩

theorem animLoop_some (a : Anim J) (pb : Playback) (n : ℕ) : ∀ (d i : ℕ) (ms ms' : List (Option J.M)), n - i = d →
    animLoop a pb n i ms = some ms' → ms'.length = ms.length ∧ (∀ k, k < i ∨ n ≤ k → ms'[k]? = ms[k]?) ∧
      ∀ k, i ≤ k → k < n → ∃ b m m', a.bones[k]? = some b ∧ ms[k]? = some m ∧ ms'[k]? = some (some m') ∧
        J.blend (m.getD (J.create b.sqt)) b.ops pb = some m' := by
  intro d
  induction d with
  | zero =>
    intro i ms ms' hd h
    rw [animLoop, if_neg (by omega)] at h
    cases h
    exact ⟨rfl, fun _ _ => rfl, fun k h1 h2 => by omega⟩
  | succ d ih =>
    intro i ms ms' hd h
    rw [animLoop, if_pos (by omega)] at h
    cases hb : a.bones[i]? with
    | none => rw [hb] at h; simp at h
    | some b =>
      cases hm : ms[i]? with
      | none => rw [hb, hm] at h; simp at h
      | some m =>
        rw [hb, hm] at h
        simp only at h
        cases hdr : drive ms i m b pb with
        | none => rw [hdr] at h; simp at h
        | some ms1 =>
          rw [hdr] at h
          simp only at h
          obtain ⟨m', h1, rfl⟩ := drive_some hdr
          obtain ⟨l1, l2, l3⟩ := ih (i + 1) _ ms' (by omega) h
          have hi : i < ms.length := (List.getElem?_eq_some_iff.mp hm).1
          refine ⟨by rw [l1, List.length_set], ?_, ?_⟩
          · intro k hk
            rw [l2 k (by omega), List.getElem?_set_ne (by omega)]
          · intro k hk1 hk2
            by_cases hki : k = i
            · subst hki
              refine ⟨b, m, m', hb, hm, ?_, h1⟩
              rw [l2 k (by omega), List.getElem?_set_self hi]
            · obtain ⟨b2, m2, m2', e1, e2, e3, e4⟩ := l3 k (by omega) hk2
              rw [List.getElem?_set_ne (by omega)] at e2
              exact ⟨b2, m2, m2', e1, e2, e3, e4⟩

/-- Where the motivator of bone `k` of animation `i` comes from. `ms` and `ms'` are the motivators before and after. -/
def Origin (old n i k : ℕ) (ms ms' : List (Option J.M)) (b : BoneAnim J) (src : Option J.M) : Prop :=
  if old ≤ i then if old = 1 then ms'[k]? = some src else src = some (J.create b.sqt) else ms[i * n + k]? = some src

theorem boneLoop_some (old : ℕ) (a : Anim J) (pb : Playback) (n i : ℕ) : ∀ (d j : ℕ) (ms ms' : List (Option J.M)), n - j = d →
    boneLoop old a pb n i j ms = some ms' → ms'.length = ms.length ∧ (∀ k, k < i * n + j ∨ i * n + n ≤ k → ms'[k]? = ms[k]?) ∧
      ∀ k, j ≤ k → k < n → ∃ b src m', a.bones[k]? = some b ∧ ms'[i * n + k]? = some (some m') ∧
        J.blend (src.getD (J.create b.sqt)) b.ops pb = some m' ∧ Origin old n i k ms ms' b src := by
  intro d
  induction d with
  | zero =>
    intro j ms ms' hd h
    rw [boneLoop, if_neg (by omega)] at h
    cases h
    exact ⟨rfl, fun _ _ => rfl, fun k h1 h2 => by omega⟩
  | succ d ih =>
    intro j ms ms' hd h
    rw [boneLoop, if_pos (by omega)] at h
    cases hb : a.bones[j]? with
    | none => rw [hb] at h; simp at h
    | some b =>
      cases hm : ms[i * n + j]? with
      | none => rw [hb, hm] at h; simp at h
      | some m =>
        rw [hb, hm] at h
        simp only at h
        cases hs : (if old ≤ i then if old = 1 then ms[j]? else some (some (J.create b.sqt)) else some m) with
        | none => rw [hs] at h; simp at h
        | some src =>
          rw [hs] at h
          simp only at h
          cases hdr : drive ms (i * n + j) src b pb with
          | none => rw [hdr] at h; simp at h
          | some ms1 =>
            rw [hdr] at h
            simp only at h
            obtain ⟨m', h1, rfl⟩ := drive_some hdr
            obtain ⟨l1, l2, l3⟩ := ih (j + 1) _ ms' (by omega) h
            have hi : i * n + j < ms.length := (List.getElem?_eq_some_iff.mp hm).1
            have hfar : ∀ k, k < n → old ≤ i → old = 1 → k < i * n := by
              intro k hk h1 h2
              have : 1 ≤ i := by omega
              calc k < n := hk
                _ = 1 * n := (one_mul n).symm
                _ ≤ i * n := Nat.mul_le_mul_right n this
            refine ⟨by rw [l1, List.length_set], ?_, ?_⟩
            · intro k hk
              rw [l2 k (by omega), List.getElem?_set_ne (by omega)]
            · intro k hk1 hk2
              by_cases hki : k = j
              · subst hki
                refine ⟨b, src, m', hb, ?_, h1, ?_⟩
                · rw [l2 _ (by omega), List.getElem?_set_self hi]
                · unfold Origin
                  split_ifs at hs ⊢ with g1 g2
                  · have := hfar k hk2 g1 g2
                    rw [l2 k (by omega), List.getElem?_set_ne (by omega)]
                    exact hs
                  · exact (Option.some.inj hs).symm
                  · rw [hm]; exact hs
              · obtain ⟨b2, src2, m2', e1, e2, e3, e4⟩ := l3 k (by omega) hk2
                refine ⟨b2, src2, m2', e1, e2, e3, ?_⟩
                unfold Origin at e4 ⊢
                split_ifs at e4 ⊢ with g1 g2
                · exact e4
                · exact e4
                · rwa [List.getElem?_set_ne (by omega)] at e4

theorem animsLoop_some (r : RigData J) (old : ℕ) (as : List (Anim J × Playback)) : ∀ (i : ℕ) (ms ms' : List (Option J.M)),
    r.animsLoop old i as ms = some ms' → ms'.length = ms.length ∧ (∀ k, k < i * r.numBones → ms'[k]? = ms[k]?) ∧
      (∀ k, (i + as.length) * r.numBones ≤ k → ms'[k]? = ms[k]?) ∧
      ∀ t k, (ht : t < as.length) → k < r.numBones → ∃ b src m', as[t].1.bones[k]? = some b ∧
        ms'[(i + t) * r.numBones + k]? = some (some m') ∧
        J.blend (src.getD (J.create b.sqt)) b.ops as[t].2 = some m' ∧ Origin old r.numBones (i + t) k ms ms' b src := by
  induction as with
  | nil =>
    intro i ms ms' h
    cases h
    exact ⟨rfl, fun _ _ => rfl, fun _ _ => rfl, fun t k ht => by simp at ht⟩
  | cons x as ih =>
    obtain ⟨a, pb⟩ := x
    intro i ms ms' h
    rw [RigData.animsLoop] at h
    split_ifs at h with hacc
    cases hb : boneLoop old a pb r.numBones i 0 ms with
    | none => rw [hb] at h; simp at h
    | some ms1 =>
      rw [hb] at h
      simp only at h
      obtain ⟨b1, b2, b3⟩ := boneLoop_some old a pb r.numBones i _ 0 ms ms1 rfl hb
      obtain ⟨l1, l2, l2', l3⟩ := ih (i + 1) ms1 ms' h
      have hmul : (i + 1) * r.numBones = i * r.numBones + r.numBones := by ring
      refine ⟨l1.trans b1, ?_, ?_, ?_⟩
      · intro k hk
        rw [l2 k (by omega), b2 k (by omega)]
      · intro k hk
        have e : (i + (as.length + 1)) * r.numBones = (i + 1 + as.length) * r.numBones := by ring
        have e2 : (i + 1 + as.length) * r.numBones = i * r.numBones + r.numBones + as.length * r.numBones := by ring
        have : 0 ≤ as.length * r.numBones := Nat.zero_le _
        rw [List.length_cons] at hk
        rw [l2' k (by omega), b2 k (by omega)]
      · intro t k ht hk
        cases t with
        | zero =>
          obtain ⟨b, src, m', e1, e2, e3, e4⟩ := b3 k (Nat.zero_le _) hk
          refine ⟨b, src, m', e1, ?_, e3, ?_⟩
          · rw [Nat.add_zero, l2 _ (by omega)]; exact e2
          · unfold Origin at e4 ⊢
            rw [Nat.add_zero]
            split_ifs at e4 ⊢ with g1 g2
            · rw [l2 k (by
                have : 1 * r.numBones ≤ (i + 1) * r.numBones := Nat.mul_le_mul_right _ (by omega)
                omega)]
              exact e4
            · exact e4
            · exact e4
        | succ t =>
          obtain ⟨b, src, m', e1, e2, e3, e4⟩ := l3 t k (by simpa using ht) hk
          have hit : i + (t + 1) = i + 1 + t := by omega
          refine ⟨b, src, m', by simpa using e1, ?_, by simpa using e3, ?_⟩
          · rw [hit]; exact e2
          · unfold Origin at e4 ⊢
            rw [hit]
            split_ifs at e4 ⊢ with g1 g2
            · exact e4
            · exact e4
            · rw [← b2 ((i + 1 + t) * r.numBones + k) (Or.inr ?_)]
              · exact e4
              · have e : (i + 1 + t) * r.numBones = i * r.numBones + r.numBones + t * r.numBones := by ring
                have : 0 ≤ t * r.numBones := Nat.zero_le _
                omega

theorem resize_length {α : Type} (l : List α) (n : ℕ) (x : α) : (resize l n x).length = n := by
  simp [resize]; omega

theorem resize_get {α : Type} (l : List α) (n k : ℕ) (x : α) (hk : k < n) : (resize l n x)[k]? = some (l[k]?.getD x) := by
  unfold resize
  by_cases h : k < l.length
  · rw [List.getElem?_append_left (by simp; omega), List.getElem?_take_of_lt hk, List.getElem?_eq_getElem h]; rfl
  · rw [List.getElem?_append_right (by simp; omega), List.getElem?_replicate, if_pos (by simp; omega), List.getElem?_eq_none (by omega)]; rfl

theorem sum_div (l : List ℝ) (t : ℝ) : (l.map (· / t)).sum = l.sum / t := by
  induction l with
  | nil => simp
  | cons x l ih => rw [List.map_cons, List.sum_cons, List.sum_cons, ih]; ring

theorem totalWeight_some {ws : List ℝ} {t : ℝ} (h : totalWeight ws = some t) : (∀ w ∈ ws, 0 ≤ w) ∧ 0 < t ∧ t = ws.sum := by
  unfold totalWeight at h
  split_ifs at h with h1
  cases h
  exact ⟨h1.1, h1.2, rfl⟩

theorem normalised_div {ws : List ℝ} {t : ℝ} (h : totalWeight ws = some t) : Normalised (ws.map (· / t)) := by
  obtain ⟨h1, h2, h3⟩ := totalWeight_some h
  refine ⟨?_, by rw [sum_div, ← h3, div_self h2.ne']⟩
  intro w hw
  obtain ⟨v, hv, rfl⟩ := List.mem_map.mp hw
  exact div_nonneg (h1 v hv) h2.le

/-! ### Specification: the histories of a rig -/

/-- The states of a rig that the API can reach. `joints` is what the processors of the bones do: they change the state of motivators. -/
inductive Reach : RigData J → Prop
  | new {a : Anim J} {root : ℕ} {time : ℤ} {r : RigData J} : a.parents.length = a.bones.length → InOrder a.parents →
      RigData.new a root time = some r → Reach r
  | blendToAnim {r r' : RigData J} {a : Anim J} {pb : Playback} {time : ℤ} : Reach r → r.blendToAnim a pb time = some r' → Reach r'
  | blendToAnims {r r' : RigData J} {as : List (Anim J × Playback × ℝ)} {time : ℤ} : Reach r → r.blendToAnims as time = some r' → Reach r'
  | setWeights {r r' : RigData J} {ws : List ℝ} : Reach r → ws.length ≤ r.weights.length → r.setWeights ws = some r' → Reach r'
  | setRate {r : RigData J} {x : ℝ} : Reach r → Reach (r.setRate x)
  | setRates {r r' : RigData J} {xs : List ℝ} : Reach r → r.setRates xs = some r' → Reach r'
  | setRepeating {r : RigData J} {b : Bool} : Reach r → Reach (r.setRepeating b)
  | update {r r' : RigData J} : Reach r → r.update = some r' → Reach r'
  | joints {r : RigData J} {ms : List (Option J.M)} : Reach r → ms.map Option.isSome = r.motivators.map Option.isSome →
      Reach { r with motivators := ms }

/-- The invariant. -/
structure Shaped (r : RigData J) : Prop where
  count : r.motivators.length = r.numBones * max 1 r.weights.length
  valid : r.weights ≠ [] → ∀ m ∈ r.motivators, m.isSome
  weights : r.weights.length ≤ 1 ∨ Normalised r.weights
  parents : r.defining.parents.length = r.numBones
  order : InOrder r.defining.parents

theorem update_fields {r r' : RigData J} (h : r.update = some r') : r'.motivators = r.motivators ∧ r'.weights = r.weights ∧
    r'.defining = r.defining ∧ r'.rootBone = r.rootBone ∧ r'.endTime = r.endTime := by
  unfold RigData.update at h
  cases hl : (if r.weights.length ≤ 1 then some r.singleLocals else r.blendedLocals) with
  | none => rw [hl] at h; simp at h
  | some l =>
    rw [hl] at h
    simp only [Option.map_eq_some_iff] at h
    obtain ⟨g, -, rfl⟩ := h
    exact ⟨rfl, rfl, rfl, rfl, rfl⟩

theorem Shaped.of_fields {r r' : RigData J} (hs : Shaped r) (h : r'.motivators.map Option.isSome = r.motivators.map Option.isSome)
    (hw : r'.weights = r.weights) (hd : r'.defining = r.defining) : Shaped r' := by
  have hn : r'.numBones = r.numBones := by unfold RigData.numBones; rw [hd]
  have hl : r'.motivators.length = r.motivators.length := by simpa using congrArg List.length h
  refine ⟨by rw [hl, hn, hw, hs.count], ?_, by rw [hw]; exact hs.weights, by rw [hd, hn]; exact hs.parents, by rw [hd]; exact hs.order⟩
  intro hne m hm
  rw [hw] at hne
  have : m.isSome ∈ r'.motivators.map Option.isSome := List.mem_map_of_mem hm
  rw [h] at this
  obtain ⟨m0, hm0, e⟩ := List.mem_map.mp this
  rw [← e]; exact hs.valid hne m0 hm0

theorem blendToAnim_fields {r r' : RigData J} {a : Anim J} {pb : Playback} {time : ℤ} (h : r.blendToAnim a pb time = some r') :
    ∃ e ms, addTime time a.endTime = some e ∧ animLoop a pb r.numBones 0 (resize r.motivators r.numBones none) = some ms ∧
      r' = { r with motivators := ms, weights := resize r.weights 1 1, endTime := e } := by
  unfold RigData.blendToAnim at h
  cases he : addTime time a.endTime with
  | none => rw [he] at h; simp at h
  | some e =>
    rw [he] at h
    simp only at h
    split_ifs at h with hacc
    cases hl : animLoop a pb r.numBones 0 (resize r.motivators r.numBones none) with
    | none => rw [hl] at h; simp at h
    | some ms => rw [hl] at h; exact ⟨e, ms, rfl, rfl, (Option.some.inj h).symm⟩

theorem blendToAnims_fields {r r' : RigData J} {as : List (Anim J × Playback × ℝ)} {time : ℤ} (h : r.blendToAnims as time = some r') :
    ∃ e ms total, addTime time (as.foldl (fun t a => max t a.1.endTime) 0) = some e ∧ totalWeight (as.map fun a => a.2.2) = some total ∧
      r.animsLoop r.weights.length 0 (as.map fun a => (a.1, a.2.1)) (resize r.motivators (r.numBones * as.length) none) = some ms ∧
      r' = { r with motivators := ms, weights := (as.map fun a => a.2.2).map (· / total), endTime := e } := by
  unfold RigData.blendToAnims at h
  simp only at h
  cases ht : totalWeight (as.map fun a => a.2.2) with
  | none => rw [ht] at h; simp at h
  | some total =>
    cases he : addTime time (as.foldl (fun t a => max t a.1.endTime) 0) with
    | none => rw [ht, he] at h; simp at h
    | some e =>
      rw [ht, he] at h
      simp only at h
      cases hl : r.animsLoop r.weights.length 0 (as.map fun a => (a.1, a.2.1)) (resize r.motivators (r.numBones * as.length) none) with
      | none => rw [hl] at h; simp at h
      | some ms => rw [hl] at h; exact ⟨e, ms, total, rfl, rfl, rfl, (Option.some.inj h).symm⟩

theorem setWeights_eq {r r' : RigData J} {ws : List ℝ} (h : r.setWeights ws = some r') :
    ∃ total, totalWeight ws = some total ∧
      r' = { r with weights := resize (ws.map (· / total)) r.weights.length 0 } := by
  unfold RigData.setWeights at h
  cases ht : totalWeight ws with
  | none => rw [ht] at h; simp at h
  | some total =>
    rw [ht] at h
    refine ⟨total, rfl, ?_⟩
    rw [← Option.some.inj h]
    congr 1
    refine List.ext_getElem? fun k => ?_
    by_cases hk : k < r.weights.length
    · rw [resize_get _ _ _ _ hk, List.getElem?_map, List.getElem?_range hk, Option.map_some, List.getElem?_map]
      by_cases h' : k < ws.length
      · rw [dif_pos h', List.getElem?_eq_getElem h']; rfl
      · rw [dif_neg h', List.getElem?_eq_none (by omega)]; rfl
    · rw [List.getElem?_eq_none (by simpa using hk), List.getElem?_eq_none (by rw [resize_length]; omega)]

theorem rateLoop_spec (rate : ℝ) (base n : ℕ) : ∀ (d j : ℕ) (ms : List (Option J.M)), n - j = d →
    if j < n ∧ ms.length < base + n then rateLoop rate base n j ms = none
    else ∃ ms', rateLoop rate base n j ms = some ms' ∧ ms'.length = ms.length ∧ ∀ x, ms'[x]? =
      if base + j ≤ x ∧ x < base + n then ms[x]?.map (Option.map fun m => J.setRate m rate) else ms[x]? := by
  intro d
  induction d with
  | zero =>
    intro j ms hd
    rw [if_neg (by omega)]
    refine ⟨ms, by rw [rateLoop, if_neg (by omega)], rfl, fun x => ?_⟩
    rw [if_neg (by omega)]
  | succ d ih =>
    intro j ms hd
    by_cases hm : base + j < ms.length
    · have hu : rateLoop rate base n j ms = rateLoop rate base n (j + 1) (ms.set (base + j) (ms[base + j].map fun m => J.setRate m rate)) := by
        rw [rateLoop, if_pos (by omega), List.getElem?_eq_getElem hm]
      rw [hu]
      have := ih (j + 1) (ms.set (base + j) (ms[base + j].map fun m => J.setRate m rate)) (by omega)
      rw [List.length_set] at this
      by_cases hl : ms.length < base + n
      · rw [if_pos (by omega)] at this
        rw [if_pos (by omega), this]
      · rw [if_neg (by omega)] at this
        rw [if_neg (by omega)]
        obtain ⟨ms', h1, h2, h3⟩ := this
        refine ⟨ms', h1, h2, fun x => ?_⟩
        rw [h3 x]
        by_cases hx : base + j = x
        · subst hx
          rw [if_neg (by omega), if_pos (by omega), List.getElem?_set_self hm, List.getElem?_eq_getElem hm]
          rfl
        · rw [List.getElem?_set_ne hx]
          by_cases hx2 : base + (j + 1) ≤ x ∧ x < base + n
          · rw [if_pos hx2, if_pos (by omega)]
          · rw [if_neg hx2, if_neg (by omega)]
    · rw [if_pos (by omega), rateLoop, if_pos (by omega), List.getElem?_eq_none (by omega)]

theorem ratesLoop_spec {n : ℕ} (hn : 0 < n) : ∀ (rates : List ℝ) (i : ℕ) (ms : List (Option J.M)),
    if ms.length < (i + rates.length) * n ∧ rates ≠ [] then ratesLoop n i rates ms = none
    else ∃ ms', ratesLoop n i rates ms = some ms' ∧ ms'.length = ms.length ∧ ∀ a k, k < n → ms'[a * n + k]? =
      if h : i ≤ a ∧ a < i + rates.length then ms[a * n + k]?.map (Option.map fun m => J.setRate m rates[a - i]) else ms[a * n + k]? := by
  intro rates
  induction rates with
  | nil =>
    intro i ms
    rw [if_neg (by simp)]
    refine ⟨ms, rfl, rfl, fun a k _ => ?_⟩
    rw [dif_neg (by simp)]
  | cons rate rates ih =>
    intro i ms
    rw [ratesLoop]
    have h1 := rateLoop_spec rate (i * n) n n 0 ms rfl
    have hexp : (i + (rate :: rates).length) * n = (i + 1 + rates.length) * n := by rw [List.length_cons]; ring
    have hbig : i * n + n ≤ (i + 1 + rates.length) * n := by nlinarith [Nat.zero_le (rates.length * n)]
    by_cases hl : ms.length < i * n + n
    · rw [if_pos ⟨hn, hl⟩] at h1
      rw [h1, if_pos ⟨by omega, by simp⟩]
    · rw [if_neg (by omega)] at h1
      obtain ⟨ms1, e1, e2, e3⟩ := h1
      rw [e1]
      simp only
      have h2 := ih (i + 1) ms1
      rw [e2] at h2
      by_cases hr : ms.length < (i + 1 + rates.length) * n ∧ rates ≠ []
      · rw [if_pos hr] at h2
        rw [if_pos ⟨by omega, by simp⟩, h2]
      · rw [if_neg hr] at h2
        obtain ⟨ms2, f1, f2, f3⟩ := h2
        have hneg : ¬ (ms.length < (i + (rate :: rates).length) * n ∧ rate :: rates ≠ []) := by
          rintro ⟨g1, -⟩
          rw [hexp] at g1
          refine hr ⟨g1, ?_⟩
          rintro rfl
          simp at g1
          nlinarith
        rw [if_neg hneg]
        refine ⟨ms2, f1, f2, fun a k hk => ?_⟩
        rw [f3 a k hk, e3]
        rcases Nat.lt_trichotomy a i with ha | ha | ha
        · have : a * n + n ≤ i * n := by nlinarith
          rw [dif_neg (by omega), if_neg (by omega), dif_neg (by omega)]
        · subst ha
          rw [dif_neg (by omega), if_pos (by omega), dif_pos (by simp)]
          simp
        · have : i * n + n ≤ a * n := by nlinarith
          rw [if_neg (by omega)]
          by_cases hb : a < i + 1 + rates.length
          · have : a - i = (a - (i + 1)) + 1 := by omega
            rw [dif_pos (by omega), dif_pos (by rw [List.length_cons]; omega)]
            simp [this]
          · rw [dif_neg (by omega), dif_neg (by rw [List.length_cons]; omega)]

theorem ratesLoop_valid (n : ℕ) (rates : List ℝ) (i : ℕ) (ms ms' : List (Option J.M)) (h : ratesLoop n i rates ms = some ms') :
    ms'.map Option.isSome = ms.map Option.isSome := by
  rcases Nat.eq_zero_or_pos n with rfl | hn
  · have : ∀ (rates : List ℝ) (i : ℕ), ratesLoop 0 i rates ms = some ms := by
      intro rates
      induction rates with
      | nil => intro i; rfl
      | cons x rates ih => intro i; rw [ratesLoop, rateLoop, if_neg (by omega)]; exact ih (i + 1)
    rw [this] at h
    cases h; rfl
  · have hs := ratesLoop_spec hn rates i ms
    split_ifs at hs
    · rw [h] at hs; cases hs
    · obtain ⟨ms2, e1, -, e3⟩ := hs
      rw [h] at e1
      cases e1
      refine List.ext_getElem? fun x => ?_
      rw [List.getElem?_map, List.getElem?_map, show x = x / n * n + x % n by rw [Nat.mul_comm]; exact (Nat.div_add_mod x n).symm,
        e3 _ _ (Nat.mod_lt x hn)]
      split_ifs
      · cases ms[x / n * n + x % n]? <;> simp
      · rfl

theorem shaped_blendToAnims {r r' : RigData J} {as : List (Anim J × Playback × ℝ)} {time : ℤ} (hs : Shaped r)
    (h : r.blendToAnims as time = some r') : Shaped r' := by
  obtain ⟨e, ms, total, -, h2, h3, rfl⟩ := blendToAnims_fields h
  obtain ⟨l1, -, -, l3⟩ := animsLoop_some r _ _ 0 _ _ h3
  have hpos : 1 ≤ as.length := by
    by_contra hc
    have : as = [] := List.length_eq_zero_iff.mp (by omega)
    subst this
    have := (totalWeight_some h2).2
    simp at this
    linarith [this.1, this.2]
  refine ⟨?_, ?_, Or.inr (normalised_div h2), hs.parents, hs.order⟩
  · change ms.length = r.numBones * max 1 ((as.map fun a => a.2.2).map (· / total)).length
    rw [l1, resize_length, List.length_map, List.length_map, Nat.max_eq_right hpos]
  · intro _ m hm
    obtain ⟨idx, hidx, rfl⟩ := List.getElem_of_mem hm
    change idx < ms.length at hidx
    have hlt : idx < r.numBones * as.length := by rwa [l1, resize_length] at hidx
    have hn : 0 < r.numBones := by
      by_contra hc
      have : r.numBones = 0 := by omega
      rw [this, Nat.zero_mul] at hlt
      omega
    have hdiv : idx / r.numBones < as.length := Nat.div_lt_of_lt_mul hlt
    obtain ⟨b, src, m', -, e2, -⟩ := l3 (idx / r.numBones) (idx % r.numBones) (by simpa using hdiv) (Nat.mod_lt _ hn)
    have hidx' : (0 + idx / r.numBones) * r.numBones + idx % r.numBones = idx := by
      rw [Nat.zero_add, Nat.mul_comm]; exact Nat.div_add_mod idx r.numBones
    rw [hidx', List.getElem?_eq_getElem hidx] at e2
    change (ms[idx]).isSome
    rw [Option.some.inj e2]; rfl

theorem Reach.shaped {r : RigData J} (h : Reach r) : Shaped r := by
  induction h with
  | @new a root time r h1 h2 h3 =>
    obtain ⟨e1, e2, e3, -⟩ := update_fields h3
    have hn : r.numBones = a.bones.length := by unfold RigData.numBones; rw [e3]
    refine ⟨by rw [e1, e2, hn]; simp, by intro h; rw [e2] at h; exact absurd rfl h, Or.inl (by rw [e2]; simp),
      by rw [e3, hn]; exact h1, by rw [e3]; exact h2⟩
  | @blendToAnim r r' a pb time hr h hs =>
    obtain ⟨e, ms, -, h2, rfl⟩ := blendToAnim_fields h
    obtain ⟨l1, -, l3⟩ := animLoop_some a pb _ _ 0 _ _ rfl h2
    have hw : (resize r.weights 1 1).length = 1 := resize_length _ _ _
    refine ⟨?_, ?_, Or.inl hw.le, hs.parents, hs.order⟩
    · change ms.length = r.numBones * max 1 (resize r.weights 1 1).length
      rw [l1, resize_length, hw]; simp
    · intro _ m hm
      obtain ⟨idx, hidx, rfl⟩ := List.getElem_of_mem hm
      change idx < ms.length at hidx
      obtain ⟨b, m0, m', -, -, e3, -⟩ := l3 idx (Nat.zero_le _) (by rwa [l1, resize_length] at hidx)
      rw [List.getElem?_eq_getElem hidx] at e3
      change (ms[idx]).isSome
      rw [Option.some.inj e3]; rfl
  | @blendToAnims r r' as time hr h hs => exact shaped_blendToAnims hs h
  | @setWeights r r' ws hr hlen h hs =>
    obtain ⟨total, h1, rfl⟩ := setWeights_eq h
    have hl : (resize (ws.map (· / total)) r.weights.length 0).length = r.weights.length := resize_length _ _ _
    refine ⟨?_, ?_, ?_, hs.parents, hs.order⟩
    · change r.motivators.length = r.numBones * max 1 (resize (ws.map (· / total)) r.weights.length 0).length
      rw [hl]; exact hs.count
    · intro hne
      refine hs.valid fun h0 => hne ?_
      exact List.length_eq_zero_iff.mp (by rw [hl, h0]; rfl)
    · right
      have hn := normalised_div h1
      change Normalised (resize _ _ _)
      unfold resize
      rw [List.take_of_length_le (by simpa using hlen)]
      refine ⟨?_, by rw [List.sum_append, hn.2]; simp⟩
      intro w hw
      rcases List.mem_append.mp hw with hw | hw
      · exact hn.1 w hw
      · rw [List.eq_of_mem_replicate hw]
  | @setRate r x hr hs => exact hs.of_fields (by simp [RigData.setRate]) rfl rfl
  | @setRates r r' xs hr h hs =>
    unfold RigData.setRates at h
    rw [Option.map_eq_some_iff] at h
    obtain ⟨ms, h1, rfl⟩ := h
    exact hs.of_fields (ratesLoop_valid _ _ _ _ _ h1) rfl rfl
  | @setRepeating r x hr hs => exact hs.of_fields (by simp [RigData.setRepeating]) rfl rfl
  | @update r r' hr h hs =>
    obtain ⟨e1, e2, e3, -⟩ := update_fields h
    exact hs.of_fields (by rw [e1]) e2 e3
  | @joints r ms hr h hs => exact hs.of_fields h rfl rfl

/-! ### C46: the weights -/

/-- C46: in every history, if more than one animation is blended then the weights are not negative and their sum is 1. -/
theorem C46_weights_normalised {r : RigData J} (h : Reach r) (h2 : 2 ≤ r.weights.length) : (∀ w ∈ r.weights, 0 ≤ w) ∧ r.weights.sum = 1 :=
  h.shaped.weights.resolve_left (by omega)

/-- C46: `BlendToAnims` accepts exactly weights that are not negative and have a positive sum, and keeps their proportions. -/
theorem C46_proportional {r r' : RigData J} {as : List (Anim J × Playback × ℝ)} {time : ℤ} (h : r.blendToAnims as time = some r') :
    (∀ a ∈ as, 0 ≤ a.2.2) ∧ 0 < (as.map fun a => a.2.2).sum ∧ r'.weights.length = as.length ∧
      ∀ i (hi : i < as.length), ∃ w, r'.weights[i]? = some w ∧ w * (as.map fun a => a.2.2).sum = as[i].2.2 := by
  obtain ⟨e, ms, total, -, h2, -, rfl⟩ := blendToAnims_fields h
  obtain ⟨t1, t2, t3⟩ := totalWeight_some h2
  refine ⟨fun a ha => t1 _ (List.mem_map_of_mem (f := fun a : Anim J × Playback × ℝ => a.2.2) ha), t3 ▸ t2, by simp, ?_⟩
  intro i hi
  refine ⟨as[i].2.2 / total, by simp [hi], ?_⟩
  rw [← t3, div_mul_cancel₀ _ t2.ne']

/-- C46: `SetWeights` with no more weights than there are animations keeps their proportions; the other animations get no weight. -/
theorem C46_setWeights {r r' : RigData J} {ws : List ℝ} (h : r.setWeights ws = some r') (hlen : ws.length ≤ r.weights.length) :
    r'.weights.length = r.weights.length ∧ r'.weights.sum = 1 ∧ r'.motivators = r.motivators ∧
      (∀ i (hi : i < ws.length), ∃ w, r'.weights[i]? = some w ∧ w * ws.sum = ws[i]) ∧
      (∀ i, ws.length ≤ i → i < r.weights.length → r'.weights[i]? = some 0) := by
  obtain ⟨total, h1, rfl⟩ := setWeights_eq h
  obtain ⟨t1, t2, t3⟩ := totalWeight_some h1
  refine ⟨resize_length _ _ _, ?_, rfl, ?_, ?_⟩
  · change (resize _ _ _).sum = 1
    unfold resize
    rw [List.take_of_length_le (by simpa using hlen), List.sum_append, (normalised_div h1).2]; simp
  · intro i hi
    refine ⟨ws[i] / total, ?_, ?_⟩
    · change (resize _ _ _)[i]? = _
      rw [resize_get _ _ _ _ (by omega), List.getElem?_map, List.getElem?_eq_getElem hi]; rfl
    · rw [← t3, div_mul_cancel₀ _ t2.ne']
  · intro i h1 h2
    change (resize _ _ _)[i]? = _
    rw [resize_get _ _ _ _ h2, List.getElem?_map, List.getElem?_eq_none h1]; rfl

/-! ### C45: the transforms of a rig -/

/-- C45 for a rig that plays one animation: whatever the history, the global transform of a bone is the product of the values of the
motivators along its path. Weights play no part. -/
theorem C45_rig_single {r : RigData J} (h : Reach r) (h1 : r.weights.length = 1) (haff : ∀ m : J.M, some m ∈ r.motivators → IsAffine (J.matrix m)) :
    ∃ r', r.update = some r' ∧ r'.transforms.length = r.numBones ∧ ∀ i < r.numBones, ∃ path, Path r.defining.parents path i ∧
      ∃ ms : List Mat4, ms.length = path.length ∧
        (∀ k (hk : k < path.length), ∃ m, r.motivators[path[k]]? = some (some m) ∧ ms[k]? = some (if path[k] = r.rootBone then 1 else J.matrix m)) ∧
        r'.transforms[i]? = some (toAffine ms.prod) := by
  have hs := h.shaped
  have hcount : r.motivators.length = r.numBones := by rw [hs.count, h1]; simp
  have hne : r.weights ≠ [] := by intro h0; rw [h0] at h1; simp at h1
  have hget : ∀ i < r.numBones, ∃ m, r.motivators[i]? = some (some m) := by
    intro i hi
    have hi' : i < r.motivators.length := by omega
    obtain ⟨m, hm⟩ := Option.isSome_iff_exists.mp (hs.valid hne _ (List.getElem_mem hi'))
    exact ⟨m, by rw [List.getElem?_eq_getElem hi', hm]⟩
  have hloc : ∀ i < r.numBones, ∀ m, r.motivators[i]? = some (some m) → r.singleLocals[i]? = some (J.matrix m) := by
    intro i hi m hm
    unfold RigData.singleLocals
    rw [List.getElem?_map, List.getElem?_range hi, Option.map_some, List.getD_eq_getElem?_getD, hm]; rfl
  have hlen : r.defining.parents.length = r.singleLocals.length := by rw [hs.parents]; simp [RigData.singleLocals]
  obtain ⟨g, g1, g2, g3, -⟩ := C45_globals r.defining.parents r.singleLocals r.rootBone r.rootMotion hlen hs.order (by
    intro x hx
    obtain ⟨i, hi, rfl⟩ := List.getElem_of_mem hx
    have hi' : i < r.numBones := by rw [← hs.parents, hlen]; exact hi
    obtain ⟨m, hm⟩ := hget i hi'
    have := hloc i hi' m hm
    rw [List.getElem?_eq_getElem hi] at this
    rw [Option.some.inj this]
    exact haff m (List.mem_of_getElem? hm))
  refine ⟨{ r with transforms := g.out, rootMotion := g.rootMotion }, ?_, by rw [← hs.parents]; exact g2, ?_⟩
  · unfold RigData.update
    rw [if_pos h1.le]
    simp only [g1, Option.map_some]
  · intro i hi
    obtain ⟨path, hp, ho⟩ := g3 i (by rw [hs.parents]; exact hi)
    refine ⟨path, hp, _, by rw [List.length_map], ?_, ho⟩
    intro k hk
    have hmem : path[k] < r.numBones := by
      have : ∀ {p : List ℕ} {i : ℕ}, Path r.defining.parents p i → ∀ x ∈ p, x < r.numBones := by
        intro p i hp
        have hb : ∀ {j q : ℕ}, r.defining.parents[j]? = some q → j < r.numBones := fun h => by
          rw [← hs.parents]; exact (List.getElem?_eq_some_iff.mp h).1
        induction hp with
        | root h => intro x hx; rw [List.mem_singleton] at hx; rw [hx]; exact hb h
        | child h _ _ ih =>
          intro x hx
          rcases List.mem_append.mp hx with hx | hx
          · exact ih x hx
          · rw [List.mem_singleton] at hx; rw [hx]; exact hb h
      exact this hp _ (List.getElem_mem hk)
    obtain ⟨m, hm⟩ := hget _ hmem
    refine ⟨m, hm, ?_⟩
    rw [List.getElem?_map, List.getElem?_eq_getElem hk, Option.map_some, List.getD_eq_getElem?_getD, hloc _ hmem m hm]; rfl

/-- C45 and C46 for a rig that blends animations: the global transform of a bone is the product of the averages along its path. -/
theorem C45_rig_blended {r : RigData J} (h : Reach r) (h2 : 2 ≤ r.weights.length) (locals : List Mat4)
    (hl : ∀ i < r.numBones, ∃ (poses : List (ℝ × Pose)) (m : Mat4), poses.map Prod.fst = r.weights ∧
      (∀ j < r.weights.length, ∃ x p, r.motivators[i + j * r.numBones]? = some (some x) ∧ poses[j]? = some p ∧ p.2 = J.pose x) ∧
      average poses = some m ∧ locals[i]? = some m) (hlen : locals.length = r.numBones) :
    ∃ r', r.update = some r' ∧ r'.transforms.length = r.numBones ∧ ∀ i < r.numBones, ∃ path, Path r.defining.parents path i ∧
        r'.transforms[i]? = some (toAffine (path.map fun b => if b = r.rootBone then 1 else locals.getD b 1).prod) := by
  have hs := h.shaped
  have hav : ∀ i (hi : i < r.numBones), average (r.bonePoses i) = some (locals[i]'(by omega)) := by
    intro i hi
    obtain ⟨poses, m, p1, p2, p3, p4⟩ := hl i hi
    rw [List.getElem?_eq_getElem (by omega)] at p4
    rw [Option.some.inj p4, ← p3]
    congr 1
    have plen : poses.length = r.weights.length := by rw [← p1, List.length_map]
    refine List.ext_getElem? fun j => ?_
    by_cases hj : j < r.weights.length
    · obtain ⟨x, p, q1, q2, q3⟩ := p2 j hj
      unfold RigData.bonePoses
      rw [List.getElem?_map, List.getElem?_range hj, Option.map_some, q2]
      congr 1
      have hw : (poses.map Prod.fst)[j]? = some p.1 := by rw [List.getElem?_map, q2]; rfl
      rw [p1] at hw
      rw [List.getD_eq_getElem?_getD, hw, List.getD_eq_getElem?_getD, q1]
      ext1
      · rfl
      · exact q3.symm
    · rw [List.getElem?_eq_none (by simp [RigData.bonePoses]; omega), List.getElem?_eq_none (by omega)]
  have hbl : r.blendedLocals = some locals := by
    unfold RigData.blendedLocals
    have : ∀ (l : List ℕ), (∀ i ∈ l, i < r.numBones) → l.mapM (fun i => average (r.bonePoses i)) = some (l.map fun i => locals.getD i 1) := by
      intro l hl
      induction l with
      | nil => rfl
      | cons i l ih =>
        have hi := hl i (by simp)
        rw [List.mapM_cons, hav i hi, ih (fun x hx => hl x (by simp [hx]))]
        simp [pure, bind, List.getElem?_eq_getElem (show i < locals.length by omega)]
    rw [this _ (by simp)]
    congr 1
    refine List.ext_getElem? fun j => ?_
    rw [List.getElem?_map]
    by_cases hj : j < r.numBones
    · rw [List.getElem?_range hj, Option.map_some, List.getD_eq_getElem?_getD, List.getElem?_eq_getElem (by omega)]; rfl
    · rw [List.getElem?_eq_none (by simpa using hj), List.getElem?_eq_none (by omega)]; rfl
  have taff : ∀ t R s, IsAffine (transform t R s) := by
    intro t R s; unfold IsAffine; ext j; fin_cases j <;> rfl
  obtain ⟨g, g1, g2, g3, -⟩ := C45_globals r.defining.parents locals r.rootBone r.rootMotion (by rw [hs.parents, hlen]) hs.order (by
    intro x hx
    obtain ⟨i, hi, rfl⟩ := List.getElem_of_mem hx
    have := hav i (by omega)
    unfold average at this
    rw [Option.map_eq_some_iff] at this
    obtain ⟨q, -, e⟩ := this
    rw [← e]; exact taff _ _ _)
  refine ⟨{ r with transforms := g.out, rootMotion := g.rootMotion }, ?_, by rw [← hs.parents]; exact g2, ?_⟩
  · unfold RigData.update
    rw [if_neg (by omega), hbl]
    simp only [g1, Option.map_some]
  · intro i hi
    exact g3 i (by rw [hs.parents]; exact hi)

end
end Motive.Rig
